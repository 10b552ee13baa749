import Verif.Proof.Hmac
import Verif.Props.C26_Ripemd
/-
C31: `MAC.hmac_*` objects compute HMAC (RFC 2104).
-/
namespace Verif

theorem digestBE_length (k : Nat) (ws : List (BitVec w)) :
    (Spec.digestBE k ws).length = k * ws.length := by
  unfold Spec.digestBE
  rw [flatten_length_of _ (n := k) (by simp), List.length_map]

theorem SHA1_length (m : Bytes) : (Spec.SHA1 m).length = 20 := by
  simp [Spec.SHA1, digestBE_length]
theorem SHA224_length (m : Bytes) : (Spec.SHA224 m).length = 28 := by
  simp [Spec.SHA224, digestBE_length, Spec.sha2Words]
theorem SHA256_length (m : Bytes) : (Spec.SHA256 m).length = 32 := by
  simp [Spec.SHA256, digestBE_length, Spec.sha2Words]
theorem SHA384_length (m : Bytes) : (Spec.SHA384 m).length = 48 := by
  simp [Spec.SHA384, digestBE_length, Spec.sha2Words]
theorem SHA512_length (m : Bytes) : (Spec.SHA512 m).length = 64 := by
  simp [Spec.SHA512, digestBE_length, Spec.sha2Words]
theorem RIPEMD160_length (m : Bytes) : (Spec.RIPEMD160 m).length = 20 := by
  simp [Spec.RIPEMD160]

/-- C31, the functor: over any hash class whose new objects (`new`) compute `H`, with digests no
longer than the block size, `new hmac key` succeeds and the object computes HMAC-H. -/
theorem C31_hmac (h : HashObj τ) (new : τ → Prop) (H : Bytes → Bytes) (B : Nat)
    (computes : ∀ s, new s → h.Computes s H) (short : ∀ m, (H m).length ≤ B)
    (small : B ≤ maxString) (wipe : ∀ s, ∃ s', h.wipe s = .ok () s')
    (fresh : Nat → τ) (hf : ∀ i, new (fresh i)) (s : τ) (hs : new s)
    (key : Bytes) (hk : key.length ≤ maxString) :
    ∃ s1, hmacNew h B fresh key s = .ok () s1 ∧
      (hmac h B fresh key).Computes s1 (Spec.HMAC H B key) :=
  hmac_computes computes short small wipe hf hs hk

/-- C31 for `hmac_sha1`. `buf0 i` is the uninitialised part of the `i`-th hash object created. -/
theorem C31_hmac_sha1 (buf0 : Nat → Bytes) (hb : ∀ i, (buf0 i).length = 64) (key : Bytes)
    (hk : key.length ≤ maxString) :
    ∃ s1, hmacNew sha1 64 (fun i => sha1Init (buf0 (i + 1))) key (sha1Init (buf0 0)) = .ok () s1 ∧
      (hmac sha1 64 (fun i => sha1Init (buf0 (i + 1))) key).Computes s1
        (Spec.HMAC Spec.SHA1 64 key) :=
  C31_hmac _ (fun s => ∃ i, s = sha1Init (buf0 i)) _ _
    (by rintro _ ⟨i, rfl⟩; exact C22_sha1 _ (hb i)) (fun m => by rw [SHA1_length]; decide)
    (by decide +kernel) (fun _ => ⟨_, rfl⟩) _ (fun i => ⟨i + 1, rfl⟩) _ ⟨0, rfl⟩ key hk

/-- C31 for `hmac_sha256`. -/
theorem C31_hmac_sha256 (buf0 : Nat → Bytes) (hb : ∀ i, (buf0 i).length = 64) (key : Bytes)
    (hk : key.length ≤ maxString) :
    ∃ s1, hmacNew sha256 64 (fun i => sha256Init (buf0 (i + 1))) key (sha256Init (buf0 0))
        = .ok () s1 ∧
      (hmac sha256 64 (fun i => sha256Init (buf0 (i + 1))) key).Computes s1
        (Spec.HMAC Spec.SHA256 64 key) :=
  C31_hmac _ (fun s => ∃ i, s = sha256Init (buf0 i)) _ _
    (by rintro _ ⟨i, rfl⟩; exact C23_sha256 _ (hb i)) (fun m => by rw [SHA256_length]; decide)
    (by decide +kernel) (fun _ => ⟨_, rfl⟩) _ (fun i => ⟨i + 1, rfl⟩) _ ⟨0, rfl⟩ key hk

/-- C31 for `hmac_sha384`. -/
theorem C31_hmac_sha384 (buf0 : Nat → Bytes) (hb : ∀ i, (buf0 i).length = 128) (key : Bytes)
    (hk : key.length ≤ maxString) :
    ∃ s1, hmacNew sha384 128 (fun i => sha384Init (buf0 (i + 1))) key (sha384Init (buf0 0))
        = .ok () s1 ∧
      (hmac sha384 128 (fun i => sha384Init (buf0 (i + 1))) key).Computes s1
        (Spec.HMAC Spec.SHA384 128 key) :=
  C31_hmac _ (fun s => ∃ i, s = sha384Init (buf0 i)) _ _
    (by rintro _ ⟨i, rfl⟩; exact C24_sha384 _ (hb i)) (fun m => by rw [SHA384_length]; decide)
    (by decide +kernel) (fun _ => ⟨_, rfl⟩) _ (fun i => ⟨i + 1, rfl⟩) _ ⟨0, rfl⟩ key hk

/-- C31 for `hmac_sha512`. -/
theorem C31_hmac_sha512 (buf0 : Nat → Bytes) (hb : ∀ i, (buf0 i).length = 128) (key : Bytes)
    (hk : key.length ≤ maxString) :
    ∃ s1, hmacNew sha512 128 (fun i => sha512Init (buf0 (i + 1))) key (sha512Init (buf0 0))
        = .ok () s1 ∧
      (hmac sha512 128 (fun i => sha512Init (buf0 (i + 1))) key).Computes s1
        (Spec.HMAC Spec.SHA512 128 key) :=
  C31_hmac _ (fun s => ∃ i, s = sha512Init (buf0 i)) _ _
    (by rintro _ ⟨i, rfl⟩; exact C24_sha512 _ (hb i)) (fun m => by rw [SHA512_length]; decide)
    (by decide +kernel) (fun _ => ⟨_, rfl⟩) _ (fun i => ⟨i + 1, rfl⟩) _ ⟨0, rfl⟩ key hk

/-- C31 for `hmac_ripemd160`. -/
theorem C31_hmac_ripemd160 (buf0 : Nat → Bytes) (hb : ∀ i, (buf0 i).length = 64) (key : Bytes)
    (hk : key.length ≤ maxString) :
    ∃ s1, hmacNew ripemd160 64 (fun i => rmdInit (buf0 (i + 1))) key (rmdInit (buf0 0))
        = .ok () s1 ∧
      (hmac ripemd160 64 (fun i => rmdInit (buf0 (i + 1))) key).Computes s1
        (Spec.HMAC Spec.RIPEMD160 64 key) :=
  C31_hmac _ (fun s => ∃ i, s = rmdInit (buf0 i)) _ _
    (by rintro _ ⟨i, rfl⟩; exact C26_ripemd160 _ (hb i)) (fun m => by rw [RIPEMD160_length]; decide)
    (by decide +kernel) (fun _ => ⟨_, rfl⟩) _ (fun i => ⟨i + 1, rfl⟩) _ ⟨0, rfl⟩ key hk

namespace Example

def fresh0 (i : Nat) : Sha1Ctx := sha1Init (List.replicate 64 (BitVec.ofNat 8 i))

/-- RFC 2202, test case 2 (key "Jefe"), obtained by running the model. -/
theorem hmac_sha1_jefe :
    Spec.HMAC Spec.SHA1 64 (ascii "Jefe") (ascii "what do ya want for nothing?")
      = natToBE 20 0xeffcdf6ae5eb2fa2d27416d5f184df9c259a7c79 := by
  obtain ⟨s1, h1, hc⟩ := C31_hmac_sha1 (fun i => List.replicate 64 (BitVec.ofNat 8 i)) (by simp)
    (ascii "Jefe") (by decide +kernel)
  have h := hc [.addString (ascii "what do ya want for nothing?")] (by
    intro op ho
    rw [List.mem_singleton] at ho
    rw [ho]
    exact (by decide +kernel : (ascii "what do ya want for nothing?").length ≤ maxString))
  have e : (match hmacNew sha1 64 (fun i => fresh0 (i + 1)) (ascii "Jefe") (fresh0 0) with
      | .ok _ s1 => ((hmac sha1 64 (fun i => fresh0 (i + 1)) (ascii "Jefe")).digest
          [.addString (ascii "what do ya want for nothing?")] s1).observe
      | _ => none) = some (.ok (natToBE 20 0xeffcdf6ae5eb2fa2d27416d5f184df9c259a7c79)) := by
    decide +kernel
  have h1' : hmacNew sha1 64 (fun i => fresh0 (i + 1)) (ascii "Jefe") (fresh0 0) = .ok () s1 := h1
  rw [h1'] at e
  have e2 := e.symm.trans h
  simpa [hinputOf, HOp.input] using e2.symm

end Example

end Verif
