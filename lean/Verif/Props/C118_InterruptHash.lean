import Verif.Proof.InterruptHash
import Verif.Props.C22_C24_SHA
import Verif.Props.C26_Ripemd
import Verif.Props.C27_SHA3
import Verif.Props.C28_Blake2
import Verif.Props.C30_SipHash
import Verif.Props.C31_Hmac
import Verif.Props.C63_C65_Safety
/-
C118: hash functions and HMAC under asynchronous exceptions.
-/
namespace Verif

open Spec

/-- C118, all the classes: whatever function an object computes when it is not interrupted, its additions
are all or nothing when it is. -/
theorem C118_all_or_nothing {h : HashObj τ} {t : τ} {f : Bytes → Bytes} (hf : h.Computes t f) (sched : Sched) :
    AllOrNothing h.interruptible (sched, t) f :=
  fun _ _ _ _ ha hr => attempts_result hf (interruptible_call h) interruptible_ok ha hr

/-- C118 for SHA-1. -/
theorem C118_sha1 (buf0 : Bytes) (hb : buf0.length = 64) (sched : Sched) :
    AllOrNothing sha1.interruptible (sched, sha1Init buf0) Spec.SHA1 :=
  C118_all_or_nothing (C22_sha1 buf0 hb) sched

/-- C118 for SHA-224. -/
theorem C118_sha224 (buf0 : Bytes) (hb : buf0.length = 64) (sched : Sched) :
    AllOrNothing sha224.interruptible (sched, sha224Init buf0) Spec.SHA224 :=
  C118_all_or_nothing (C23_sha224 buf0 hb) sched

/-- C118 for SHA-256. -/
theorem C118_sha256 (buf0 : Bytes) (hb : buf0.length = 64) (sched : Sched) :
    AllOrNothing sha256.interruptible (sched, sha256Init buf0) Spec.SHA256 :=
  C118_all_or_nothing (C23_sha256 buf0 hb) sched

/-- C118 for SHA-384. -/
theorem C118_sha384 (buf0 : Bytes) (hb : buf0.length = 128) (sched : Sched) :
    AllOrNothing sha384.interruptible (sched, sha384Init buf0) Spec.SHA384 :=
  C118_all_or_nothing (C24_sha384 buf0 hb) sched

/-- C118 for SHA-512. -/
theorem C118_sha512 (buf0 : Bytes) (hb : buf0.length = 128) (sched : Sched) :
    AllOrNothing sha512.interruptible (sched, sha512Init buf0) Spec.SHA512 :=
  C118_all_or_nothing (C24_sha512 buf0 hb) sched

/-- C118 for RIPEMD-160. -/
theorem C118_ripemd160 (buf0 : Bytes) (hb : buf0.length = 64) (sched : Sched) :
    AllOrNothing ripemd160.interruptible (sched, rmdInit buf0) Spec.RIPEMD160 :=
  C118_all_or_nothing (C26_ripemd160 buf0 hb) sched

/-- C118 for SHA-3. -/
theorem C118_sha3 (sz : Int) (buf0 : Bytes) (s : Option Sha3Ctx) (h : sha3New sz buf0 = .ok s)
    (hb : (buf0.length : Int) = 200 - 2 * (sz / 8)) (sched : Sched) :
    AllOrNothing (sha3Class sz.toNat true).interruptible (sched, s) (Spec.SHA3 sz.toNat) :=
  C118_all_or_nothing (C27_sha3 sz buf0 s h hb) sched

/-- C118 for Keccak. -/
theorem C118_keccak (sz : Int) (buf0 : Bytes) (s : Option Sha3Ctx) (h : sha3New sz buf0 = .ok s)
    (hb : (buf0.length : Int) = 200 - 2 * (sz / 8)) (sched : Sched) :
    AllOrNothing (sha3Class sz.toNat false).interruptible (sched, s) (Spec.Keccak sz.toNat) :=
  C118_all_or_nothing (C27_keccak sz buf0 s h hb) sched

/-- C118 for BLAKE2b. -/
theorem C118_blake2b (sz : Int) (key buf0 : Bytes) (s : Option (Blake2Ctx 64))
    (h : blake2bNew sz key buf0 = .ok s) (hb : buf0.length = 128) (sched : Sched) :
    ∃ x, s = some x ∧ AllOrNothing (blake2Class blake2bCode sz).interruptible (sched, x)
      (Spec.BLAKE2b (sz / 8).toNat key) := by
  obtain ⟨x, hx, hc⟩ := C28_blake2b sz key buf0 s h hb
  exact ⟨x, hx, C118_all_or_nothing hc sched⟩

/-- C118 for BLAKE2s. -/
theorem C118_blake2s (sz : Int) (key buf0 : Bytes) (s : Option (Blake2Ctx 32))
    (h : blake2sNew sz key buf0 = .ok s) (hb : buf0.length = 64) (sched : Sched) :
    ∃ x, s = some x ∧ AllOrNothing (blake2Class blake2sCode sz).interruptible (sched, x)
      (Spec.BLAKE2s (sz / 8).toNat key) := by
  obtain ⟨x, hx, hc⟩ := C28_blake2s sz key buf0 s h hb
  exact ⟨x, hx, C118_all_or_nothing hc sched⟩

/-- C118 for SipHash with 64 bits of output. -/
theorem C118_siphash (key buf0 : Bytes) (s : SipCtx) (h : sipNew 64 key buf0 = .ok s) (hb : buf0.length = 8)
    (sched : Sched) : AllOrNothing (sipClass 64).interruptible (sched, s) (Spec.SipHash64 key) :=
  C118_all_or_nothing (C30_siphash key buf0 s h hb) sched

/-- C118 for SipHash with 128 bits of output. -/
theorem C118_siphash128 (key buf0 : Bytes) (s : SipCtx) (h : sipNew 128 key buf0 = .ok s)
    (hb : buf0.length = 8) (sched : Sched) :
    AllOrNothing (sipClass 128).interruptible (sched, s) (Spec.SipHash128 key) :=
  C118_all_or_nothing (C30_siphash128 key buf0 s h hb) sched

/-- C118 for HMAC, over any hash class that computes `H`. -/
theorem C118_hmac (h : HashObj τ) (new : τ → Prop) (H : Bytes → Bytes) (B : Nat)
    (computes : ∀ s, new s → h.Computes s H) (short : ∀ m, (H m).length ≤ B)
    (small : B ≤ maxString) (wipe : ∀ s, ∃ s', h.wipe s = .ok () s')
    (fresh : Nat → τ) (hf : ∀ i, new (fresh i)) (s : τ) (hs : new s)
    (key : Bytes) (hk : key.length ≤ maxString) (sched : Sched) :
    ∃ s1, hmacNew h B fresh key s = .ok () s1 ∧
      AllOrNothing (hmacI h B fresh key) (sched, s1) (Spec.HMAC H B key) := by
  obtain ⟨s1, h1, hc⟩ := C31_hmac h new H B computes short small wipe fresh hf s hs key hk
  exact ⟨s1, h1, fun _ _ _ _ ha hr => attempts_result hc (hmacI_call h B fresh key) hmacI_result ha hr⟩

/-- C118 for `hmac_sha1`. -/
theorem C118_hmac_sha1 (buf0 : Nat → Bytes) (hb : ∀ i, (buf0 i).length = 64) (key : Bytes)
    (hk : key.length ≤ maxString) (sched : Sched) :
    ∃ s1, hmacNew sha1 64 (fun i => sha1Init (buf0 (i + 1))) key (sha1Init (buf0 0)) = .ok () s1 ∧
      AllOrNothing (hmacI sha1 64 (fun i => sha1Init (buf0 (i + 1))) key) (sched, s1)
        (Spec.HMAC Spec.SHA1 64 key) :=
  C118_hmac _ (fun s => ∃ i, s = sha1Init (buf0 i)) _ _
    (by rintro _ ⟨i, rfl⟩; exact C22_sha1 _ (hb i)) (fun m => by rw [SHA1_length]; decide)
    (by decide +kernel) (fun _ => ⟨_, rfl⟩) _ (fun i => ⟨i + 1, rfl⟩) _ ⟨0, rfl⟩ key hk sched

/-- C118 for `hmac_sha256`. -/
theorem C118_hmac_sha256 (buf0 : Nat → Bytes) (hb : ∀ i, (buf0 i).length = 64) (key : Bytes)
    (hk : key.length ≤ maxString) (sched : Sched) :
    ∃ s1, hmacNew sha256 64 (fun i => sha256Init (buf0 (i + 1))) key (sha256Init (buf0 0)) = .ok () s1 ∧
      AllOrNothing (hmacI sha256 64 (fun i => sha256Init (buf0 (i + 1))) key) (sched, s1)
        (Spec.HMAC Spec.SHA256 64 key) :=
  C118_hmac _ (fun s => ∃ i, s = sha256Init (buf0 i)) _ _
    (by rintro _ ⟨i, rfl⟩; exact C23_sha256 _ (hb i)) (fun m => by rw [SHA256_length]; decide)
    (by decide +kernel) (fun _ => ⟨_, rfl⟩) _ (fun i => ⟨i + 1, rfl⟩) _ ⟨0, rfl⟩ key hk sched

/-- C118 for `hmac_sha384`. -/
theorem C118_hmac_sha384 (buf0 : Nat → Bytes) (hb : ∀ i, (buf0 i).length = 128) (key : Bytes)
    (hk : key.length ≤ maxString) (sched : Sched) :
    ∃ s1, hmacNew sha384 128 (fun i => sha384Init (buf0 (i + 1))) key (sha384Init (buf0 0)) = .ok () s1 ∧
      AllOrNothing (hmacI sha384 128 (fun i => sha384Init (buf0 (i + 1))) key) (sched, s1)
        (Spec.HMAC Spec.SHA384 128 key) :=
  C118_hmac _ (fun s => ∃ i, s = sha384Init (buf0 i)) _ _
    (by rintro _ ⟨i, rfl⟩; exact C24_sha384 _ (hb i)) (fun m => by rw [SHA384_length]; decide)
    (by decide +kernel) (fun _ => ⟨_, rfl⟩) _ (fun i => ⟨i + 1, rfl⟩) _ ⟨0, rfl⟩ key hk sched

/-- C118 for `hmac_sha512`. -/
theorem C118_hmac_sha512 (buf0 : Nat → Bytes) (hb : ∀ i, (buf0 i).length = 128) (key : Bytes)
    (hk : key.length ≤ maxString) (sched : Sched) :
    ∃ s1, hmacNew sha512 128 (fun i => sha512Init (buf0 (i + 1))) key (sha512Init (buf0 0)) = .ok () s1 ∧
      AllOrNothing (hmacI sha512 128 (fun i => sha512Init (buf0 (i + 1))) key) (sched, s1)
        (Spec.HMAC Spec.SHA512 128 key) :=
  C118_hmac _ (fun s => ∃ i, s = sha512Init (buf0 i)) _ _
    (by rintro _ ⟨i, rfl⟩; exact C24_sha512 _ (hb i)) (fun m => by rw [SHA512_length]; decide)
    (by decide +kernel) (fun _ => ⟨_, rfl⟩) _ (fun i => ⟨i + 1, rfl⟩) _ ⟨0, rfl⟩ key hk sched

/-- C118 for `hmac_ripemd160`. -/
theorem C118_hmac_ripemd160 (buf0 : Nat → Bytes) (hb : ∀ i, (buf0 i).length = 64) (key : Bytes)
    (hk : key.length ≤ maxString) (sched : Sched) :
    ∃ s1, hmacNew ripemd160 64 (fun i => rmdInit (buf0 (i + 1))) key (rmdInit (buf0 0)) = .ok () s1 ∧
      AllOrNothing (hmacI ripemd160 64 (fun i => rmdInit (buf0 (i + 1))) key) (sched, s1)
        (Spec.HMAC Spec.RIPEMD160 64 key) :=
  C118_hmac _ (fun s => ∃ i, s = rmdInit (buf0 i)) _ _
    (by rintro _ ⟨i, rfl⟩; exact C26_ripemd160 _ (hb i)) (fun m => by rw [RIPEMD160_length]; decide)
    (by decide +kernel) (fun _ => ⟨_, rfl⟩) _ (fun i => ⟨i + 1, rfl⟩) _ ⟨0, rfl⟩ key hk sched

/-- Interruptions bring no memory error: an interruptible object is as safe as the same object that is not
interrupted. -/
theorem C118_safe {h : HashObj τ} {allowed : HCall → Prop} {t : τ} (hs : MemorySafe (invokeH h) allowed t)
    (sched : Sched) : MemorySafe (invokeH h.interruptible) allowed (sched, t) :=
  interruptible_safe hs sched

/-- The same for HMAC. -/
theorem C118_hmac_safe {h : HashObj τ} {B : Nat} {fresh : Nat → τ} {key : Bytes} {allowed : HCall → Prop} {t : τ}
    (hs : MemorySafe (invokeH (hmac h B fresh key)) allowed t) (sched : Sched) :
    MemorySafe (invokeH (hmacI h B fresh key)) allowed (sched, t) :=
  hmacI_safe hs sched

/-- The hypothesis is met: a new SHA-1 object, all methods. -/
example (sched : Sched) : MemorySafe (invokeH sha1.interruptible) anyCall
    (sched, sha1Init (List.replicate 64 0x55)) :=
  C118_safe (C65_sha1 (by decide)).1 sched

/-- So it is for HMAC-SHA1. -/
example {buf0 : Nat → Bytes} (hb : ∀ i, (buf0 i).length = 64) {key : Bytes} {s : Sha1Ctx}
    (h : hmacNew sha1 64 (fun i => sha1Init (buf0 (i + 1))) key (sha1Init (buf0 0)) = .ok () s) (sched : Sched) :
    MemorySafe (invokeH (hmacI sha1 64 (fun i => sha1Init (buf0 (i + 1))) key)) anyCall (sched, s) :=
  C118_hmac_safe (C65_hmac_sha1 hb h).1 sched

/-- Without interruptions, the model with interruption points is the other one. -/
theorem C118_quiet (h : HashObj τ) (t : τ) (f : Bytes → Bytes) (hf : h.Computes t f) :
    h.interruptible.Computes ([], t) f :=
  interruptible_quiet hf

/-- The same for HMAC. -/
theorem C118_hmac_quiet (h : HashObj τ) (B : Nat) (fresh : Nat → τ) (key : Bytes) (t : τ) (f : Bytes → Bytes)
    (hf : (hmac h B fresh key).Computes t f) : (hmacI h B fresh key).Computes ([], t) f :=
  hmacI_quiet hf

set_option maxRecDepth 100000 in
/-- `result` is not all or nothing. Interrupted after the call to C code, it leaves a finished context;
called again, it returns, and what it returns is not the hash of the data added. -/
theorem C118_result_again :
    ∃ (sched : Sched) (p1 p2 p3 : Sched × Sha1Ctx) (e : Exn) (r : Bytes),
      sha1.interruptible.addString (ascii "abc") (sched, sha1Init (List.replicate 64 0x55)) = .ok () p1 ∧
      sha1.interruptible.result p1 = .exn e p2 ∧ sha1.interruptible.result p2 = .ok r p3 ∧
      r ≠ Spec.SHA1 (ascii "abc") := by
  have h : (match sha1.interruptible.addString (ascii "abc")
        ([none, none, none, some .failure], sha1Init (List.replicate 64 0x55)) with
      | .ok () p1 =>
        match sha1.interruptible.result p1 with
        | .exn _ p2 =>
          match sha1.interruptible.result p2 with
          | .ok r _ => decide (r ≠ natToBE 20 0xa9993e364706816aba3e25717850c26c9cd0d89d)
          | _ => false
        | _ => false
      | _ => false) = true := by decide +kernel
  split at h
  · next p1 h1 =>
    split at h
    · next e p2 h2 =>
      split at h
      · next r p3 h3 =>
        refine ⟨_, p1, p2, p3, e, r, h1, h2, h3, ?_⟩
        rw [Example.sha1_abc]
        exact of_decide_eq_true h
      · cases h
    · cases h
  · cases h

/-- A history: "a" is added; "xx" is not, as the exception comes before the call to C code; "bc" is, though
an exception comes after the call. -/
def Example.attempted : List (HOp × Bool) :=
  [(.addString (ascii "a"), true), (.addString (ascii "xx"), false), (.addString (ascii "bc"), false)]

set_option maxRecDepth 100000 in
example : ∃ (p p' : Sched × Sha1Ctx) (r : Bytes),
    Attempts sha1.interruptible ([none, none, some .failure, none, some .failure],
      sha1Init (List.replicate 64 0x55)) Example.attempted p ∧
    sha1.interruptible.result p = .ok r p' ∧ r = Spec.SHA1 (ascii "abc") := by
  have h : (match sha1.interruptible.addString (ascii "a")
        ([none, none, some .failure, none, some .failure], sha1Init (List.replicate 64 0x55)) with
      | .ok () p1 =>
        match sha1.interruptible.addString (ascii "xx") p1 with
        | .exn _ p2 =>
          match sha1.interruptible.addString (ascii "bc") p2 with
          | .exn _ p3 =>
            match sha1.interruptible.result p3 with
            | .ok r _ => decide (r = natToBE 20 0xa9993e364706816aba3e25717850c26c9cd0d89d)
            | _ => false
          | _ => false
        | _ => false
      | _ => false) = true := by decide +kernel
  split at h
  · next p1 h1 =>
    split at h
    · next e p2 h2 =>
      split at h
      · next e' p3 h3 =>
        split at h
        · next r p4 h4 =>
          refine ⟨p3, p4, r, .returned ?_ h1 (.raised ?_ h2 (.raised ?_ h3 (.none _))), h4, ?_⟩
          · exact (by decide +kernel : (ascii "a").length ≤ maxString)
          · exact (by decide +kernel : (ascii "xx").length ≤ maxString)
          · exact (by decide +kernel : (ascii "bc").length ≤ maxString)
          · rw [Example.sha1_abc]
            exact of_decide_eq_true h
        · cases h
      · cases h
    · cases h
  · cases h

/-- What the theorem excludes: part of the data of a call. -/
example : ¬ WholeCalls [(.addString (ascii "ab"), false)] (ascii "a") := by
  intro h
  generalize hd : ascii "a" = d at h
  cases h with
  | added h =>
    cases h
    revert hd
    decide
  | left h =>
    cases h
    revert hd
    decide

end Verif
