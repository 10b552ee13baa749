import Verif.Props.C27_SHA3
import Verif.Props.C28_Blake2
import Verif.Props.C30_SipHash
import Verif.Props.C31_Hmac
/-
C25: `hash_size` is the length of the result. False of the code for `Hash.sha224`,
`Hash.ripemd160` and `MAC.hmac_ripemd160`; proved for the others.
-/
namespace Verif

/-- After any legal additions, `result` returns `hash_size` bytes. -/
def HashObj.SizeCorrect (h : HashObj τ) (s : τ) : Prop :=
  ∀ ops : List HOp, (∀ op ∈ ops, op.Legal) →
    ∃ r, (h.digest ops s).observe = some (.ok r) ∧ r.length = h.hashSize

/-- After any legal additions, `result` returns a string whose length is not `hash_size`. -/
def HashObj.SizeWrong (h : HashObj τ) (s : τ) : Prop :=
  ∀ ops : List HOp, (∀ op ∈ ops, op.Legal) →
    ∃ r, (h.digest ops s).observe = some (.ok r) ∧ r.length ≠ h.hashSize

theorem HashObj.Computes.size {h : HashObj τ} {s : τ} {f : Bytes → Bytes} (hc : h.Computes s f)
    (hl : ∀ m, (f m).length = h.hashSize) : h.SizeCorrect s :=
  fun ops ho => ⟨_, hc ops ho, hl _⟩

theorem HashObj.Computes.size_wrong {h : HashObj τ} {s : τ} {f : Bytes → Bytes}
    (hc : h.Computes s f) (hl : ∀ m, (f m).length ≠ h.hashSize) : h.SizeWrong s :=
  fun ops ho => ⟨_, hc ops ho, hl _⟩

theorem keccakf_length (S : Bytes) : (Spec.Keccak.f S).length = 200 := by
  simp [Spec.Keccak.f, Spec.Keccak.toBytes]

theorem sponge_length {rate : Nat} {N : List Bool} {d : Nat} (hd : d ≤ 200) :
    (Spec.sponge rate N d).length = d := by
  have : ∀ (bs : List Bytes) (S : Bytes), S.length = 200 → (bs.foldl
      (fun S Pi => Spec.Keccak.f (xorb S (Pi ++ List.replicate (200 - rate) 0))) S).length = 200 := by
    intro bs
    induction bs with
    | nil => intro S h; exact h
    | cons b bs ih => intro S _; exact ih _ (keccakf_length _)
  simp only [Spec.sponge, List.length_take]
  rw [this _ _ List.length_replicate]
  omega

theorem blake2hash_length (p : Spec.Blake2Params) {nn : Nat} (h : nn ≤ p.w / 8 * 8) (key m : Bytes) :
    (p.hash nn key m).length = nn := by
  simp only [Spec.Blake2Params.hash, List.length_take]
  rw [flatten_length_of _ (n := p.w / 8) (by simp)]
  simp [Spec.Blake2Params.F]
  omega

/-- C25, SHA-1. -/
theorem C25_sha1_partial (buf0 : Bytes) (h : buf0.length = 64) : sha1.SizeCorrect (sha1Init buf0) :=
  (C22_sha1 buf0 h).size SHA1_length
/-- C25, SHA-256. -/
theorem C25_sha256_partial (buf0 : Bytes) (h : buf0.length = 64) :
    sha256.SizeCorrect (sha256Init buf0) := (C23_sha256 buf0 h).size SHA256_length
/-- C25, SHA-384. -/
theorem C25_sha384_partial (buf0 : Bytes) (h : buf0.length = 128) :
    sha384.SizeCorrect (sha384Init buf0) := (C24_sha384 buf0 h).size SHA384_length
/-- C25, SHA-512. -/
theorem C25_sha512_partial (buf0 : Bytes) (h : buf0.length = 128) :
    sha512.SizeCorrect (sha512Init buf0) := (C24_sha512 buf0 h).size SHA512_length
/-- C25, SHA-3 and Keccak. -/
theorem C25_sha3_partial (sz : Int) (official : Bool) (buf0 : Bytes) (s : Option Sha3Ctx)
    (h : sha3New sz buf0 = .ok s) (hb : (buf0.length : Int) = 200 - 2 * (sz / 8)) :
    (sha3Class sz.toNat official).SizeCorrect s := by
  have hsz : sz.toNat / 8 ≤ 200 := by
    unfold sha3New at h
    split at h
    · omega
    · cases h
  cases official with
  | true => exact (C27_sha3 sz buf0 s h hb).size fun m => sponge_length hsz
  | false => exact (C27_keccak sz buf0 s h hb).size fun m => sponge_length hsz
/-- C25, BLAKE2b, with or without key. -/
theorem C25_blake2b_partial (sz : Int) (key buf0 : Bytes) (s : Option (Blake2Ctx 64))
    (h : blake2bNew sz key buf0 = .ok s) (hb : buf0.length = 128) :
    ∃ x, s = some x ∧ (blake2Class blake2bCode sz).SizeCorrect x := by
  have hsz : (sz / 8).toNat ≤ 64 := by
    unfold blake2bNew at h
    split at h
    · omega
    · cases h
  obtain ⟨x, hx, hc⟩ := C28_blake2b sz key buf0 s h hb
  exact ⟨x, hx, hc.size fun m => blake2hash_length _ hsz key m⟩
/-- C25, BLAKE2s, with or without key. -/
theorem C25_blake2s_partial (sz : Int) (key buf0 : Bytes) (s : Option (Blake2Ctx 32))
    (h : blake2sNew sz key buf0 = .ok s) (hb : buf0.length = 64) :
    ∃ x, s = some x ∧ (blake2Class blake2sCode sz).SizeCorrect x := by
  have hsz : (sz / 8).toNat ≤ 32 := by
    unfold blake2sNew at h
    split at h
    · omega
    · cases h
  obtain ⟨x, hx, hc⟩ := C28_blake2s sz key buf0 s h hb
  exact ⟨x, hx, hc.size fun m => blake2hash_length _ hsz key m⟩
/-- C25, SipHash. -/
theorem C25_siphash_partial (key buf0 : Bytes) (s : SipCtx) (h : sipNew 64 key buf0 = .ok s)
    (hb : buf0.length = 8) : (sipClass 64).SizeCorrect s :=
  (C30_siphash key buf0 s h hb).size fun m => by simp [Spec.SipHash64, sipClass, stubHash]
/-- C25, SipHash-128. -/
theorem C25_siphash128_partial (key buf0 : Bytes) (s : SipCtx) (h : sipNew 128 key buf0 = .ok s)
    (hb : buf0.length = 8) : (sipClass 128).SizeCorrect s :=
  (C30_siphash128 key buf0 s h hb).size fun m => by simp [Spec.SipHash128, sipClass, stubHash]
/-- C25, HMAC over any hash whose `hash_size` is right. -/
theorem C25_hmac_partial (h : HashObj τ) (new : τ → Prop) (H : Bytes → Bytes) (B : Nat)
    (computes : ∀ s, new s → h.Computes s H) (size : ∀ m, (H m).length = h.hashSize)
    (short : h.hashSize ≤ B) (small : B ≤ maxString) (wipe : ∀ s, ∃ s', h.wipe s = .ok () s')
    (fresh : Nat → τ) (hf : ∀ i, new (fresh i)) (s : τ) (hs : new s)
    (key : Bytes) (hk : key.length ≤ maxString) :
    ∃ s1, hmacNew h B fresh key s = .ok () s1 ∧ (hmac h B fresh key).SizeCorrect s1 := by
  obtain ⟨s1, h1, h2⟩ := C31_hmac h new H B computes (fun m => by rw [size]; exact short) small wipe
    fresh hf s hs key hk
  exact ⟨s1, h1, h2.size fun m => size _⟩

/-- C25 is false of SHA-224: `hash_size` is 24, every result has 28 bytes. -/
theorem C25_sha224_wrong_size (buf0 : Bytes) (h : buf0.length = 64) :
    sha224.hashSize = 24 ∧ sha224.SizeWrong (sha224Init buf0) :=
  ⟨rfl, (C23_sha224 buf0 h).size_wrong fun m => by rw [SHA224_length]; decide⟩
/-- C25 is false of RIPEMD-160: `hash_size` is 32, every result has 20 bytes. -/
theorem C25_ripemd160_wrong_size (buf0 : Bytes) (h : buf0.length = 64) :
    ripemd160.hashSize = 32 ∧ ripemd160.SizeWrong (rmdInit buf0) :=
  ⟨rfl, (C26_ripemd160 buf0 h).size_wrong fun m => by rw [RIPEMD160_length]; decide⟩
/-- C25 is false of HMAC-RIPEMD-160. -/
theorem C25_hmac_ripemd160_wrong_size (buf0 : Nat → Bytes) (hb : ∀ i, (buf0 i).length = 64)
    (key : Bytes) (hk : key.length ≤ maxString) :
    ∃ s1, hmacNew ripemd160 64 (fun i => rmdInit (buf0 (i + 1))) key (rmdInit (buf0 0))
        = .ok () s1 ∧
      (hmac ripemd160 64 (fun i => rmdInit (buf0 (i + 1))) key).SizeWrong s1 := by
  obtain ⟨s1, h1, h2⟩ := C31_hmac_ripemd160 buf0 hb key hk
  exact ⟨s1, h1, h2.size_wrong fun m => by
    show (Spec.RIPEMD160 _).length ≠ 32
    rw [RIPEMD160_length]; decide⟩

/-- The sizes announced by the classes. -/
example : sha1.hashSize = 20 ∧ sha256.hashSize = 32 ∧ sha384.hashSize = 48 ∧ sha512.hashSize = 64
    ∧ (sha3Class 256 true).hashSize = 32 ∧ (blake2Class blake2bCode 160).hashSize = 20 := by
  decide

end Verif
