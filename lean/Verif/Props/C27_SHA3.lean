import Verif.Proof.Keccak
import Verif.Props.C22_C24_SHA
/-
C27: `Hash.sha3 sz` and `Hash.keccak sz` objects return SHA3-sz (FIPS 202) and the original Keccak
of the concatenation of the data added.
-/
namespace Verif

/-- C27, `sha3`: for each size accepted by the constructor. -/
theorem C27_sha3 (sz : Int) (buf0 : Bytes) (s : Option Sha3Ctx) (h : sha3New sz buf0 = .ok s)
    (hb : (buf0.length : Int) = 200 - 2 * (sz / 8)) :
    (sha3Class sz.toNat true).Computes s (Spec.SHA3 sz.toNat) := by
  unfold sha3New at h
  split at h
  · next hs =>
    cases h
    obtain ⟨n, rfl⟩ : ∃ n : Nat, sz = n := ⟨sz.toNat, by omega⟩
    rw [Int.toNat_natCast]
    exact stubHash_computes (sha3_spec (by omega) (by omega) true) (sha3Rep_init (by omega) (by omega))
  · cases h

/-- C27, `keccak`. -/
theorem C27_keccak (sz : Int) (buf0 : Bytes) (s : Option Sha3Ctx) (h : sha3New sz buf0 = .ok s)
    (hb : (buf0.length : Int) = 200 - 2 * (sz / 8)) :
    (sha3Class sz.toNat false).Computes s (Spec.Keccak sz.toNat) := by
  unfold sha3New at h
  split at h
  · next hs =>
    cases h
    obtain ⟨n, rfl⟩ : ∃ n : Nat, sz = n := ⟨sz.toNat, by omega⟩
    rw [Int.toNat_natCast]
    exact stubHash_computes (sha3_spec (by omega) (by omega) false) (sha3Rep_init (by omega) (by omega))
  · cases h

/-- C14, sizes of SHA-3: the constructor accepts exactly 224, 256, 384 and 512. -/
theorem C14_sha3_size (sz : Int) (buf0 : Bytes) :
    ((sha3New sz buf0).isOk = true ↔ sz = 224 ∨ sz = 256 ∨ sz = 384 ∨ sz = 512) ∧
    (sha3New sz buf0 = .error (.error .wrongKeySize)
      ↔ ¬ (sz = 224 ∨ sz = 256 ∨ sz = 384 ∨ sz = 512)) := by
  unfold sha3New
  split <;> simp_all [Except.isOk, Except.toBool]

namespace Example

set_option maxRecDepth 100000 in
/-- The NIST test vector, obtained by running the model. -/
theorem sha3_256_abc : Spec.SHA3 256 (ascii "abc")
    = natToBE 32 0x3a985da74fe225b2045c172d6bd390bd855f086e3e9d525b46bfe24511431532 := by
  have h := C27_sha3 256 (List.replicate 136 0x55) _ rfl (by simp) hops hops_legal
  rw [hops_input] at h
  have e : ((sha3Class 256 true).digest hops (some (sha3InitC 256 (List.replicate 136 0x55)))).observe
      = some (.ok (natToBE 32 0x3a985da74fe225b2045c172d6bd390bd855f086e3e9d525b46bfe24511431532)) := by
    decide +kernel
  have e2 := e.symm.trans h
  simpa using e2.symm

end Example

end Verif
