import Verif.Proof.Ripemd
import Verif.Props.C22_C24_SHA
/-
C26: RIPEMD-160 objects return the RIPEMD-160 digest of the concatenation of the data added.
-/
namespace Verif

/-- C26. -/
theorem C26_ripemd160 (buf0 : Bytes) (h : buf0.length = 64) :
    ripemd160.Computes (rmdInit buf0) Spec.RIPEMD160 :=
  stubHash_computes rmd_spec (rmdRep_init h)

namespace Example

/-- The authors' test vector, obtained by running the model. -/
theorem ripemd160_abc : Spec.RIPEMD160 (ascii "abc")
    = natToBE 20 0x8eb208f7e05d987a9b044a8e98c6b087f15a0bfc := by
  have h := C26_ripemd160 (List.replicate 64 0x55) (by decide) hops hops_legal
  rw [hops_input] at h
  have e : (ripemd160.digest hops (rmdInit (List.replicate 64 0x55))).observe
      = some (.ok (natToBE 20 0x8eb208f7e05d987a9b044a8e98c6b087f15a0bfc)) := by decide +kernel
  rw [e] at h
  simpa using h.symm

end Example

end Verif
