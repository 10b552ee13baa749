import Verif.Proof.SipHash
import Verif.Props.C22_C24_SHA
/-
C30: `MAC.siphash` and `MAC.siphash128` compute SipHash-2-4.
-/
namespace Verif

/-- C30, 64-bit output: any object built by the constructor, after any legal additions, returns
SipHash-2-4 of the concatenation. -/
theorem C30_siphash (key buf0 : Bytes) (s : SipCtx) (h : sipNew 64 key buf0 = .ok s)
    (hb : buf0.length = 8) : (sipClass 64).Computes s (Spec.SipHash64 key) := by
  unfold sipNew at h
  split at h
  · next hk =>
    cases h
    exact stubHash_computes (sip64_spec key hk.1 buf0) (sipRep_init key 8 hb)
  · cases h

/-- C30, 128-bit output. -/
theorem C30_siphash128 (key buf0 : Bytes) (s : SipCtx) (h : sipNew 128 key buf0 = .ok s)
    (hb : buf0.length = 8) : (sipClass 128).Computes s (Spec.SipHash128 key) := by
  unfold sipNew at h
  split at h
  · next hk =>
    cases h
    exact stubHash_computes (sip128_spec key hk.1 buf0) (sipRep_init key 16 hb)
  · cases h

/-- C14 for SipHash: exactly the 16-byte keys are accepted. -/
theorem C14_siphash_key_size (key buf0 : Bytes) (sz : Int) (hsz : sz = 64 ∨ sz = 128) :
    sipNew sz key buf0 = .error (.error .wrongKeySize) ↔ key.length ≠ 16 := by
  unfold sipNew
  split <;> simp_all

namespace Example

def sipKey : Bytes := (List.range 16).map (BitVec.ofNat 8)
def sipOps : List HOp :=
  [.addString ((List.range 9).map (BitVec.ofNat 8)), .addByte 9,
    .addSubstring ((List.range 20).map (BitVec.ofNat 8)) 10 5]

theorem sipOps_legal : ∀ op ∈ sipOps, op.Legal := by
  intro op h
  simp only [sipOps, List.mem_cons, List.mem_nil_iff, or_false] at h
  rcases h with rfl | rfl | rfl
  · exact (by decide +kernel : ((List.range 9).map (BitVec.ofNat 8)).length ≤ maxString)
  · trivial
  · exact ⟨by decide +kernel, by decide, by decide, by decide⟩

/-- The test vector of the SipHash paper (appendix A), obtained by running the model. -/
theorem sip_vector : Spec.SipHash64 sipKey ((List.range 15).map (BitVec.ofNat 8))
    = natToLE 8 0xa129ca6149be45e5 := by
  have h := C30_siphash sipKey (List.replicate 8 0x55) _ rfl (by decide) sipOps sipOps_legal
  rw [show hinputOf sipOps = (List.range 15).map (BitVec.ofNat 8) by decide] at h
  have e : ((sipClass 64).digest sipOps (sipInit sipKey 8 (List.replicate 8 0x55))).observe
      = some (.ok (natToLE 8 0xa129ca6149be45e5)) := by decide +kernel
  have e2 := e.symm.trans h
  simpa using e2.symm

end Example

end Verif
