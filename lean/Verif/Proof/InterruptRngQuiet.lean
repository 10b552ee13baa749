import Verif.Proof.InterruptAeadQuiet
import Verif.Proof.InterruptRng
/-
Where nothing happens at the interruption points, the interruptible generators of Model/InterruptRng are
those of Model/Random.
-/
namespace Verif.Quiet

open Spec

attribute [local instance low] quiet
variable {κ : Type}

theorem aesCtrRefill_eq (c : BlockCipher κ) : @aesCtrRefillI κ (quiet κ) c = aesCtrRefill c := by
  funext ⟨g, dst⟩
  unfold aesCtrRefillI aesCtrRefill
  rw [qget]
  by_cases h : g.opos ≥ 16
  · rw [if_pos h]
    simp only [if_pos h]
    rw [M.bind_def]
    unfold aesCtrBlock
    rw [qget]
    simp only [M.zoom]
    cases hc : c.transform (.other g.ctr) 0 0 (g.cipher, g.obuf) with
    | ok a r =>
      obtain ⟨k, ob⟩ := r
      simp only []
      rw [qpoll (fun _ => rfl), M.bind_def]
      unfold aesCtrIncrementI
      simp only [M.zoom, increment_eq]
      cases incrementCounter g.ctr 0 16 <;> rfl
    | exn e r => rfl
    | ub => rfl
    | loop => rfl
  · rw [if_neg h]
    simp only [if_neg h]
    rfl

theorem aesCtrRandomBytes_eq (c : BlockCipher κ) : ∀ (fuel : Nat) (ofs len : Int),
    @aesCtrRandomBytesI κ (quiet κ) c fuel ofs len = aesCtrRandomBytes c fuel ofs len
  | 0, ofs, len => by
    unfold aesCtrRandomBytesI aesCtrRandomBytes
    split <;> rfl
  | fuel + 1, ofs, len => by
    funext s
    unfold aesCtrRandomBytesI aesCtrRandomBytes
    rw [qpoll (fun _ => rfl)]
    split
    · rw [aesCtrRefill_eq]
      refine mcongr fun _ t => ?_
      rw [qget, qget]
      refine rcongr fun d => ?_
      rw [qmodify, qpoll (fun _ => rfl), qmodify, qpoll (fun _ => rfl), qmodify]
      simp only [aesCtrRandomBytes_eq c fuel]
    · rfl

theorem aesCtrRng_eq (c : BlockCipher κ) : @aesCtrRngI κ (quiet κ) c = aesCtrRng c := by
  refine congrArg₂ Rng.mk ?_ rfl
  funext ofs len
  exact aesCtrRandomBytes_eq c _ ofs len

theorem zoom_poll {m : M (ChaCha × Bytes) Unit} {g : ChaCha} {buf : Bytes} :
    (M.zoom (fun p : (Sched × ChaCha) × Bytes => (p.1.2, p.2)) (fun r p => ((p.1.1, r.1), r.2)) m
        >>= fun _ => (poll : M ((Sched × ChaCha) × Bytes) Unit)) (([], g), buf)
      = M.zoom (fun p : (Sched × ChaCha) × Bytes => (p.1.2, p.2)) (fun r p => ((p.1.1, r.1), r.2)) m
          (([], g), buf) := by
  rw [M.bind_def]
  unfold M.zoom
  cases hm : m (g, buf) <;> rfl

theorem pseudoRng_eq (ofs len : Int) (g : ChaCha) (buf : Bytes) :
    pseudoRngI.randomBytes ofs len (([], g), buf)
      = M.zoom (fun p : (Sched × ChaCha) × Bytes => (p.1.2, p.2)) (fun r p => ((p.1.1, r.1), r.2))
          (pseudoRng.randomBytes ofs len) (([], g), buf) := by
  change (if badRange buf ofs len then _ else _ : M ((Sched × ChaCha) × Bytes) Unit) (([], g), buf) = _
  by_cases h : badRange buf ofs len
  · rw [if_pos h]
    unfold M.zoom pseudoRng
    simp only [M.bind_def, M.get_def, if_pos h]
    rfl
  · rw [if_neg h]
    refine Eq.trans (b := (M.zoom (fun p : (Sched × ChaCha) × Bytes => (p.1.2, p.2))
      (fun r p => ((p.1.1, r.1), r.2)) (extractLoop chachaNext ofs len.toNat)
        >>= fun _ => (poll : M ((Sched × ChaCha) × Bytes) Unit)) (([], g), buf)) rfl ?_
    rw [zoom_poll]
    unfold M.zoom pseudoRng
    simp only [M.bind_def, M.get_def, if_neg h]

end Verif.Quiet
