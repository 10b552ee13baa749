import Verif.Proof.InterruptRngRepeat
import Verif.Props.C61_C62_Random
/-
C117: an interrupted `pseudo_rng_aes_ctr` gives the same bytes twice.
-/
namespace Verif

open Spec

/-- C117 is false for `pseudo_rng_aes_ctr`, whatever the seed: 16 bytes are drawn; a signal arrives during
the next request, for 4080 bytes, while the carry of the counter is being propagated, and its handler
raises an exception. The program goes on: the next 16 bytes are the first 16 bytes again. -/
theorem C117_repeats (env : Env) (junk : List W32) {seed : Bytes} (hs : 16 ≤ seed.length) (e : Exn) :
    ∃ (sched : Sched) (g0 g1 g2 g3 : AesCtrRng (Sched × Aes.CKey)) (b d : Bytes),
      aesCtrRngNewI env junk seed sched = .ok g0 ∧
      (aesCtrRngI Aes.encCipher.atomic).randomBytes 0 16 (g0, List.replicate 16 0) = .ok () (g1, b) ∧
      (aesCtrRngI Aes.encCipher.atomic).randomBytes 0 4080 (g1, List.replicate 4080 0) = .exn e (g2, d) ∧
      (aesCtrRngI Aes.encCipher.atomic).randomBytes 0 16 (g2, List.replicate 16 0) = .ok () (g3, b) ∧
      b = streamBytes (Spec.aesCtrStream seed) 0 16 := by
  obtain ⟨⟨k0, ctr, ob, op⟩, k, h1, hc, h3, b, h4, h5, h6, h7, h8, h9⟩ := aesCtrRngNew_ok env junk hs
  simp only at h3 h4 h5 h6 h8
  subst h3 h4
  obtain rfl : b = 0 := by omega
  subst h5
  have hE : (Spec.Aes.encrypt (seed.take 16) (natToBE 16 0)).length = 16 :=
    pure_len hc rfl (natToBE_length _ _)
  obtain ⟨ob', dst', h10, h11⟩ := aesCtrRandomBytesI_carry hc rfl (s := List.replicate 6 none) (e := e) 254
    (fuel := 4080) (ofs := 0) (len := 4080) (b := 1)
    (ob := Spec.Aes.encrypt (seed.take 16) (natToBE 16 0)) (dst := List.replicate 4080 0)
    hE rfl (by decide) (by decide) (by rw [List.length_replicate])
  have hblk : ∀ (s : Sched) (ob : Bytes), ob.length = 16 →
      (aesCtrRngI Aes.encCipher.atomic).randomBytes 0 16
        (⟨(none :: none :: none :: none :: none :: none :: s, k0), natToBE 16 0, ob, 16⟩,
          List.replicate 16 0)
      = .ok () (⟨(s, k0), natToBE 16 1, Spec.Aes.encrypt (seed.take 16) (natToBE 16 0), 16⟩,
          splice (List.replicate 16 0) 0 (Spec.Aes.encrypt (seed.take 16) (natToBE 16 0))) := by
    intro s ob ho
    have := aesCtrRandomBytesI_block hc rfl (fuel := 15) (ofs := 0) (len := 16) (s := s) (b := 0) (ob := ob)
      (dst := List.replicate 16 0) ho (Nat.le_refl _) (by rw [List.length_replicate]) (by decide)
    rw [if_neg (Nat.lt_irrefl _)] at this
    exact this
  refine ⟨List.replicate 6 none ++ (List.replicate (6 * 254 + 2) none ++ some e :: List.replicate 6 none),
    _, _, _, _, _, dst', by unfold aesCtrRngNewI; rw [h1]; rfl, hblk _ _ h6, h11, hblk [] _ h10, ?_⟩
  rw [splice_full (by rw [List.length_replicate, hE])]
  apply List.ext_getElem?
  intro i
  unfold streamBytes
  rw [List.getElem?_map]
  by_cases hi : i < 16
  · rw [List.getElem?_range hi, List.getElem?_eq_getElem (by omega), Option.map_some]
    unfold Spec.aesCtrStream
    rw [Nat.zero_add, Nat.div_eq_of_lt hi, Nat.mod_eq_of_lt hi, List.getD_eq_getElem?_getD,
      List.getElem?_eq_getElem (by omega)]
    rfl
  · rw [List.getElem?_eq_none (by omega), List.getElem?_eq_none (by rw [List.length_range]; omega)]
    rfl

end Verif
