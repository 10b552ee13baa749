import Verif.Proof.InterruptRng
/-
An interruption of `pseudo_rng_aes_ctr` while a carry is propagated.
-/
namespace Verif

open Spec

section aesCtr

variable {κ : Type} {c : BlockCipher κ} {k : κ} {E : Bytes → Bytes}

theorem spoll {f : Unit → M (AesCtrRng (Sched × κ) × Bytes) β} {s : Sched} {ctr ob dst : Bytes} {op : Nat} :
    ((poll : M (AesCtrRng (Sched × κ) × Bytes) Unit) >>= f) (⟨(none :: s, k), ctr, ob, op⟩, dst)
      = f () (⟨(s, k), ctr, ob, op⟩, dst) := rfl

theorem sget {f : σ → M σ β} {s : σ} : ((M.get : M σ σ) >>= f) s = f s s := rfl

theorem sset {h : σ → σ} {f : Unit → M σ β} {s : σ} : (M.modify h >>= f) s = f () (h s) := rfl

theorem sbind {m : M σ α} {f : α → M σ β} {s s' : σ} {a : α} (h : m s = .ok a s') :
    (m >>= f) s = f a s' := by
  rw [M.bind_def, h]

theorem sexn {m : M σ α} {f : α → M σ β} {s s' : σ} {e : Exn} (h : m s = .exn e s') :
    (m >>= f) s = .exn e s' := by
  rw [M.bind_def, h]

theorem aesCtrBlock_run (hc : PureCipher c k E) (hb : c.blocksize = 16) {s : Sched} {b op : Nat}
    {ob dst : Bytes} (ho : ob.length = 16) :
    aesCtrBlock c.atomic (⟨(s, k), natToBE 16 b, ob, op⟩, dst)
      = .ok () (⟨(s, k), natToBE 16 b, E (natToBE 16 b), op⟩, dst) := by
  have hE : (E (natToBE 16 b)).length = 16 := pure_len hc hb (natToBE_length _ _)
  have hr := hc.run' (src := .other (natToBE 16 b)) (so := 0) (dofs := 0) (dst := ob)
    (by rw [hb]; simp [Src.read, natToBE_length]) (by rw [hb, ho])
  have hs : slice (Src.read (.other (natToBE 16 b)) ob) 0 c.blocksize = natToBE 16 b := by
    simp only [Src.read]
    rw [hb]
    unfold slice
    rw [List.drop_zero, List.take_of_length_le (by rw [natToBE_length])]
  rw [hs, splice_full (by rw [ho, hE])] at hr
  have hr' : c.transform (.other (natToBE 16 b)) 0 0 (k, ob) = .ok () (k, E (natToBE 16 b)) := hr
  unfold aesCtrBlock
  rw [sget]
  simp only [BlockCipher.atomic, M.zoom]
  rw [hr']

theorem aesCtrIncrementI_step {s : Sched} {b op : Nat} {ob dst : Bytes} (hb : b % 256 ≠ 255) :
    aesCtrIncrementI (⟨(s, k), natToBE 16 b, ob, op⟩, dst)
      = .ok () (⟨(s, k), natToBE 16 (b + 1), ob, op⟩, dst) := by
  have h := incrementCounter_natToBE b
  have hl := beLast_natToBE b
  unfold incrementCounter at h
  rw [if_pos (Nat.zero_le _), hl] at h
  have hv : (BitVec.ofNat 8 (b % 256)).toNat = b % 256 := by
    rw [BitVec.toNat_ofNat]; omega
  simp only [hv] at h
  rw [if_neg (by omega)] at h
  injection h with h
  unfold aesCtrIncrementI M.zoom incrementCounterI
  rw [if_pos (Nat.zero_le _)]
  simp only [sget]
  rw [hl]
  simp only [M.bind_def, M.orRaise_some, M.modify_def, hv]
  rw [if_neg (by omega), h]
  rfl

theorem aesCtrIncrementI_carry {s : Sched} {e : Exn} {op : Nat} {ob dst : Bytes} :
    aesCtrIncrementI (⟨(some e :: s, k), natToBE 16 255, ob, op⟩, dst)
      = .exn e (⟨(s, k), natToBE 16 0, ob, op⟩, dst) := rfl

/-- One block, without interruption. -/
theorem aesCtrRandomBytesI_block (hc : PureCipher c k E) (hb : c.blocksize = 16) {fuel ofs len : Nat}
    {s : Sched} {b : Nat} {ob dst : Bytes} (ho : ob.length = 16) (hl : 16 ≤ len)
    (hr : ofs + 16 ≤ dst.length) (hn : b % 256 ≠ 255) :
    aesCtrRandomBytesI c.atomic (fuel + 1) ofs len
        (⟨(none :: none :: none :: none :: none :: none :: s, k), natToBE 16 b, ob, 16⟩, dst)
      = (if 16 < len then aesCtrRandomBytesI c.atomic fuel ((ofs + 16 : Nat) : Int) ((len - 16 : Nat) : Int)
          else pure ())
        (⟨(s, k), natToBE 16 (b + 1), E (natToBE 16 b), 16⟩, splice dst ofs (E (natToBE 16 b))) := by
  have hE : (E (natToBE 16 b)).length = 16 := pure_len hc hb (natToBE_length _ _)
  conv_lhs => unfold aesCtrRandomBytesI
  rw [spoll, if_pos (by omega)]
  have href : aesCtrRefillI c.atomic
      (⟨(none :: none :: none :: none :: none :: s, k), natToBE 16 b, ob, 16⟩, dst)
      = .ok () (⟨(none :: none :: s, k), natToBE 16 (b + 1), E (natToBE 16 b), 0⟩, dst) := by
    unfold aesCtrRefillI
    rw [sget, if_pos (Nat.le_refl _), sbind (aesCtrBlock_run hc hb ho), spoll,
      sbind (aesCtrIncrementI_step hn), spoll, sset]
    rfl
  rw [sbind href, sget]
  simp only
  have hm : min (16 - ((0 : Nat) : Int)) (len : Int) = ((16 : Nat) : Int) := by omega
  have hbl := bytesBlit_ok (src := E (natToBE 16 b)) (so := 0) (dst := dst) (dofs := ofs) (n := 16)
    (by rw [hE]) hr
  rw [slice_full' hE] at hbl
  rw [hm, hbl]
  rw [sbind (a := splice dst ofs (E (natToBE 16 b))) (M.orRaise_some ..), sset, spoll, sset, spoll]
  by_cases h : 16 < len
  · rw [if_pos (by omega), if_pos h]
    have c1 : (ofs : Int) + ((16 : Nat) : Int) = ((ofs + 16 : Nat) : Int) := by omega
    have c2 : (len : Int) - ((16 : Nat) : Int) = ((len - 16 : Nat) : Int) := by omega
    rw [c1, c2]
    rfl
  · rw [if_neg (by omega), if_neg h]
    rfl

/-- Uninterrupted blocks, up to the one of which the increment of the counter is interrupted. -/
theorem aesCtrRandomBytesI_carry (hc : PureCipher c k E) (hb : c.blocksize = 16) {s : Sched} {e : Exn} :
    ∀ (n : Nat) {fuel ofs len b : Nat} {ob dst : Bytes}, ob.length = 16 → b + n = 255 → n < fuel →
      16 * n < len → ofs + len ≤ dst.length →
      ∃ ob' dst', ob'.length = 16 ∧
        aesCtrRandomBytesI c.atomic fuel ofs len
            (⟨(List.replicate (6 * n + 2) none ++ some e :: s, k), natToBE 16 b, ob, 16⟩, dst)
          = .exn e (⟨(s, k), natToBE 16 0, ob', 16⟩, dst') := by
  intro n
  induction n with
  | zero =>
    intro fuel ofs len b ob dst ho hbn hf hl hr
    obtain rfl : b = 255 := by omega
    obtain ⟨fuel, rfl⟩ : ∃ f, fuel = f + 1 := ⟨fuel - 1, by omega⟩
    have hE : (E (natToBE 16 255)).length = 16 := pure_len hc hb (natToBE_length _ _)
    refine ⟨E (natToBE 16 255), dst, hE, ?_⟩
    show aesCtrRandomBytesI c.atomic (fuel + 1) ofs len
      (⟨(none :: none :: some e :: s, k), natToBE 16 255, ob, 16⟩, dst) = _
    unfold aesCtrRandomBytesI
    rw [spoll, if_pos (by omega)]
    refine sexn ?_
    unfold aesCtrRefillI
    rw [sget, if_pos (Nat.le_refl _), sbind (aesCtrBlock_run hc hb ho), spoll]
    exact sexn aesCtrIncrementI_carry
  | succ n ih =>
    intro fuel ofs len b ob dst ho hbn hf hl hr
    obtain ⟨fuel, rfl⟩ : ∃ f, fuel = f + 1 := ⟨fuel - 1, by omega⟩
    have hE : (E (natToBE 16 b)).length = 16 := pure_len hc hb (natToBE_length _ _)
    have hsp := splice_length (b := dst) (o := ofs) (x := E (natToBE 16 b)) (by rw [hE]; omega)
    obtain ⟨ob', dst', h1, h2⟩ := ih (fuel := fuel) (ofs := ofs + 16) (len := len - 16) (b := b + 1)
      (ob := E (natToBE 16 b)) (dst := splice dst ofs (E (natToBE 16 b))) hE (by omega) (by omega) (by omega)
      (by omega)
    refine ⟨ob', dst', h1, ?_⟩
    rw [show 6 * (n + 1) + 2 = (6 * n + 2) + 1 + 1 + 1 + 1 + 1 + 1 by omega]
    simp only [List.replicate_succ, List.cons_append]
    rw [aesCtrRandomBytesI_block hc hb ho (by omega) (by omega) (by omega), if_pos (by omega)]
    exact h2

end aesCtr

end Verif
