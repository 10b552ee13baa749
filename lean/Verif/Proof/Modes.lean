import Verif.Proof.BlockRun
import Mathlib.Data.Nat.ModEq

/-
The chaining modes, run over a list of blocks, compute the functions of Spec/Modes.
-/
namespace Verif

variable {σ : Type}

theorem runBlocks_cbcEnc (E : Bytes → Bytes) (bs : List Bytes) (st : ModeSt σ) :
    ∃ st', runBlocks (cbcEncF E) st bs = .ok (Spec.cbcEnc E st.iv bs).flatten (st', []) := by
  induction bs generalizing st with
  | nil => exact ⟨st, rfl⟩
  | cons b bs ih =>
    obtain ⟨st', h⟩ := ih (cbcEncF E st b).st
    refine ⟨st', ?_⟩
    rw [runBlocks_noexn (fun _ _ => rfl)]
    simp only [SRes.andThen, h]
    rfl

theorem runBlocks_cbcDec (D : Bytes → Bytes) (bs : List Bytes) (st : ModeSt σ) :
    ∃ st', runBlocks (cbcDecF D) st bs = .ok (Spec.cbcDec D st.iv bs).flatten (st', []) := by
  induction bs generalizing st with
  | nil => exact ⟨st, rfl⟩
  | cons b bs ih =>
    obtain ⟨st', h⟩ := ih (cbcDecF D st b).st
    refine ⟨st', ?_⟩
    rw [runBlocks_noexn (fun _ _ => rfl)]
    simp only [SRes.andThen, h]
    rfl

theorem runBlocks_cfbEnc (E : Bytes → Bytes) (n : Nat) (bs : List Bytes) (st : ModeSt σ) :
    ∃ st', runBlocks (cfbEncF E n) st bs = .ok (Spec.cfbEnc E n st.iv bs).flatten (st', []) := by
  induction bs generalizing st with
  | nil => exact ⟨st, rfl⟩
  | cons b bs ih =>
    obtain ⟨st', h⟩ := ih (cfbEncF E n st b).st
    refine ⟨st', ?_⟩
    rw [runBlocks_noexn (fun _ _ => rfl)]
    simp only [SRes.andThen, h]
    rfl

theorem runBlocks_cfbDec (E : Bytes → Bytes) (n : Nat) (bs : List Bytes) (st : ModeSt σ) :
    ∃ st', runBlocks (cfbDecF E n) st bs = .ok (Spec.cfbDec E n st.iv bs).flatten (st', []) := by
  induction bs generalizing st with
  | nil => exact ⟨st, rfl⟩
  | cons b bs ih =>
    obtain ⟨st', h⟩ := ih (cfbDecF E n st b).st
    refine ⟨st', ?_⟩
    rw [runBlocks_noexn (fun _ _ => rfl)]
    simp only [SRes.andThen, h]
    rfl

theorem Spec.iter_succ (E : Bytes → Bytes) (i : Nat) (x : Bytes) :
    Spec.iter E (i + 1) x = E (Spec.iter E i x) := by
  induction i generalizing x with
  | zero => rfl
  | succ i ih => rw [Spec.iter, ih]; rfl

theorem runBlocks_ofb (E : Bytes → Bytes) (n : Nat) (iv : Bytes) (bs : List Bytes)
    (st : ModeSt σ) (i : Nat) (hst : st.iv = Spec.iter E i iv) :
    ∃ st', runBlocks (ofbF E n) st bs
      = .ok (Spec.xorStream (Spec.ofbKey E n iv) i bs).flatten (st', []) := by
  induction bs generalizing st i with
  | nil => exact ⟨st, rfl⟩
  | cons b bs ih =>
    obtain ⟨st', h⟩ := ih (ofbF E n st b).st (i + 1) (by rw [Spec.iter_succ, ← hst]; rfl)
    refine ⟨st', ?_⟩
    rw [runBlocks_noexn (fun _ _ => rfl)]
    simp only [SRes.andThen, h]
    simp only [Spec.xorStream, List.flatten_cons, Spec.ofbKey, Spec.iter_succ, ← hst]
    rfl

theorem counterBlock_zero (iv : Bytes) (m : Nat) (hm : m ≤ iv.length) :
    Spec.counterBlock iv m 0 = iv := by
  unfold Spec.counterBlock
  have h1 : (iv.drop (iv.length - m)).length = m := by simp; omega
  have h2 := natToBE_beNat (iv.drop (iv.length - m))
  rw [h1] at h2
  rw [natToBE_mod, Nat.add_zero, h2, List.take_append_drop]

theorem counterBlock_succ (iv : Bytes) (m i : Nat) (hm : m ≤ iv.length) :
    incBE (Spec.counterBlock iv m i) m = Spec.counterBlock iv m (i + 1) := by
  unfold Spec.counterBlock incBE
  have hl : (iv.take (iv.length - m)).length = iv.length - m := by simp
  simp only [List.length_append, hl, natToBE_length]
  rw [show iv.length - m + m - m = iv.length - m by omega]
  rw [List.take_append_of_le_length (by omega), List.take_of_length_le (by omega)]
  have : List.drop (iv.length - m) (iv.take (iv.length - m) ++
      natToBE m ((beNat (iv.drop (iv.length - m)) + i) % 256 ^ m))
      = natToBE m ((beNat (iv.drop (iv.length - m)) + i) % 256 ^ m) := by
    rw [List.drop_append_of_le_length (by omega), List.drop_of_length_le (by omega), List.nil_append]
  rw [this, beNat_natToBE]
  simp only [natToBE_mod, Nat.mod_mod]
  congr 1
  rw [← natToBE_mod, Nat.mod_add_mod, natToBE_mod]
  rw [Nat.add_assoc]

theorem counterBlock_length (iv : Bytes) (m i : Nat) (hm : m ≤ iv.length) :
    (Spec.counterBlock iv m i).length = iv.length := by
  simp [Spec.counterBlock]; omega

/-- Distinct indices below 256^m give distinct counter blocks. -/
theorem counterBlock_inj {iv : Bytes} {m i j : Nat} (hi : i < 256 ^ m)
    (hj : j < 256 ^ m) (h : Spec.counterBlock iv m i = Spec.counterBlock iv m j) : i = j := by
  unfold Spec.counterBlock at h
  have h1 := List.append_cancel_left h
  have h2 := congrArg beNat h1
  rw [beNat_natToBE, beNat_natToBE, Nat.mod_mod, Nat.mod_mod] at h2
  have h3 : (beNat (iv.drop (iv.length - m)) + i) ≡ (beNat (iv.drop (iv.length - m)) + j) [MOD 256 ^ m] := h2
  have h4 := Nat.ModEq.add_left_cancel' _ h3
  exact Nat.ModEq.eq_of_lt_of_lt h4 hi hj


/-- The bound on the number of blocks enforced by `ctr` with `n` counter bytes. -/
def ctrLimit (n : Nat) : Nat := if n < 8 then 256 ^ n else 2 ^ 64

theorem ctrMaxTransf_eq (n : Nat) : ctrMaxTransf n = BitVec.ofNat 64 (ctrLimit n) := by
  unfold ctrMaxTransf ctrLimit
  split
  · apply BitVec.eq_of_toNat_eq
    rw [BitVec.toNat_shiftLeft, BitVec.toNat_ofNat, BitVec.toNat_ofNat, Nat.shiftLeft_eq,
      show (256 : Nat) = 2 ^ 8 from rfl, ← Nat.pow_mul, Nat.mul_comm n 8]
    simp
  · rfl

theorem ctrLimit_le (n : Nat) : 0 < ctrLimit n ∧ ctrLimit n ≤ 2 ^ 64 ∧ ctrLimit n ≤ 256 ^ n := by
  unfold ctrLimit
  split
  · refine ⟨Nat.pow_pos (by decide), ?_, Nat.le_refl _⟩
    calc 256 ^ n ≤ 256 ^ 8 := Nat.pow_le_pow_right (by decide) (by omega)
      _ = 2 ^ 64 := by decide
  · refine ⟨by decide, Nat.le_refl _, ?_⟩
    calc 2 ^ 64 = 256 ^ 8 := by decide
      _ ≤ 256 ^ n := Nat.pow_le_pow_right (by decide) (by omega)

theorem runBlocks_ctr (E : Bytes → Bytes) (n : Nat) (iv : Bytes) (hn : n ≤ iv.length)
    (bs : List Bytes) (st : CtrSt σ) (i left : Nat) (hiv : st.m.iv = Spec.counterBlock iv n i)
    (hl : st.maxTransf = BitVec.ofNat 64 left) (hl0 : 0 < left) (hl1 : left ≤ 2 ^ 64) :
    if bs.length < left then
      ∃ st', runBlocks (ctrF E n) st bs
        = .ok (Spec.xorStream (fun i => E (Spec.counterBlock iv n i)) i bs).flatten (st', [])
    else ∃ o : Bytes, o.length ≤ bs.flatten.length ∧
      runBlocks (ctrF E n) st bs = .err o (.error .messageTooLong) := by
  induction bs generalizing st i left with
  | nil => rw [if_pos (by simpa using hl0)]; exact ⟨st, rfl⟩
  | cons b bs ih =>
    have hsub : st.maxTransf - 1#64 = BitVec.ofNat 64 (left - 1) := by
      rw [hl]
      have h1 : left = left - 1 + 1 := by omega
      conv => lhs; rw [h1, BitVec.ofNat_add]
      exact BitVec.add_sub_cancel _ _
    by_cases h1 : left = 1
    · rw [if_neg (by simp; omega)]
      have hexn : ctrF E n st b = ⟨xorb b (E st.m.iv),
          { st with m := { st.m with aux := E st.m.iv, iv := incBE st.m.iv n } },
          some (.error .messageTooLong)⟩ := by
        unfold ctrF
        rw [if_pos (by rw [hsub, h1])]
      refine ⟨xorb b (E st.m.iv), ?_, ?_⟩
      · simp
      · simp [runBlocks, oneBlock, hexn, SRes.andThen]
    · have hexn : ctrF E n st b = ⟨xorb b (E st.m.iv),
          { m := { st.m with aux := E st.m.iv, iv := incBE st.m.iv n },
            maxTransf := BitVec.ofNat 64 (left - 1) }, none⟩ := by
        unfold ctrF
        rw [hsub, if_neg]
        intro h0
        have := congrArg BitVec.toNat h0
        simp only [BitVec.toNat_ofNat] at this
        rw [Nat.mod_eq_of_lt (by omega), Nat.zero_mod] at this
        omega
      have ih' := ih ⟨{ st.m with aux := E st.m.iv, iv := incBE st.m.iv n },
            BitVec.ofNat 64 (left - 1)⟩ (i + 1) (left - 1)
        (by simp only; rw [hiv, counterBlock_succ _ _ _ hn]) rfl (by omega) (by omega)
      by_cases hlt : bs.length < left - 1
      · rw [if_pos hlt] at ih'
        rw [if_pos (by simp; omega)]
        obtain ⟨st', h'⟩ := ih'
        refine ⟨st', ?_⟩
        simp only [runBlocks, oneBlock, hexn, SRes.andThen, Spec.xorStream, List.flatten_cons, ← hiv]
        simp only at h'
        rw [h']
      · rw [if_neg hlt] at ih'
        rw [if_neg (by simp; omega)]
        obtain ⟨o, ho, h'⟩ := ih'
        refine ⟨xorb b (E st.m.iv) ++ o, ?_, ?_⟩
        · simp only [List.length_append, List.flatten_cons, List.length_zipWith]; omega
        · simp [runBlocks, oneBlock, hexn, SRes.andThen, h']

end Verif
