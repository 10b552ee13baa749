import Mathlib.Data.ZMod.Basic
import Verif.Proof.PolyPrime
import Mathlib.Tactic.LinearCombination
import Verif.Proof.RootCount
import Verif.Proof.Gcm
import Verif.Spec.Aead
/-
Poly1305: for two different messages, few keys give tags with a given difference.
-/
namespace Verif

open Spec

instance polyP_prime : Fact (Nat.Prime polyP) := ⟨prime_poly1305⟩

/-- The coefficient that Poly1305 makes of a block. -/
def polyCoeff (b : Bytes) : Nat := leNat (b ++ [0x01])

theorem leNat_snoc_one (b : Bytes) : leNat (b ++ [0x01]) = leNat b + 256 ^ b.length := by
  induction b with
  | nil => simp [leNat]
  | cons x b ih => simp only [List.cons_append, leNat, ih, List.length_cons, Nat.pow_succ]; ring

theorem leNat_bound (b : Bytes) : leNat b < 256 ^ b.length := by
  induction b with
  | nil => simp [leNat]
  | cons x b ih =>
    have := x.isLt
    simp only [leNat, List.length_cons, Nat.pow_succ]
    omega

theorem polyCoeff_inj {a b : Bytes} (h : polyCoeff a = polyCoeff b) : a = b := by
  unfold polyCoeff at h
  rw [leNat_snoc_one, leNat_snoc_one] at h
  have ha := leNat_bound a
  have hb := leNat_bound b
  have hl : a.length = b.length := by
    rcases Nat.lt_trichotomy a.length b.length with hlt | heq | hlt
    · have : 256 ^ (a.length + 1) ≤ 256 ^ b.length := Nat.pow_le_pow_right (by decide) hlt
      rw [Nat.pow_succ] at this
      omega
    · exact heq
    · have : 256 ^ (b.length + 1) ≤ 256 ^ a.length := Nat.pow_le_pow_right (by decide) hlt
      rw [Nat.pow_succ] at this
      omega
  rw [hl] at h
  rw [← natToLE_leNat a, ← natToLE_leNat b, hl, show leNat a = leNat b by omega]

theorem polyCoeff_bounds {b : Bytes} (h : b.length ≤ 16) : 0 < polyCoeff b ∧ polyCoeff b < polyP := by
  unfold polyCoeff
  rw [leNat_snoc_one]
  have h1 := leNat_bound b
  have h2 : 256 ^ b.length ≤ 256 ^ 16 := Nat.pow_le_pow_right (by decide) h
  have h3 : 0 < 256 ^ b.length := Nat.pow_pos (by decide)
  have h4 : 2 * 256 ^ 16 < polyP := by decide
  omega

/-- The coefficients of a message, modulo the prime. -/
def polyCoeffs (m : Bytes) : List (ZMod polyP) := (chunks 16 m).map fun b => (polyCoeff b : ZMod polyP)

theorem polyCoeffs_length (m : Bytes) : (polyCoeffs m).length = (chunks 16 m).length := by
  simp [polyCoeffs]

theorem cast_inj_of_lt {a b : Nat} (ha : a < polyP) (hb : b < polyP)
    (h : (a : ZMod polyP) = (b : ZMod polyP)) : a = b := by
  rw [ZMod.natCast_eq_natCast_iff, Nat.ModEq, Nat.mod_eq_of_lt ha, Nat.mod_eq_of_lt hb] at h
  exact h

theorem map_inj_on {f : α → β} {a b : List α} {P : α → Prop} (hf : ∀ x y, P x → P y → f x = f y → x = y)
    (ha : ∀ x ∈ a, P x) (hb : ∀ x ∈ b, P x) (h : a.map f = b.map f) : a = b := by
  induction a generalizing b with
  | nil => cases b with
    | nil => rfl
    | cons y b => simp at h
  | cons x a ih => cases b with
    | nil => simp at h
    | cons y b =>
      simp only [List.map_cons, List.cons.injEq] at h
      rw [hf x y (ha x (by simp)) (hb y (by simp)) h.1,
        ih (fun z hz => ha z (by simp [hz])) (fun z hz => hb z (by simp [hz])) h.2]

theorem polyCoeffs_inj {m m' : Bytes} (h : polyCoeffs m = polyCoeffs m') : m = m' := by
  have h16 : ∀ m : Bytes, ∀ b ∈ chunks 16 m, b.length ≤ 16 := fun m => chunks_mem_length (by decide) m
  have := map_inj_on (P := fun b : Bytes => b.length ≤ 16) (fun x y hx hy he =>
    polyCoeff_inj (cast_inj_of_lt (polyCoeff_bounds hx).2 (polyCoeff_bounds hy).2 he)) (h16 m) (h16 m') h
  rw [← chunks_flatten (by decide : 0 < 16) m, this, chunks_flatten (by decide)]

theorem polyCoeffs_ne_zero (m : Bytes) : ∀ x ∈ polyCoeffs m, x ≠ 0 := by
  intro x hx
  obtain ⟨b, hb, rfl⟩ := List.mem_map.1 hx
  have := polyCoeff_bounds (chunks_mem_length (by decide) m b hb)
  intro h
  have := cast_inj_of_lt this.2 (by decide : 0 < polyP) (by simpa using h)
  omega

/-- The accumulator is the value of the polynomial at `r`. -/
theorem polyAcc_eval (r : Nat) (m : Bytes) :
    ((polyAcc r 0 (chunks 16 m) : Nat) : ZMod polyP)
      = (coeffPoly (polyCoeffs m).reverse).eval (r : ZMod polyP) := by
  rw [coeffPoly_eval, polyCoeffs, polyAcc, List.foldl_map]
  suffices h : ∀ (bs : List Bytes) (a : Nat),
      ((bs.foldl (fun a b => (r * (a + leNat (b ++ [0x01]))) % polyP) a : Nat) : ZMod polyP)
        = bs.foldl (fun a b => (r : ZMod polyP) * (a + (polyCoeff b : ZMod polyP))) (a : ZMod polyP) by
    simpa using h (chunks 16 m) 0
  intro bs
  induction bs with
  | nil => intro a; rfl
  | cons b bs ih =>
    intro a
    rw [List.foldl_cons, List.foldl_cons, ih]
    congr 1
    rw [ZMod.natCast_mod, Nat.cast_mul, Nat.cast_add]
    rfl

theorem polyAcc_lt (r : Nat) (m : Bytes) : polyAcc r 0 (chunks 16 m) < polyP := by
  unfold polyAcc
  have hp : 0 < polyP := by decide
  suffices h : ∀ (bs : List Bytes) (a : Nat), a < polyP →
      bs.foldl (fun a b => (r * (a + leNat (b ++ [0x01]))) % polyP) a < polyP from h _ _ hp
  intro bs
  induction bs with
  | nil => intro a h; exact h
  | cons b bs ih => intro a h; exact ih _ (Nat.mod_lt _ hp)

/-- Two different messages: at most `8 n` values of `r`, `n` being the number of blocks, are such
that the tags have a given difference. The set does not depend on the key. -/
theorem poly1305_difference (m m' t t' : Bytes) (h : (m, t) ≠ (m', t')) :
    ∃ S : Finset Nat, S.card ≤ 8 * max (chunks 16 m).length (chunks 16 m').length ∧
      ∀ key, Poly1305 key m = t → Poly1305 key m' = t' →
        polyClamp (leNat (key.take 16)) ∈ S := by
  by_cases hm : m = m'
  · refine ⟨∅, by simp, fun key h1 h2 => absurd ?_ h⟩
    rw [← h1, ← h2, hm]
  have hne : (polyCoeffs m).reverse ≠ (polyCoeffs m').reverse := by
    intro e
    exact hm (polyCoeffs_inj (List.reverse_injective e))
  obtain ⟨k, hk⟩ := getD_ne_of_ne hne (fun x hx => polyCoeffs_ne_zero m x (by simpa using hx))
    (fun x hx => polyCoeffs_ne_zero m' x (by simpa using hx))
  have hr := fun e => coeffPoly_roots (polyCoeffs m).reverse (polyCoeffs m').reverse e k hk
  choose S hS1 hS2 using hr
  let d : Int := ((leNat t : Int) - leNat t') % 2 ^ 128
  refine ⟨(Finset.range 8).biUnion fun j =>
    (S ((d + (j - 4) * 2 ^ 128 : Int) : ZMod polyP)).image ZMod.val, ?_, ?_⟩
  · refine (Finset.card_biUnion_le).trans ((Finset.sum_le_card_nsmul _ _
      (max (chunks 16 m).length (chunks 16 m').length) ?_).trans (by simp))
    intro j _
    refine Finset.card_image_le.trans ((hS1 _).trans ?_)
    simp [polyCoeffs_length]
  · intro key h1 h2
    unfold Poly1305 at h1 h2
    generalize hrr : polyClamp (leNat (key.take 16)) = r at h1 h2 ⊢
    have hlt : r < polyP := by
      rw [← hrr]
      exact Nat.lt_of_le_of_lt Nat.and_le_right (by decide)
    generalize leNat ((key.drop 16).take 16) = s at h1 h2
    have e := polyAcc_eval r m
    have e' := polyAcc_eval r m'
    have l := polyAcc_lt r m
    have l' := polyAcc_lt r m'
    generalize polyAcc r 0 (chunks 16 m) = a at h1 e l
    generalize polyAcc r 0 (chunks 16 m') = a' at h2 e' l'
    have q := congrArg leNat h1
    have q' := congrArg leNat h2
    rw [leNat_natToLE] at q q'
    rw [Finset.mem_biUnion]
    have hpp : polyP < 2 ^ 130 := by decide
    have la : a < 2 ^ 130 := by omega
    have la' : a' < 2 ^ 130 := by omega
    have hd : ((a : Int) - a') % 2 ^ 128 = d := by
      show _ = ((leNat t : Int) - leNat t') % 2 ^ 128
      rw [← q, ← q', show (256 : Nat) ^ 16 = 2 ^ 128 by norm_num]
      clear_value d
      clear e e' hS1 hS2 hk hne
      push_cast
      omega
    have hd0 : 0 ≤ d := Int.emod_nonneg _ (by norm_num)
    have hdv := Int.emod_add_mul_ediv ((a : Int) - a') (2 ^ 128)
    rw [hd] at hdv
    have hd1 : d < 2 ^ 128 := Int.emod_lt_of_pos _ (by norm_num)
    refine ⟨(((a : Int) - a') / 2 ^ 128 + 4).toNat, ?_, ?_⟩
    · rw [Finset.mem_range]
      omega
    · rw [Finset.mem_image]
      refine ⟨(r : ZMod polyP), hS2 _ _ ?_, ZMod.val_cast_of_lt hlt⟩
      rw [← e, ← e']
      have : (((((a : Int) - a') / 2 ^ 128 + 4).toNat : Nat) : Int) = ((a : Int) - a') / 2 ^ 128 + 4 := by
        rw [Int.toNat_of_nonneg]
        omega
      rw [this, show d + (((a : Int) - a') / 2 ^ 128 + 4 - 4) * 2 ^ 128 = (a : Int) - a' by
        linear_combination hdv]
      push_cast
      rfl

end Verif
