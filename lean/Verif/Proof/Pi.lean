import Mathlib.Analysis.SpecialFunctions.Complex.Arctan
import Mathlib.Analysis.SpecialFunctions.Trigonometric.Arctan
import Mathlib.Analysis.SpecificLimits.Normed
import Mathlib.Algebra.Order.Floor.Semifield
import Mathlib.Tactic.Linarith
import Mathlib.Tactic.Ring
import Mathlib.Tactic.NormNum
/-
Binary digits of pi by Machin's formula, with natural numbers the kernel can compute with.
-/
namespace Verif.Pi

open Filter Topology Finset

/-- Evaluate `x` before going on: the kernel reduces a `match` on a number to a literal. -/
def force (x : Nat) (f : Nat → Nat) : Nat :=
  match x with
  | 0 => f 0
  | n + 1 => f (n + 1)

theorem force_eq (x f) : force x f = f x := by cases x <;> rfl

/-- `n` pairs of terms of the series of arctan, scaled: `t` is the current power. -/
def atn (k2 : Nat) : Nat → Nat → Nat → Nat → Nat
  | 0, _, _, acc => acc
  | n + 1, d, t, acc =>
    force (t / k2) fun u =>
    force (u / k2) fun v =>
    force (d + 4) fun d' =>
    force (acc + (t / d - u / (d + 2))) fun acc' => atn k2 n d' v acc'

theorem atn_succ (k2 n d t acc : Nat) : atn k2 (n + 1) d t acc
    = atn k2 n (d + 4) (t / k2 / k2) (acc + (t / d - t / k2 / (d + 2))) := by
  simp only [atn, force_eq]

/-- The terms of the series of arctan at `1 / k`. -/
noncomputable def term (k : Nat) (i : Nat) : ℝ := 1 / ((k : ℝ) ^ (2 * i + 1) * (2 * i + 1))

theorem term_antitone {k : Nat} (hk : 1 ≤ k) : Antitone (term k) := by
  apply antitone_nat_of_succ_le
  intro i
  unfold term
  have hk' : (1 : ℝ) ≤ k := by exact_mod_cast hk
  apply one_div_le_one_div_of_le
  · positivity
  · apply mul_le_mul
    · exact pow_le_pow_right₀ hk' (by omega)
    · push_cast; linarith
    · positivity
    · positivity

theorem term_tendsto {k : Nat} (hk : 2 ≤ k) :
    Tendsto (fun n ↦ ∑ i ∈ range n, (-1) ^ i * term k i) atTop (𝓝 (Real.arctan ((k : ℝ)⁻¹))) := by
  have hk' : (2 : ℝ) ≤ k := by exact_mod_cast hk
  have h : ‖((k : ℝ)⁻¹)‖ < 1 := by
    rw [norm_inv, Real.norm_of_nonneg (by linarith)]
    exact inv_lt_one_of_one_lt₀ (by linarith)
  have := (Real.hasSum_arctan h).tendsto_sum_nat
  refine this.congr ?_
  intro n
  apply Finset.sum_congr rfl
  intro i _
  unfold term
  push_cast
  rw [inv_pow]
  field_simp

/-- Rounding error of one term. -/
theorem floor_term (M k i : Nat) (hk : 1 ≤ k) :
    ((2 ^ M / k ^ (2 * i + 1) / (2 * i + 1) : Nat) : ℝ) ≤ 2 ^ M * term k i
    ∧ 2 ^ M * term k i < ((2 ^ M / k ^ (2 * i + 1) / (2 * i + 1) : Nat) : ℝ) + 1 := by
  have hp : 0 < k ^ (2 * i + 1) * (2 * i + 1) := by positivity
  have e : (2 : ℝ) ^ M * term k i = ((2 ^ M : Nat) : ℝ) / ((k ^ (2 * i + 1) * (2 * i + 1) : Nat) : ℝ) := by
    unfold term; push_cast; ring
  rw [Nat.div_div_eq_div_mul, e]
  constructor
  · exact Nat.cast_div_le
  · rw [div_lt_iff₀ (by exact_mod_cast hp)]
    have := Nat.lt_div_mul_add (a := 2 ^ M) hp
    have h2 : 2 ^ M < (2 ^ M / (k ^ (2 * i + 1) * (2 * i + 1)) + 1) * (k ^ (2 * i + 1) * (2 * i + 1)) := by
      rw [Nat.add_mul, Nat.one_mul]; exact this
    exact_mod_cast h2

theorem atn_sum (M k : Nat) (hk : 1 ≤ k) : ∀ n i acc,
    |((atn (k * k) n (4 * i + 1) (2 ^ M / k ^ (4 * i + 1)) acc : Nat) : ℝ)
      - (acc + 2 ^ M * (∑ j ∈ range (2 * (i + n)), (-1) ^ j * term k j
          - ∑ j ∈ range (2 * i), (-1) ^ j * term k j))| ≤ n := by
  intro n
  induction n with
  | zero => intro i acc; simp [atn]
  | succ n ih =>
    intro i acc
    have e1 : 2 ^ M / k ^ (4 * i + 1) / (k * k) = 2 ^ M / k ^ (2 * (2 * i + 1) + 1) := by
      rw [Nat.div_div_eq_div_mul]; congr 1; ring
    have e2 : 2 ^ M / k ^ (4 * i + 1) / (k * k) / (k * k) = 2 ^ M / k ^ (4 * (i + 1) + 1) := by
      rw [Nat.div_div_eq_div_mul, Nat.div_div_eq_div_mul]; congr 1; ring
    have := ih (i + 1) (acc + (2 ^ M / k ^ (4 * i + 1) / (4 * i + 1)
      - 2 ^ M / k ^ (4 * i + 1) / (k * k) / (4 * i + 1 + 2)))
    rw [atn_succ, e2, show 4 * i + 1 + 4 = 4 * (i + 1) + 1 by ring]
    rw [e1] at this ⊢
    obtain ⟨a1, a2⟩ := floor_term M k (2 * i) hk
    obtain ⟨b1, b2⟩ := floor_term M k (2 * i + 1) hk
    rw [show 2 * (2 * i) + 1 = 4 * i + 1 by ring] at a1 a2
    rw [show 2 * (2 * i + 1) + 1 = 4 * i + 1 + 2 by ring] at b1 b2 this ⊢
    have hle : 2 ^ M / k ^ (4 * i + 1 + 2) / (4 * i + 1 + 2) ≤ 2 ^ M / k ^ (4 * i + 1) / (4 * i + 1) := by
      refine le_trans (Nat.div_le_div_right (Nat.div_le_div_left ?_ ?_)) (Nat.div_le_div_left ?_ ?_)
      · exact Nat.pow_le_pow_right hk (by omega)
      · positivity
      · omega
      · omega
    push_cast [Nat.cast_sub hle] at this
    push_cast
    have s : ∑ j ∈ range (2 * (i + 1)), (-1 : ℝ) ^ j * term k j
        = ∑ j ∈ range (2 * i), (-1 : ℝ) ^ j * term k j + term k (2 * i) - term k (2 * i + 1) := by
      rw [show 2 * (i + 1) = 2 * i + 1 + 1 by ring, Finset.sum_range_succ, Finset.sum_range_succ]
      simp [pow_succ]; ring
    rw [s, show i + 1 + n = i + (n + 1) by ring] at this
    rw [abs_le] at this ⊢
    generalize hX : (∑ j ∈ range (2 * (i + (n + 1))), (-1 : ℝ) ^ j * term k j) = X at this ⊢
    generalize hY : (∑ j ∈ range (2 * i), (-1 : ℝ) ^ j * term k j) = Y at this ⊢
    constructor <;> nlinarith [this.1, this.2]

theorem atn_arctan (M k n : Nat) (hk : 2 ≤ k) (hn : 2 ^ M ≤ k ^ (4 * n + 1)) :
    |((atn (k * k) n 1 (2 ^ M / k) 0 : Nat) : ℝ) - 2 ^ M * Real.arctan ((k : ℝ)⁻¹)| ≤ n + 1 := by
  have h := atn_sum M k (by omega) n 0 0
  have hl := (term_antitone (k := k) (by omega)).alternating_series_le_tendsto (term_tendsto hk) n
  have hu := (term_antitone (k := k) (by omega)).tendsto_le_alternating_series (term_tendsto hk) n
  rw [Finset.sum_range_succ] at hu
  have ht : 2 ^ M * term k (2 * n) ≤ 1 := by
    unfold term
    rw [mul_one_div, div_le_one (by positivity)]
    have : ((2 ^ M : Nat) : ℝ) ≤ ((k ^ (4 * n + 1) : Nat) : ℝ) := by exact_mod_cast hn
    push_cast at this
    have h1 : (1 : ℝ) ≤ 2 * ((2 * n : Nat) : ℝ) + 1 := by push_cast; linarith [Nat.cast_nonneg (α := ℝ) n]
    rw [show 2 * (2 * n) + 1 = 4 * n + 1 by ring]
    calc (2 : ℝ) ^ M ≤ k ^ (4 * n + 1) * 1 := by linarith
      _ ≤ _ := by apply mul_le_mul_of_nonneg_left h1; positivity
  simp only [Nat.mul_zero, Finset.range_zero, Finset.sum_empty, sub_zero, pow_one,
    Nat.cast_zero, zero_add] at h
  have hp : (0 : ℝ) < 2 ^ M := by positivity
  have hev : (-1 : ℝ) ^ (2 * n) = 1 := by simp
  rw [hev, one_mul] at hu
  generalize (∑ j ∈ range (2 * n), (-1 : ℝ) ^ j * term k j) = X at *
  generalize Real.arctan ((k : ℝ)⁻¹) = A at *
  rw [abs_le] at h ⊢
  have q1 := mul_le_mul_of_nonneg_left hl hp.le
  have q2 := mul_le_mul_of_nonneg_left hu hp.le
  rw [mul_add] at q2
  constructor <;> linarith [h.1, h.2]

/-- Machin's formula: the scaled approximation of pi and its error. -/
theorem machin (M n m : Nat) (h5 : 2 ^ M ≤ 5 ^ (4 * n + 1)) (h239 : 2 ^ M ≤ 239 ^ (4 * m + 1)) :
    |16 * ((atn (5 * 5) n 1 (2 ^ M / 5) 0 : Nat) : ℝ) - 4 * ((atn (239 * 239) m 1 (2 ^ M / 239) 0 : Nat) : ℝ)
      - 2 ^ M * Real.pi| ≤ 16 * (n + 1) + 4 * (m + 1) := by
  have a := atn_arctan M 5 n (by norm_num) h5
  have b := atn_arctan M 239 m (by norm_num) h239
  have c := Real.four_mul_arctan_inv_5_sub_arctan_inv_239
  push_cast at a b
  rw [abs_le] at a b ⊢
  have : (2 : ℝ) ^ M * Real.pi = 16 * (2 ^ M * Real.arctan 5⁻¹) - 4 * (2 ^ M * Real.arctan 239⁻¹) := by
    have : Real.pi = 4 * (4 * Real.arctan 5⁻¹ - Real.arctan 239⁻¹) := by rw [c]; ring
    rw [this]; ring
  rw [this]
  constructor <;> linarith [a.1, a.2, b.1, b.2]

/-- `B` bits of pi after the point, from `g` more bits of the approximation. -/
theorem floor_pi (B g n m K : Nat) (h5 : 2 ^ (B + g) ≤ 5 ^ (4 * n + 1)) (h239 : 2 ^ (B + g) ≤ 239 ^ (4 * m + 1))
    (hlo : K * 2 ^ g + 4 * atn (239 * 239) m 1 (2 ^ (B + g) / 239) 0 + (16 * (n + 1) + 4 * (m + 1))
      ≤ 16 * atn (5 * 5) n 1 (2 ^ (B + g) / 5) 0)
    (hhi : 16 * atn (5 * 5) n 1 (2 ^ (B + g) / 5) 0 + (16 * (n + 1) + 4 * (m + 1))
      < (K + 1) * 2 ^ g + 4 * atn (239 * 239) m 1 (2 ^ (B + g) / 239) 0) :
    ⌊Real.pi * 2 ^ B⌋₊ = K := by
  have h := machin (B + g) n m h5 h239
  generalize atn (5 * 5) n 1 (2 ^ (B + g) / 5) 0 = a at *
  generalize atn (239 * 239) m 1 (2 ^ (B + g) / 239) 0 = b at *
  have hlo' : (K : ℝ) * 2 ^ g + 4 * b + (16 * (n + 1) + 4 * (m + 1)) ≤ 16 * a := by exact_mod_cast hlo
  have hhi' : 16 * (a : ℝ) + (16 * (n + 1) + 4 * (m + 1)) < (K + 1) * 2 ^ g + 4 * b := by exact_mod_cast hhi
  rw [abs_le, pow_add] at h
  have hg : (0 : ℝ) < 2 ^ g := by positivity
  rw [Nat.floor_eq_iff (by positivity)]
  constructor
  · have : (K : ℝ) * 2 ^ g ≤ (Real.pi * 2 ^ B) * 2 ^ g := by nlinarith [h.1, h.2]
    exact le_of_mul_le_mul_right this hg
  · have : (Real.pi * 2 ^ B) * 2 ^ g < ((K : ℝ) + 1) * 2 ^ g := by nlinarith [h.1, h.2]
    exact lt_of_mul_lt_mul_right this hg.le

/-- The first bits are those of the longer approximation. -/
theorem floor_pi_of_more {B K : Nat} (h : ⌊Real.pi * 2 ^ B⌋₊ = K) {b : Nat} (hb : b ≤ B) :
    ⌊Real.pi * 2 ^ b⌋₊ = K / 2 ^ (B - b) := by
  have : Real.pi * 2 ^ b = (Real.pi * 2 ^ B) / ((2 ^ (B - b) : Nat) : ℝ) := by
    rw [eq_div_iff (by positivity)]
    push_cast
    rw [mul_assoc, ← pow_add, show b + (B - b) = B by omega]
  rw [this, Nat.floor_div_natCast, h]

end Verif.Pi
