import Mathlib.Algebra.Ring.Basic
import Mathlib.Algebra.Ring.Commute
import Mathlib.Tactic.Ring
import Verif.Props.C33_Ghash
/-
The ring of SP 800-38D is a field: x^128 + x^7 + x^2 + x + 1 is irreducible. Every element is a root
of X^(2^128) - X, and the only idempotents are 0 and 1 because the trace is onto GF(2).
-/
namespace Verif

open Spec

/-- Blocks of 128 bits with the operations of SP 800-38D. -/
structure GF where
  bits : BitVec 128
  deriving DecidableEq

namespace GF

theorem ext' {a b : GF} (h : a.bits = b.bits) : a = b := by cases a; cases b; cases h; rfl

instance : Add GF := ⟨fun a b => ⟨a.bits ^^^ b.bits⟩⟩
instance : Zero GF := ⟨⟨0⟩⟩
instance : Neg GF := ⟨fun a => a⟩
instance : Mul GF := ⟨fun a b => ⟨gfMul a.bits b.bits⟩⟩
instance : One GF := ⟨⟨BitVec.twoPow 128 127⟩⟩

theorem bits_add (a b : GF) : (a + b).bits = a.bits ^^^ b.bits := rfl
theorem bits_mul (a b : GF) : (a * b).bits = gfMul a.bits b.bits := rfl
theorem bits_zero : (0 : GF).bits = 0 := rfl
theorem bits_one : (1 : GF).bits = BitVec.twoPow 128 127 := rfl

instance : CommRing GF where
  nsmul := nsmulRec
  zsmul := zsmulRec
  add_assoc a b c := ext' (BitVec.xor_assoc _ _ _)
  zero_add a := ext' (BitVec.zero_xor)
  add_zero a := ext' (BitVec.xor_zero)
  neg_add_cancel a := ext' (BitVec.xor_self)
  add_comm a b := ext' (BitVec.xor_comm _ _)
  mul_assoc a b c := ext' (by simp only [bits_mul]; exact C33_field.2.2.2.2.2.1 _ _ _)
  one_mul a := ext' (by rw [bits_mul, bits_one]; exact gfMul_one _)
  mul_one a := ext' (by rw [bits_mul, bits_one, gfMul_comm]; exact gfMul_one _)
  left_distrib a b c := ext' (by simp only [bits_mul, bits_add]; exact C33_field.2.1 _ _ _)
  right_distrib a b c := ext' (by simp only [bits_mul, bits_add]; exact C33_field.1 _ _ _)
  zero_mul a := ext' (by rw [bits_mul, bits_zero]; exact Additive.zero (gfMul_add_left a.bits))
  mul_zero a := ext' (by rw [bits_mul, bits_zero]; exact Additive.zero (gfMul_add_right a.bits))
  mul_comm a b := ext' (by rw [bits_mul, bits_mul]; exact gfMul_comm _ _)

theorem add_self (a : GF) : a + a = 0 := neg_add_cancel a
theorem sub_eq_add' (a b : GF) : a - b = a + b := by
  rw [sub_eq_add_neg]; rfl

theorem mul_self_add (a b : GF) : (a + b) * (a + b) = a * a + b * b := by
  have : (a + b) * (a + b) = a * a + b * b + (a * b + a * b) := by ring
  rw [this, add_self, add_zero]

/-- `a ^ (2 ^ n)`. -/
def sqI : Nat → GF → GF
  | 0, a => a
  | n + 1, a => sqI n (a * a)

theorem sqI_add (n : Nat) (a b : GF) : sqI n (a + b) = sqI n a + sqI n b := by
  induction n generalizing a b with
  | zero => rfl
  | succ n ih => rw [sqI, mul_self_add, ih, sqI, sqI]

theorem sqI_mul (n : Nat) (a b : GF) : sqI n (a * b) = sqI n a * sqI n b := by
  induction n generalizing a b with
  | zero => rfl
  | succ n ih =>
    rw [sqI, show a * b * (a * b) = a * a * (b * b) by ring, ih, sqI, sqI]

theorem sqI_pow (n : Nat) (a : GF) : sqI n a = a ^ (2 ^ n) := by
  induction n generalizing a with
  | zero => rw [Nat.pow_zero, pow_one]; rfl
  | succ n ih => rw [sqI, ih, ← pow_two, ← pow_mul, Nat.pow_succ, Nat.mul_comm]

/-- `a + a^2 + a^4 + ...`, `n` terms. -/
def tr : Nat → GF → GF
  | 0, _ => 0
  | n + 1, a => a + tr n (a * a)

theorem tr_add (n : Nat) (a b : GF) : tr n (a + b) = tr n a + tr n b := by
  induction n generalizing a b with
  | zero => exact (add_zero 0).symm
  | succ n ih => rw [tr, mul_self_add, ih, tr, tr]; ring

theorem tr_idem (n : Nat) {e : GF} (he : e * e = e) (a : GF) : tr n (e * a) = e * tr n a := by
  induction n generalizing a with
  | zero => exact (mul_zero e).symm
  | succ n ih =>
    rw [tr, show e * a * (e * a) = e * e * (a * a) by ring, he, ih, tr, mul_add]

/-- A property of the powers of `x` that sums preserve is one of all elements. -/
theorem basis_induction {P : GF → Prop} (h0 : P 0) (hadd : ∀ a b, P a → P b → P (a + b))
    (hb : ∀ i < 128, P ⟨BitVec.twoPow 128 i⟩) (a : GF) : P a := by
  have key : ∀ n, n ≤ 128 →
      P ⟨xsum n fun i => if a.bits.getLsbD i then BitVec.twoPow 128 i else 0⟩ := by
    intro n
    induction n with
    | zero => intro _; exact h0
    | succ n ih =>
      intro hn
      have := hadd _ ⟨if a.bits.getLsbD n then BitVec.twoPow 128 n else 0⟩ (ih (by omega)) (by
        split
        · exact hb n (by omega)
        · exact h0)
      exact this
  have := key 128 (Nat.le_refl _)
  rw [xsum_self] at this
  exact this

/-! A faster squaring, for the computations. -/

def spreadStep (n : Nat) (m : BitVec 128) (v : BitVec 128) : BitVec 128 := (v ^^^ (v <<< n)) &&& m

theorem xor_and_right (a b m : BitVec 128) : (a ^^^ b) &&& m = a &&& m ^^^ b &&& m := by
  ext i hi
  simp only [BitVec.getElem_and, BitVec.getElem_xor]
  cases a[i] <;> cases b[i] <;> cases m[i] <;> rfl

theorem spreadStep_add (n : Nat) (m : BitVec 128) : Additive (spreadStep n m) := fun a b => by
  unfold spreadStep
  rw [BitVec.shiftLeft_xor_distrib, xor4, xor_and_right]

def spread (v : BitVec 128) : BitVec 128 :=
  spreadStep 1 0x55555555555555555555555555555555 (spreadStep 2 0x33333333333333333333333333333333
   (spreadStep 4 0x0f0f0f0f0f0f0f0f0f0f0f0f0f0f0f0f (spreadStep 8 0x00ff00ff00ff00ff00ff00ff00ff00ff
    (spreadStep 16 0x0000ffff0000ffff0000ffff0000ffff
      (spreadStep 32 0x00000000ffffffff00000000ffffffff v)))))

theorem spread_add : Additive spread := fun a b => by
  unfold spread
  rw [spreadStep_add, spreadStep_add, spreadStep_add, spreadStep_add, spreadStep_add, spreadStep_add]

def gfSq (a : BitVec 128) : BitVec 128 :=
  let h := spread (a >>> 64) <<< 1
  let s := spread (a &&& 0xffffffffffffffff) <<< 1
  let s1 := gfMulX s
  let s2 := gfMulX s1
  let s7 := gfMulX (gfMulX (gfMulX (gfMulX (gfMulX s2))))
  h ^^^ (s ^^^ (s1 ^^^ (s2 ^^^ s7)))

theorem gfSq_add : Additive gfSq := fun a b => by
  have hs : ∀ u v : BitVec 128, spread ((u ^^^ v) &&& 0xffffffffffffffff) <<< 1
      = spread (u &&& 0xffffffffffffffff) <<< 1 ^^^ spread (v &&& 0xffffffffffffffff) <<< 1 := by
    intro u v
    rw [xor_and_right, spread_add, BitVec.shiftLeft_xor_distrib]
  have hh : ∀ u v : BitVec 128, spread ((u ^^^ v) >>> 64) <<< 1
      = spread (u >>> 64) <<< 1 ^^^ spread (v >>> 64) <<< 1 := by
    intro u v
    rw [BitVec.ushiftRight_xor_distrib, spread_add, BitVec.shiftLeft_xor_distrib]
  unfold gfSq
  dsimp only
  rw [hs, hh]
  generalize spread (a &&& 0xffffffffffffffff) <<< 1 = sa
  generalize spread (b &&& 0xffffffffffffffff) <<< 1 = sb
  generalize spread (a >>> 64) <<< 1 = ha
  generalize spread (b >>> 64) <<< 1 = hb
  rw [gfMulX_xor, gfMulX_xor, gfMulX_xor, gfMulX_xor, gfMulX_xor, gfMulX_xor, gfMulX_xor]
  generalize gfMulX (gfMulX (gfMulX (gfMulX (gfMulX (gfMulX (gfMulX sa)))))) = sa7
  generalize gfMulX (gfMulX (gfMulX (gfMulX (gfMulX (gfMulX (gfMulX sb)))))) = sb7
  generalize gfMulX (gfMulX sa) = sa2
  generalize gfMulX (gfMulX sb) = sb2
  generalize gfMulX sa = sa1
  generalize gfMulX sb = sb1
  rw [xor4 sa2, xor4 sa1, xor4 sa, xor4 ha]

theorem gfSq_eq (a : BitVec 128) : gfSq a = gfMul a a := by
  refine Additive.ext gfSq_add (g := fun a => gfMul a a) ?_ ?_ a
  · intro a b
    have := congrArg GF.bits (mul_self_add ⟨a⟩ ⟨b⟩)
    simp only [bits_mul, bits_add] at this
    exact this
  · have : ∀ i : Fin 128, gfSq (BitVec.twoPow 128 i) = gfMul (BitVec.twoPow 128 i) (BitVec.twoPow 128 i) := by
      decide +kernel
    intro i hi
    exact this ⟨i, hi⟩

def trBits : Nat → BitVec 128 → BitVec 128
  | 0, _ => 0
  | n + 1, a => a ^^^ trBits n (gfSq a)

theorem tr_bits (n : Nat) (a : GF) : (tr n a).bits = trBits n a.bits := by
  induction n generalizing a with
  | zero => rfl
  | succ n ih => rw [tr, bits_add, ih, trBits, gfSq_eq]; rfl

def sqBits : Nat → BitVec 128 → BitVec 128
  | 0, a => a
  | n + 1, a => sqBits n (gfSq a)

theorem sqI_bits (n : Nat) (a : GF) : (sqI n a).bits = sqBits n a.bits := by
  induction n generalizing a with
  | zero => rfl
  | succ n ih => rw [sqI, ih, sqBits, gfSq_eq]; rfl

theorem trBits_basis : ∀ i : Fin 128, trBits 128 (BitVec.twoPow 128 i) = 0
    ∨ trBits 128 (BitVec.twoPow 128 i) = BitVec.twoPow 128 127 := by
  decide +kernel

theorem tr_one_zero (a : GF) : tr 128 a = 0 ∨ tr 128 a = 1 := by
  refine basis_induction (P := fun a => tr 128 a = 0 ∨ tr 128 a = 1) (.inl ?_) ?_ ?_ a
  · exact ext' (by rw [tr_bits]; decide +kernel)
  · intro a b ha hb
    rw [tr_add]
    rcases ha with ha | ha <;> rcases hb with hb | hb <;> rw [ha, hb]
    · exact .inl (add_zero 0)
    · exact .inr (zero_add 1)
    · exact .inr (add_zero 1)
    · exact .inl (add_self 1)
  · intro i hi
    rcases trBits_basis ⟨i, hi⟩ with h | h
    · exact .inl (ext' (by rw [tr_bits]; exact h))
    · exact .inr (ext' (by rw [tr_bits]; exact h))

theorem tr_onto : tr 128 ⟨BitVec.twoPow 128 0⟩ = 1 := ext' (by rw [tr_bits]; decide +kernel)

theorem idempotent {e : GF} (he : e * e = e) : e = 0 ∨ e = 1 := by
  have := tr_idem 128 he ⟨BitVec.twoPow 128 0⟩
  rw [tr_onto, mul_one] at this
  rw [← this]
  exact tr_one_zero _

/-- The generator `x`. -/
def x : GF := ⟨BitVec.twoPow 128 126⟩

theorem x_pow (i : Nat) (hi : i < 128) : x ^ i = ⟨BitVec.twoPow 128 (127 - i)⟩ := by
  induction i with
  | zero => rw [pow_zero]; rfl
  | succ i ih =>
    rw [pow_succ', ih (by omega)]
    refine ext' ?_
    rw [bits_mul]
    have := C33_field.2.2.1 1 i (by omega)
    rw [show i + 1 = 1 + i by omega]
    exact this

theorem sqI_x : sqI 128 x = x := ext' (by rw [sqI_bits]; decide +kernel)

theorem sqI_x_pow (i : Nat) : sqI 128 (x ^ i) = x ^ i := by
  induction i with
  | zero =>
    rw [pow_zero]
    refine ext' ?_
    rw [sqI_bits]; decide +kernel
  | succ i ih => rw [pow_succ, sqI_mul, ih, sqI_x]

theorem sqI_all (a : GF) : sqI 128 a = a := by
  refine basis_induction (P := fun a => sqI 128 a = a) ?_ ?_ ?_ a
  · exact ext' (by rw [sqI_bits]; decide +kernel)
  · intro a b ha hb; rw [sqI_add, ha, hb]
  · intro i hi
    have := x_pow (127 - i) (by omega)
    rw [show 127 - (127 - i) = i by omega] at this
    rw [← this, sqI_x_pow]

/-- Every element that is not zero has an inverse. -/
theorem inverse {a : GF} (ha : a ≠ 0) : ∃ b, b * a = 1 := by
  have h := sqI_all a
  rw [sqI_pow] at h
  obtain ⟨n, hn⟩ : ∃ n, 2 ^ 128 = n + 2 := ⟨2 ^ 128 - 2, by norm_num⟩
  rw [hn] at h
  have he : a ^ (n + 1) * a ^ (n + 1) = a ^ (n + 1) := by
    rw [show a ^ (n + 1) * a ^ (n + 1) = a ^ (n + 2) * a ^ n by ring, h]; ring
  rcases idempotent he with h0 | h1
  · exfalso
    apply ha
    rw [← h, show a ^ (n + 2) = a ^ (n + 1) * a by ring, h0, zero_mul]
  · exact ⟨a ^ n, by rw [← pow_succ]; exact h1⟩

instance : Nontrivial GF := ⟨⟨0, 1, fun h => by
  have := congrArg GF.bits h
  rw [bits_zero, bits_one] at this
  revert this
  decide⟩⟩

instance : NoZeroDivisors GF := ⟨fun {a b} h => by
  by_cases ha : a = 0
  · exact .inl ha
  · obtain ⟨c, hc⟩ := inverse ha
    refine .inr ?_
    rw [← one_mul b, ← hc, mul_assoc, h, mul_zero]⟩

instance : IsDomain GF := NoZeroDivisors.to_isDomain GF

end GF
end Verif
