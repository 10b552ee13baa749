import Verif.Model.Poly1305
import Verif.Spec.Poly1305
import Verif.Proof.MD
import Verif.Proof.Words
/-
Poly1305: the 44-bit limb arithmetic computes modulo 2^130 - 5.
-/
namespace Verif

/-! ### Machine words without overflow -/

theorem toNat_add_lt {w : Nat} {a b : BitVec w} (h : a.toNat + b.toNat < 2 ^ w) :
    (a + b).toNat = a.toNat + b.toNat := by rw [BitVec.toNat_add, Nat.mod_eq_of_lt h]

theorem toNat_mul_lt {w : Nat} {a b : BitVec w} (h : a.toNat * b.toNat < 2 ^ w) :
    (a * b).toNat = a.toNat * b.toNat := by rw [BitVec.toNat_mul, Nat.mod_eq_of_lt h]

theorem mul128_toNat (x y : W64) : (mul128 x y).toNat = x.toNat * y.toNat := by
  have hx := x.isLt
  have hy := y.isLt
  have : x.toNat * y.toNat < 2 ^ 64 * 2 ^ 64 := Nat.mul_lt_mul'' hx hy
  unfold mul128
  have e1 : (x.setWidth 128).toNat = x.toNat := by
    rw [BitVec.toNat_setWidth, Nat.mod_eq_of_lt (by omega)]
  have e2 : (y.setWidth 128).toNat = y.toNat := by
    rw [BitVec.toNat_setWidth, Nat.mod_eq_of_lt (by omega)]
  rw [toNat_mul_lt (by rw [e1, e2]; omega), e1, e2]

theorem and_m44 (x : W64) : (x &&& (0xfffffffffff : W64)).toNat = x.toNat % 2 ^ 44 := by
  rw [BitVec.toNat_and, show ((0xfffffffffff : W64)).toNat = 2 ^ 44 - 1 by rfl, Nat.and_two_pow_sub_one_eq_mod]

theorem and_m42 (x : W64) : (x &&& (0x3ffffffffff : W64)).toNat = x.toNat % 2 ^ 42 := by
  rw [BitVec.toNat_and, show ((0x3ffffffffff : W64)).toNat = 2 ^ 42 - 1 by rfl, Nat.and_two_pow_sub_one_eq_mod]

theorem shr_toNat {w : Nat} (x : BitVec w) (k : Nat) : (x >>> k).toNat = x.toNat / 2 ^ k := by
  rw [BitVec.toNat_ushiftRight, Nat.shiftRight_eq_div_pow]

theorem limb_mid (t0 t1 : W64) :
    ((t0 >>> 44) ||| (t1 <<< 20)).toNat = (t0.toNat + 2 ^ 64 * t1.toNat) / 2 ^ 44 % 2 ^ 64 := by
  have h0 := t0.isLt
  have h1 := t1.isLt
  rw [BitVec.toNat_or, shr_toNat, BitVec.toNat_shiftLeft, Nat.shiftLeft_eq,
    show t1.toNat * 2 ^ 20 % 2 ^ 64 = (t1.toNat % 2 ^ 44) <<< 20 by rw [Nat.shiftLeft_eq]; omega,
    Nat.or_comm, ← Nat.shiftLeft_add_eq_or_of_lt (by omega), Nat.shiftLeft_eq]
  omega

/-- The number held in limbs of 44, 44 and 42 bits. -/
def limbs (a0 a1 a2 : Nat) : Nat := a0 + 2 ^ 44 * a1 + 2 ^ 88 * a2

/-- Loading 16 bytes. -/
theorem load_limbs {m : Bytes} (h : 16 ≤ m.length) :
    (le64or m).toNat + 2 ^ 64 * (le64or (m.drop 8)).toNat = leNat (m.take 16) := by
  rw [le64or_eq (by omega), le64or_eq (by simp; omega)]
  have e : m.take 16 = m.take 8 ++ (m.drop 8).take 8 := by
    rw [← List.take_add]
  have l0 := leNat_lt (m.take 8)
  have l1 := leNat_lt ((m.drop 8).take 8)
  rw [List.length_take, Nat.min_eq_left (by omega)] at l0
  rw [List.length_take, List.length_drop, Nat.min_eq_left (by omega)] at l1
  rw [e, leNat_append, BitVec.toNat_ofNat, BitVec.toNat_ofNat, Nat.mod_eq_of_lt (by omega),
    Nat.mod_eq_of_lt (by omega), List.length_take, Nat.min_eq_left (by omega)]

/-- Invariant on the limbs of the key. -/
structure KeyLimbs (st : Poly64) (r : Nat) : Prop where
  b0 : st.r0.toNat < 2 ^ 44
  b1 : st.r1.toNat < 2 ^ 44
  b2 : st.r2.toNat < 2 ^ 36
  val : limbs st.r0.toNat st.r1.toNat st.r2.toNat = r

/-- Invariant on the accumulator: it is partially reduced. -/
structure AccLimbs (st : Poly64) (a : Nat) : Prop where
  b0 : st.h0.toNat < 2 ^ 44
  b1 : st.h1.toNat < 2 ^ 44 + 2 ^ 8
  b2 : st.h2.toNat < 2 ^ 42
  val : limbs st.h0.toNat st.h1.toNat st.h2.toNat % Spec.polyP = a % Spec.polyP

/-- One step, on numbers. -/
theorem poly_step_nat {a0 a1 a2 r0 r1 r2 : Nat} (ha0 : a0 < 2 ^ 45) (ha1 : a1 < 2 ^ 46)
    (ha2 : a2 < 2 ^ 43) (hr0 : r0 < 2 ^ 44) (hr1 : r1 < 2 ^ 44) (hr2 : r2 < 2 ^ 36) :
    a0 * r0 + a1 * (20 * r2) + a2 * (20 * r1) < 2 ^ 93 ∧
    a0 * r1 + a1 * r0 + a2 * (20 * r2) < 2 ^ 91 ∧
    a0 * r2 + a1 * r1 + a2 * r0 < 2 ^ 91 ∧
    limbs a0 a1 a2 * limbs r0 r1 r2 =
      limbs (a0 * r0 + a1 * (20 * r2) + a2 * (20 * r1)) (a0 * r1 + a1 * r0 + a2 * (20 * r2))
        (a0 * r2 + a1 * r1 + a2 * r0)
      + Spec.polyP * (4 * (a1 * r2 + a2 * r1) + 4 * 2 ^ 44 * (a2 * r2)) := by
  have m : ∀ {x y b c : Nat}, x < b → y < c → x * y < b * c := fun h1 h2 => Nat.mul_lt_mul'' h1 h2
  have k1 := m ha0 hr0; have k2 := m ha1 (show 20 * r2 < 20 * 2 ^ 36 by omega)
  have k3 := m ha2 (show 20 * r1 < 20 * 2 ^ 44 by omega)
  have k4 := m ha0 hr1; have k5 := m ha1 hr0
  have k6 := m ha2 (show 20 * r2 < 20 * 2 ^ 36 by omega)
  have k7 := m ha0 hr2; have k8 := m ha1 hr1; have k9 := m ha2 hr0
  refine ⟨by omega, by omega, by omega, ?_⟩
  simp only [limbs, Spec.polyP]
  grind

/-- The carry chain, on numbers. -/
theorem poly_carry_nat {d0 d1 d2 : Nat} (h0 : d0 < 2 ^ 93) (h1 : d1 < 2 ^ 91) (h2 : d2 < 2 ^ 91) :
    let e1 := d1 + d0 / 2 ^ 44
    let e2 := d2 + e1 / 2 ^ 44
    let f0 := d0 % 2 ^ 44 + e2 / 2 ^ 42 * 5
    e1 < 2 ^ 92 ∧ e2 < 2 ^ 92 ∧ f0 < 2 ^ 53 ∧ e1 % 2 ^ 44 + f0 / 2 ^ 44 < 2 ^ 44 + 2 ^ 8 ∧
    limbs (f0 % 2 ^ 44) (e1 % 2 ^ 44 + f0 / 2 ^ 44) (e2 % 2 ^ 42) + Spec.polyP * (e2 / 2 ^ 42)
      = limbs d0 d1 d2 := by
  simp only [limbs, Spec.polyP]
  omega

theorem or_hibit (x : W64) (hx : x.toNat < 2 ^ 40) (f : Bool) :
    (x ||| if f then (0 : W64) else (1 : W64) <<< 40).toNat = x.toNat + if f then 0 else 2 ^ 40 := by
  cases f
  · simp only [Bool.false_eq_true, if_false]
    rw [BitVec.toNat_or, show ((1 : W64) <<< 40).toNat = 1 <<< 40 by rfl, Nat.or_comm,
      ← Nat.shiftLeft_add_eq_or_of_lt hx, Nat.add_comm]
    rfl
  · simp

/-- Processing one block: `(a + n) * r` modulo p, where the block is `n`, plus 2^128 except for the
final one. -/
theorem poly64Block_ok {st : Poly64} {r a : Nat} (hk : KeyLimbs st r) (ha : AccLimbs st a)
    {m : Bytes} (hm : m.length = 16) :
    KeyLimbs (poly64Block st m) r ∧ (poly64Block st m).final = st.final ∧
    (poly64Block st m).pad0 = st.pad0 ∧ (poly64Block st m).pad1 = st.pad1 ∧
    AccLimbs (poly64Block st m) (r * (a + (leNat m + if st.final then 0 else 2 ^ 128))) := by
  refine ⟨⟨hk.b0, hk.b1, hk.b2, hk.val⟩, rfl, rfl, rfl, ?_⟩
  have hN := load_limbs (m := m) (by omega)
  rw [List.take_of_length_le (by omega)] at hN
  unfold poly64Block
  dsimp only
  generalize le64or m = t0 at hN
  generalize le64or (m.drop 8) = t1 at hN
  have ht0 := t0.isLt
  have ht1 := t1.isLt
  obtain ⟨hb0, hb1, hb2, hval⟩ := ha
  have kb0 := hk.b0; have kb1 := hk.b1; have kb2 := hk.b2; have kv := hk.val
  -- the message limbs
  have n0 : (t0 &&& (0xfffffffffff : W64)).toNat = leNat m % 2 ^ 44 := by rw [and_m44]; omega
  have n1 : (((t0 >>> 44) ||| (t1 <<< 20)) &&& (0xfffffffffff : W64)).toNat = leNat m / 2 ^ 44 % 2 ^ 44 := by
    rw [and_m44, limb_mid, hN]; omega
  have n2 : ((t1 >>> 24) &&& (0x3ffffffffff : W64)).toNat = leNat m / 2 ^ 88 := by
    rw [and_m42, shr_toNat]; omega
  have n2' := or_hibit ((t1 >>> 24) &&& (0x3ffffffffff : W64)) (by omega) st.final
  have hif : (if st.final then 0 else 2 ^ 128) = 2 ^ 88 * (if st.final then 0 else 2 ^ 40) := by
    cases st.final <;> rfl
  rw [hif]
  have hle : (if st.final then 0 else 2 ^ 40) ≤ 2 ^ 40 := by cases st.final <;> decide
  generalize (if st.final then 0 else 2 ^ 40) = hi at n2' hif hle
  rw [n2] at n2'
  -- a + m
  generalize (t0 &&& (0xfffffffffff : W64)) = x0 at n0
  generalize (((t0 >>> 44) ||| (t1 <<< 20)) &&& (0xfffffffffff : W64)) = x1 at n1
  generalize ((t1 >>> 24 &&& (0x3ffffffffff : W64)) ||| if st.final = true then (0 : W64) else (1 : W64) <<< 40) = x2 at n2'
  have a0 : (st.h0 + x0).toNat = st.h0.toNat + leNat m % 2 ^ 44 := by
    rw [toNat_add_lt (by omega), n0]
  have a1 : (st.h1 + x1).toNat = st.h1.toNat + leNat m / 2 ^ 44 % 2 ^ 44 := by
    rw [toNat_add_lt (by omega), n1]
  have a2 : (st.h2 + x2).toNat = st.h2.toNat + (leNat m / 2 ^ 88 + hi) := by
    rw [toNat_add_lt (by omega), n2']
  have hsum : limbs (st.h0 + x0).toNat (st.h1 + x1).toNat (st.h2 + x2).toNat
      = limbs st.h0.toNat st.h1.toNat st.h2.toNat + (leNat m + 2 ^ 88 * hi) := by
    simp only [a0, a1, a2, limbs]; omega
  have c0 : (st.h0 + x0).toNat < 2 ^ 45 := by omega
  have c1 : (st.h1 + x1).toNat < 2 ^ 46 := by omega
  have c2 : (st.h2 + x2).toNat < 2 ^ 43 := by omega
  clear a0 a1 a2 n0 n1 n2 n2'
  generalize st.h0 + x0 = h0 at *
  generalize st.h1 + x1 = h1 at *
  generalize st.h2 + x2 = h2 at *
  -- the products
  have s1 : (st.r1 * ((5 : W64) <<< 2)).toNat = 20 * st.r1.toNat := by
    rw [toNat_mul_lt (by rw [show ((5 : W64) <<< 2).toNat = 20 by rfl]; omega),
      show ((5 : W64) <<< 2).toNat = 20 by rfl, Nat.mul_comm]
  have s2 : (st.r2 * ((5 : W64) <<< 2)).toNat = 20 * st.r2.toNat := by
    rw [toNat_mul_lt (by rw [show ((5 : W64) <<< 2).toNat = 20 by rfl]; omega),
      show ((5 : W64) <<< 2).toNat = 20 by rfl, Nat.mul_comm]
  obtain ⟨q0, q1, q2, q3⟩ := poly_step_nat c0 c1 c2 kb0 kb1 kb2
  have d0 : (mul128 h0 st.r0 + mul128 h1 (st.r2 * ((5 : W64) <<< 2)) + mul128 h2 (st.r1 * ((5 : W64) <<< 2))).toNat
      = h0.toNat * st.r0.toNat + h1.toNat * (20 * st.r2.toNat) + h2.toNat * (20 * st.r1.toNat) := by
    rw [toNat_add_lt, toNat_add_lt, mul128_toNat, mul128_toNat, mul128_toNat, s1, s2]
    · rw [mul128_toNat, mul128_toNat, s2]; omega
    · rw [toNat_add_lt, mul128_toNat, mul128_toNat, mul128_toNat, s1, s2]
      · omega
      · rw [mul128_toNat, mul128_toNat, s2]; omega
  have d1 : (mul128 h0 st.r1 + mul128 h1 st.r0 + mul128 h2 (st.r2 * ((5 : W64) <<< 2))).toNat
      = h0.toNat * st.r1.toNat + h1.toNat * st.r0.toNat + h2.toNat * (20 * st.r2.toNat) := by
    rw [toNat_add_lt, toNat_add_lt, mul128_toNat, mul128_toNat, mul128_toNat, s2]
    · rw [mul128_toNat, mul128_toNat]; omega
    · rw [toNat_add_lt, mul128_toNat, mul128_toNat, mul128_toNat, s2]
      · omega
      · rw [mul128_toNat, mul128_toNat]; omega
  have d2 : (mul128 h0 st.r2 + mul128 h1 st.r1 + mul128 h2 st.r0).toNat
      = h0.toNat * st.r2.toNat + h1.toNat * st.r1.toNat + h2.toNat * st.r0.toNat := by
    rw [toNat_add_lt, toNat_add_lt, mul128_toNat, mul128_toNat, mul128_toNat]
    · rw [mul128_toNat, mul128_toNat]; omega
    · rw [toNat_add_lt, mul128_toNat, mul128_toNat, mul128_toNat]
      · omega
      · rw [mul128_toNat, mul128_toNat]; omega
  rw [kv, hsum] at q3
  rw [← d0] at q0 q3
  rw [← d1] at q1 q3
  rw [← d2] at q2 q3
  clear d0 d1 d2 s1 s2
  generalize mul128 h0 st.r0 + mul128 h1 (st.r2 * ((5 : W64) <<< 2)) + mul128 h2 (st.r1 * ((5 : W64) <<< 2)) = d0 at *
  generalize mul128 h0 st.r1 + mul128 h1 st.r0 + mul128 h2 (st.r2 * ((5 : W64) <<< 2)) = d1 at *
  generalize mul128 h0 st.r2 + mul128 h1 st.r1 + mul128 h2 st.r0 = d2 at *
  generalize 4 * (h1.toNat * st.r2.toNat + h2.toNat * st.r1.toNat)
    + 4 * 2 ^ 44 * (h2.toNat * st.r2.toNat) = quot at q3
  -- the carries
  obtain ⟨p1, p2, p3, p4, p5⟩ := poly_carry_nat q0 q1 q2
  have lo : ∀ x : W128, (x.setWidth 64 &&& (0xfffffffffff : W64)).toNat = x.toNat % 2 ^ 44 := by
    intro x; rw [and_m44, BitVec.toNat_setWidth]; omega
  have lo42 : ∀ x : W128, (x.setWidth 64 &&& (0x3ffffffffff : W64)).toNat = x.toNat % 2 ^ 42 := by
    intro x; rw [and_m42, BitVec.toNat_setWidth]; omega
  have cc0 : ((d0 >>> 44).setWidth 64).toNat = d0.toNat / 2 ^ 44 := by
    rw [BitVec.toNat_setWidth, shr_toNat]; omega
  have ex : ∀ x : W64, (x.setWidth 128).toNat = x.toNat := by
    intro x; have := x.isLt; rw [BitVec.toNat_setWidth, Nat.mod_eq_of_lt (by omega)]
  have he1 : (d1 + ((d0 >>> 44).setWidth 64).setWidth 128).toNat = d1.toNat + d0.toNat / 2 ^ 44 := by
    rw [toNat_add_lt (by rw [ex, cc0]; omega), ex, cc0]
  rw [← he1] at p1 p2 p3 p4 p5
  generalize d1 + ((d0 >>> 44).setWidth 64).setWidth 128 = e1 at *
  have cc1 : ((e1 >>> 44).setWidth 64).toNat = e1.toNat / 2 ^ 44 := by
    rw [BitVec.toNat_setWidth, shr_toNat]; omega
  have he2 : (d2 + ((e1 >>> 44).setWidth 64).setWidth 128).toNat = d2.toNat + e1.toNat / 2 ^ 44 := by
    rw [toNat_add_lt (by rw [ex, cc1]; omega), ex, cc1]
  rw [← he2] at p2 p3 p4 p5
  generalize d2 + ((e1 >>> 44).setWidth 64).setWidth 128 = e2 at *
  have cc2 : ((e2 >>> 42).setWidth 64).toNat = e2.toNat / 2 ^ 42 := by
    rw [BitVec.toNat_setWidth, shr_toNat]; omega
  have hf0 : ((d0.setWidth 64 &&& (0xfffffffffff : W64)) + (e2 >>> 42).setWidth 64 * 5).toNat
      = d0.toNat % 2 ^ 44 + e2.toNat / 2 ^ 42 * 5 := by
    rw [toNat_add_lt, lo, toNat_mul_lt, cc2]
    · rfl
    · rw [cc2, show (5 : W64).toNat = 5 by rfl]; omega
    · rw [lo, toNat_mul_lt, cc2, show (5 : W64).toNat = 5 by rfl]
      · omega
      · rw [cc2, show (5 : W64).toNat = 5 by rfl]; omega
  rw [← hf0] at p3 p4 p5
  generalize (d0.setWidth 64 &&& (0xfffffffffff : W64)) + (e2 >>> 42).setWidth 64 * 5 = f0 at *
  have g1 : ((e1.setWidth 64 &&& (0xfffffffffff : W64)) + f0 >>> 44).toNat
      = e1.toNat % 2 ^ 44 + f0.toNat / 2 ^ 44 := by
    rw [toNat_add_lt, lo, shr_toNat]
    rw [lo, shr_toNat]; omega
  refine ⟨?_, ?_, ?_, ?_⟩
  · show (f0 &&& (0xfffffffffff : W64)).toNat < _
    rw [and_m44]; omega
  · show ((e1.setWidth 64 &&& (0xfffffffffff : W64)) + f0 >>> 44).toNat < _
    rw [g1]; exact p4
  · show (e2.setWidth 64 &&& (0x3ffffffffff : W64)).toNat < _
    rw [lo42]; omega
  · show limbs (f0 &&& (0xfffffffffff : W64)).toNat
      ((e1.setWidth 64 &&& (0xfffffffffff : W64)) + f0 >>> 44).toNat
      (e2.setWidth 64 &&& (0x3ffffffffff : W64)).toNat % _ = _
    rw [and_m44, g1, lo42]
    rw [← Nat.add_mul_mod_self_left (limbs _ _ _) Spec.polyP (e2.toNat / 2 ^ 42), p5,
      ← Nat.add_mul_mod_self_left (limbs _ _ _) Spec.polyP quot, ← q3, Nat.mul_comm r,
      Nat.mul_mod, Nat.add_mod, hval, ← Nat.add_mod, ← Nat.mul_mod]

/-- The full carry, on numbers. -/
theorem carry_nat {h0 h1 h2 : Nat} (b0 : h0 < 2 ^ 44) (b1 : h1 < 2 ^ 44 + 2 ^ 8) (b2 : h2 < 2 ^ 42) :
    let i2 := h2 + h1 / 2 ^ 44
    let i0 := h0 + i2 / 2 ^ 42 * 5
    let i1 := h1 % 2 ^ 44 + i0 / 2 ^ 44
    let j2 := i2 % 2 ^ 42 + i1 / 2 ^ 44
    let j0 := i0 % 2 ^ 44 + j2 / 2 ^ 42 * 5
    let j1 := i1 % 2 ^ 44 + j0 / 2 ^ 44
    i2 < 2 ^ 43 ∧ i0 < 2 ^ 45 ∧ i1 < 2 ^ 45 ∧ j2 < 2 ^ 43 ∧ j0 < 2 ^ 45 ∧ j1 < 2 ^ 44 ∧
    limbs (j0 % 2 ^ 44) j1 (j2 % 2 ^ 42) + Spec.polyP * (i2 / 2 ^ 42 + j2 / 2 ^ 42) = limbs h0 h1 h2 := by
  simp only [limbs, Spec.polyP]
  refine ⟨by omega, by omega, by omega, by omega, by omega, by omega, ?_⟩
  omega

theorem poly64Carry_ok {h0 h1 h2 : W64} (b0 : h0.toNat < 2 ^ 44) (b1 : h1.toNat < 2 ^ 44 + 2 ^ 8)
    (b2 : h2.toNat < 2 ^ 42) :
    let r := poly64Carry h0 h1 h2
    r.1.toNat < 2 ^ 44 ∧ r.2.1.toNat < 2 ^ 44 ∧ r.2.2.toNat < 2 ^ 42 ∧
    limbs r.1.toNat r.2.1.toNat r.2.2.toNat % Spec.polyP
      = limbs h0.toNat h1.toNat h2.toNat % Spec.polyP := by
  obtain ⟨p1, p2, p3, p4, p5, p6, p7⟩ := carry_nat b0 b1 b2
  unfold poly64Carry
  dsimp only
  have five : ∀ x : W64, x.toNat < 2 ^ 20 → (x * 5).toNat = x.toNat * 5 := by
    intro x hx
    rw [toNat_mul_lt (by rw [show (5 : W64).toNat = 5 by rfl]; omega)]; rfl
  have e1 : (h2 + h1 >>> 44).toNat = h2.toNat + h1.toNat / 2 ^ 44 := by
    rw [toNat_add_lt (by rw [shr_toNat]; omega), shr_toNat]
  rw [← e1] at p1 p2 p3 p4 p5 p6 p7
  generalize h2 + h1 >>> 44 = i2 at *
  have e2 : (h0 + i2 >>> 42 * 5).toNat = h0.toNat + i2.toNat / 2 ^ 42 * 5 := by
    have := five (i2 >>> 42) (by rw [shr_toNat]; omega)
    rw [shr_toNat] at this
    rw [toNat_add_lt (by rw [this]; omega), this]
  rw [← e2] at p2 p3 p4 p5 p6 p7
  generalize h0 + i2 >>> 42 * 5 = i0 at *
  have e3 : ((h1 &&& (0xfffffffffff : W64)) + i0 >>> 44).toNat = h1.toNat % 2 ^ 44 + i0.toNat / 2 ^ 44 := by
    rw [toNat_add_lt (by rw [shr_toNat, and_m44]; omega), shr_toNat, and_m44]
  rw [← e3] at p3 p4 p5 p6 p7
  generalize (h1 &&& (0xfffffffffff : W64)) + i0 >>> 44 = i1 at *
  have e4 : ((i2 &&& (0x3ffffffffff : W64)) + i1 >>> 44).toNat = i2.toNat % 2 ^ 42 + i1.toNat / 2 ^ 44 := by
    rw [toNat_add_lt (by rw [shr_toNat, and_m42]; omega), shr_toNat, and_m42]
  rw [← e4] at p4 p5 p6 p7
  generalize (i2 &&& (0x3ffffffffff : W64)) + i1 >>> 44 = j2 at *
  have e5 : ((i0 &&& (0xfffffffffff : W64)) + j2 >>> 42 * 5).toNat
      = i0.toNat % 2 ^ 44 + j2.toNat / 2 ^ 42 * 5 := by
    have := five (j2 >>> 42) (by rw [shr_toNat]; omega)
    rw [shr_toNat] at this
    rw [toNat_add_lt (by rw [this, and_m44]; omega), this, and_m44]
  rw [← e5] at p5 p6 p7
  generalize (i0 &&& (0xfffffffffff : W64)) + j2 >>> 42 * 5 = j0 at *
  have e6 : ((i1 &&& (0xfffffffffff : W64)) + j0 >>> 44).toNat = i1.toNat % 2 ^ 44 + j0.toNat / 2 ^ 44 := by
    rw [toNat_add_lt (by rw [shr_toNat, and_m44]; omega), shr_toNat, and_m44]
  rw [← e6] at p6 p7
  generalize (i1 &&& (0xfffffffffff : W64)) + j0 >>> 44 = j1 at *
  rw [and_m44, and_m42]
  refine ⟨by omega, by omega, by omega, ?_⟩
  rw [← p7, Nat.add_mul_mod_self_left]

theorem natToLE_mod (n x : Nat) : natToLE n (x % 256 ^ n) = natToLE n x := by
  rw [← leNat_natToLE]
  have := natToLE_leNat (natToLE n x)
  rwa [natToLE_length] at this

theorem select_hi (h g : W64) : (h &&& ~~~ ((0 : W64) - 1)) ||| (g &&& ((0 : W64) - 1)) = g := by
  have : ((0 : W64) - 1) = BitVec.allOnes 64 := by decide
  rw [this, BitVec.not_allOnes, BitVec.and_allOnes]; simp

theorem select_lo (h g : W64) : (h &&& ~~~ ((1 : W64) - 1)) ||| (g &&& ((1 : W64) - 1)) = h := by
  have : ((1 : W64) - 1) = 0#64 := by decide
  rw [this, BitVec.not_zero, BitVec.and_allOnes]; simp

theorem poly64Select_ok {h0 h1 h2 : W64} (b0 : h0.toNat < 2 ^ 44) (b1 : h1.toNat < 2 ^ 44)
    (b2 : h2.toNat < 2 ^ 42) :
    let r := poly64Select h0 h1 h2
    r.1.toNat < 2 ^ 44 ∧ r.2.1.toNat < 2 ^ 44 ∧ r.2.2.toNat < 2 ^ 42 ∧
    limbs r.1.toNat r.2.1.toNat r.2.2.toNat = limbs h0.toNat h1.toNat h2.toNat % Spec.polyP := by
  unfold poly64Select
  dsimp only
  have e0 : (h0 + 5).toNat = h0.toNat + 5 := by
    rw [toNat_add_lt (by rw [show (5 : W64).toNat = 5 by rfl]; omega)]; rfl
  have e1 : (h1 + (h0 + 5) >>> 44).toNat = h1.toNat + (h0.toNat + 5) / 2 ^ 44 := by
    rw [toNat_add_lt (by rw [shr_toNat, e0]; omega), shr_toNat, e0]
  have e2 : (h2 + (h1 + (h0 + 5) >>> 44) >>> 44).toNat
      = h2.toNat + (h1.toNat + (h0.toNat + 5) / 2 ^ 44) / 2 ^ 44 := by
    rw [toNat_add_lt (by rw [shr_toNat, e1]; omega), shr_toNat, e1]
  generalize h0 + 5 = g0 at *
  generalize h1 + g0 >>> 44 = g1 at *
  generalize h2 + g1 >>> 44 = x2 at *
  have eq2 : (x2 - (1 : W64) <<< 42).toNat = (2 ^ 64 - 2 ^ 42 + x2.toNat) % 2 ^ 64 := by
    rw [BitVec.toNat_sub]; rfl
  by_cases hlt : x2.toNat < 2 ^ 42
  · have hm : (x2 - (1 : W64) <<< 42) >>> 63 = 1 := by
      apply BitVec.eq_of_toNat_eq
      rw [shr_toNat, eq2, show (1 : W64).toNat = 1 by rfl]; omega
    rw [hm, select_lo, select_lo, select_lo]
    refine ⟨b0, b1, b2, ?_⟩
    rw [Nat.mod_eq_of_lt]
    simp only [limbs, Spec.polyP]
    omega
  · have hm : (x2 - (1 : W64) <<< 42) >>> 63 = 0 := by
      apply BitVec.eq_of_toNat_eq
      rw [shr_toNat, eq2, show (0 : W64).toNat = 0 by rfl]; omega
    rw [hm, select_hi, select_hi, select_hi, and_m44, and_m44, eq2]
    refine ⟨by omega, by omega, by omega, ?_⟩
    have hge : Spec.polyP ≤ limbs h0.toNat h1.toNat h2.toNat := by
      simp only [limbs, Spec.polyP]; omega
    have hlt2 : limbs h0.toNat h1.toNat h2.toNat - Spec.polyP < Spec.polyP := by
      simp only [limbs, Spec.polyP] at hge ⊢; omega
    rw [Nat.mod_eq_sub_mod hge, Nat.mod_eq_of_lt hlt2]
    simp only [limbs, Spec.polyP] at hge ⊢
    omega

theorem poly64Pad_ok {h0 h1 h2 t0 t1 : W64} (b0 : h0.toNat < 2 ^ 44) (b1 : h1.toNat < 2 ^ 44)
    (b2 : h2.toNat < 2 ^ 42) :
    poly64Pad h0 h1 h2 t0 t1
      = natToLE 16 (limbs h0.toNat h1.toNat h2.toNat + (t0.toNat + 2 ^ 64 * t1.toNat)) := by
  have ht0 := t0.isLt
  have ht1 := t1.isLt
  unfold poly64Pad
  dsimp only
  have e0 : (h0 + (t0 &&& (0xfffffffffff : W64))).toNat = h0.toNat + t0.toNat % 2 ^ 44 := by
    rw [toNat_add_lt (by rw [and_m44]; omega), and_m44]
  generalize h0 + (t0 &&& (0xfffffffffff : W64)) = s0 at *
  have e1 : (h1 + ((((t0 >>> 44) ||| (t1 <<< 20)) &&& (0xfffffffffff : W64)) + s0 >>> 44)).toNat
      = h1.toNat + ((t0.toNat + 2 ^ 64 * t1.toNat) / 2 ^ 44 % 2 ^ 44 + s0.toNat / 2 ^ 44) := by
    have : (((t0 >>> 44) ||| (t1 <<< 20)) &&& (0xfffffffffff : W64)).toNat
        = (t0.toNat + 2 ^ 64 * t1.toNat) / 2 ^ 44 % 2 ^ 44 := by rw [and_m44, limb_mid]; omega
    rw [toNat_add_lt, toNat_add_lt, this, shr_toNat]
    · rw [this, shr_toNat]; omega
    · rw [toNat_add_lt, this, shr_toNat]
      · omega
      · rw [this, shr_toNat]; omega
  generalize h1 + ((((t0 >>> 44) ||| (t1 <<< 20)) &&& (0xfffffffffff : W64)) + s0 >>> 44) = s1 at *
  have e2 : (h2 + ((t1 >>> 24 &&& (0x3ffffffffff : W64)) + s1 >>> 44)).toNat
      = h2.toNat + (t1.toNat / 2 ^ 24 + s1.toNat / 2 ^ 44) := by
    have : (t1 >>> 24 &&& (0x3ffffffffff : W64)).toNat = t1.toNat / 2 ^ 24 := by
      rw [and_m42, shr_toNat]; omega
    rw [toNat_add_lt, toNat_add_lt, this, shr_toNat]
    · rw [this, shr_toNat]; omega
    · rw [toNat_add_lt, this, shr_toNat]
      · omega
      · rw [this, shr_toNat]; omega
  generalize h2 + ((t1 >>> 24 &&& (0x3ffffffffff : W64)) + s1 >>> 44) = s2 at *
  have w0 : ((s0 &&& (0xfffffffffff : W64)) ||| (s1 &&& (0xfffffffffff : W64)) <<< 44).toNat
      = s0.toNat % 2 ^ 44 + 2 ^ 44 * (s1.toNat % 2 ^ 20) := by
    rw [BitVec.toNat_or, BitVec.toNat_shiftLeft, and_m44, and_m44, Nat.shiftLeft_eq,
      show s1.toNat % 2 ^ 44 * 2 ^ 44 % 2 ^ 64 = (s1.toNat % 2 ^ 20) <<< 44 by
        rw [Nat.shiftLeft_eq]; omega,
      Nat.or_comm, ← Nat.shiftLeft_add_eq_or_of_lt (by omega), Nat.shiftLeft_eq]
    omega
  have w1 : ((s1 &&& (0xfffffffffff : W64)) >>> 20 ||| (s2 &&& (0x3ffffffffff : W64)) <<< 24).toNat
      = s1.toNat % 2 ^ 44 / 2 ^ 20 + 2 ^ 24 * (s2.toNat % 2 ^ 40) := by
    rw [BitVec.toNat_or, BitVec.toNat_shiftLeft, shr_toNat, and_m44, and_m42, Nat.shiftLeft_eq,
      show s2.toNat % 2 ^ 42 * 2 ^ 24 % 2 ^ 64 = (s2.toNat % 2 ^ 40) <<< 24 by
        rw [Nat.shiftLeft_eq]; omega,
      Nat.or_comm, ← Nat.shiftLeft_add_eq_or_of_lt (by omega), Nat.shiftLeft_eq]
    omega
  rw [toLE64_eq, toLE64_eq, w0, w1, natToLE_append 8 8]
  have v : limbs h0.toNat h1.toNat h2.toNat + (t0.toNat + 2 ^ 64 * t1.toNat)
      = s0.toNat % 2 ^ 44 + 2 ^ 44 * (s1.toNat % 2 ^ 44) + 2 ^ 88 * s2.toNat := by
    simp only [limbs]; omega
  rw [v, ← natToLE_mod 8 (s0.toNat % 2 ^ 44 + 2 ^ 44 * (s1.toNat % 2 ^ 44) + 2 ^ 88 * s2.toNat),
    ← natToLE_mod 8 ((s0.toNat % 2 ^ 44 + 2 ^ 44 * (s1.toNat % 2 ^ 44) + 2 ^ 88 * s2.toNat) / 256 ^ 8)]
  congr 2 <;> omega

theorem poly64Tag_ok {st : Poly64} {a : Nat} (ha : AccLimbs st a) :
    poly64Tag st = natToLE 16 (a % Spec.polyP + (st.pad0.toNat + 2 ^ 64 * st.pad1.toNat)) := by
  obtain ⟨a0, a1, a2, a3⟩ := poly64Carry_ok ha.b0 ha.b1 ha.b2
  unfold poly64Tag
  generalize poly64Carry st.h0 st.h1 st.h2 = r at *
  obtain ⟨r0, r1, r2⟩ := r
  obtain ⟨c0, c1, c2, c3⟩ := poly64Select_ok a0 a1 a2
  dsimp only at *
  generalize poly64Select r0 r1 r2 = q at *
  obtain ⟨q0, q1, q2⟩ := q
  dsimp only at *
  rw [poly64Pad_ok c0 c1 c2, c3, a3, ha.val]

/-- The clamped key. -/
theorem and_low {x m k : Nat} (hm : m < 2 ^ k) : x &&& m = (x % 2 ^ k) &&& m := by
  have h := Nat.and_mod_two_pow (a := x) (b := m) (n := k)
  rw [Nat.mod_eq_of_lt hm, Nat.mod_eq_of_lt (Nat.lt_of_le_of_lt Nat.and_le_right hm)] at h
  exact h

theorem poly64Init_key {key : Bytes} (h : key.length = 32) (buf0 : Bytes) :
    KeyLimbs (poly64Init key buf0).h (Spec.polyClamp (leNat (key.take 16))) := by
  have hN := load_limbs (m := key) (by omega)
  unfold poly64Init
  dsimp only
  generalize le64or key = t0 at *
  generalize le64or (key.drop 8) = t1 at *
  have ht0 := t0.isLt
  have ht1 := t1.isLt
  generalize leNat (key.take 16) = N at *
  have hX : ∀ k, Spec.polyClamp N / 2 ^ k = N / 2 ^ k &&& 0x0ffffffc0ffffffc0ffffffc0fffffff / 2 ^ k :=
    fun k => by rw [Spec.polyClamp, Nat.and_div_two_pow]
  have e0 : (t0 &&& (0xffc0fffffff : W64)).toNat = Spec.polyClamp N % 2 ^ 44 := by
    rw [BitVec.toNat_and, show (0xffc0fffffff : W64).toNat = 0xffc0fffffff by rfl,
      and_low (k := 44) (by decide), Spec.polyClamp, Nat.and_mod_two_pow,
      show (0x0ffffffc0ffffffc0ffffffc0fffffff : Nat) % 2 ^ 44 = 0xffc0fffffff by decide]
    congr 1; omega
  have e1 : (((t0 >>> 44) ||| (t1 <<< 20)) &&& (0xfffffc0ffff : W64)).toNat
      = Spec.polyClamp N / 2 ^ 44 % 2 ^ 44 := by
    rw [BitVec.toNat_and, limb_mid, show (0xfffffc0ffff : W64).toNat = 0xfffffc0ffff by rfl,
      and_low (k := 44) (by decide), hX, Nat.and_mod_two_pow,
      show (0x0ffffffc0ffffffc0ffffffc0fffffff : Nat) / 2 ^ 44 % 2 ^ 44 = 0xfffffc0ffff by decide, hN]
    congr 1; omega
  have e2 : ((t1 >>> 24) &&& (0x00ffffffc0f : W64)).toNat = Spec.polyClamp N / 2 ^ 88 := by
    rw [BitVec.toNat_and, shr_toNat, show (0x00ffffffc0f : W64).toNat = 0x00ffffffc0f by rfl, hX,
      show (0x0ffffffc0ffffffc0ffffffc0fffffff : Nat) / 2 ^ 88 = 0xffffffc0f by decide]
    congr 1; omega
  have hle : Spec.polyClamp N / 2 ^ 88 < 2 ^ 36 := by
    rw [hX]
    exact Nat.lt_of_le_of_lt Nat.and_le_right (by decide)
  refine ⟨?_, ?_, ?_, ?_⟩ <;> dsimp only
  · rw [e0]; omega
  · rw [e1]; omega
  · rw [e2]; omega
  · rw [e0, e1, e2]; simp only [limbs]; omega

theorem poly64_foldl {r : Nat} (bs : List Bytes) (hbs : ∀ b ∈ bs, b.length = 16) (st : Poly64)
    (a : Nat) (hk : KeyLimbs st r) (ha : AccLimbs st a) (hf : st.final = false) :
    KeyLimbs (bs.foldl poly64Block st) r ∧ (bs.foldl poly64Block st).final = false ∧
    (bs.foldl poly64Block st).pad0 = st.pad0 ∧ (bs.foldl poly64Block st).pad1 = st.pad1 ∧
    AccLimbs (bs.foldl poly64Block st) (Spec.polyAcc r a bs) := by
  induction bs generalizing st a with
  | nil => exact ⟨hk, hf, rfl, rfl, ha⟩
  | cons b bs ih =>
    simp only [List.mem_cons, forall_eq_or_imp] at hbs
    obtain ⟨k1, k2, k3, k4, k5⟩ := poly64Block_ok hk ha hbs.1
    have hb : leNat (b ++ [0x01]) = leNat b + 2 ^ 128 := by
      rw [leNat_append, hbs.1]; rfl
    have := ih hbs.2 (poly64Block st b) ((r * (a + leNat (b ++ [0x01]))) % Spec.polyP) k1
      ⟨k5.b0, k5.b1, k5.b2, by
        have := k5.val
        rw [hf] at this
        rw [this, hb, Nat.mod_mod]; rfl⟩ (by rw [k2, hf])
    rw [k3, k4] at this
    exact this

theorem poly64Init_acc (key buf0 : Bytes) : AccLimbs (poly64Init key buf0).h 0 :=
  ⟨by simp [poly64Init], by simp [poly64Init], by simp [poly64Init], rfl⟩

theorem leNat_replicate_zero (n : Nat) : leNat (List.replicate n 0) = 0 := by
  induction n with
  | zero => rfl
  | succ n ih => rw [List.replicate_succ, leNat, ih]; rfl

theorem poly64Final_ok {key buf0 m : Bytes} (h : key.length = 32) {c : PolyCtx}
    (hr : MDRep 16 poly64Block (poly64Init key buf0).h m c) :
    ∃ c', poly64Final c = some (Spec.Poly1305 key m, c') := by
  obtain ⟨hb, bs, rest, rfl, hbs, hlt, hh, hnb, htk⟩ := hr
  have hk := poly64Init_key h buf0
  obtain ⟨f1, f2, f3, f4, f5⟩ := poly64_foldl bs hbs _ 0 hk (poly64Init_acc key buf0) rfl
  have hpad : (poly64Init key buf0).h.pad0.toNat + 2 ^ 64 * (poly64Init key buf0).h.pad1.toNat
      = leNat ((key.drop 16).take 16) := by
    have := load_limbs (m := key.drop 16) (by simp; omega)
    rw [List.drop_drop] at this
    exact this
  rw [← hh] at f1 f2 f3 f4 f5
  have hmod : ∀ bs' : List Bytes, bs' ≠ [] → Spec.polyAcc (Spec.polyClamp (leNat (key.take 16))) 0 bs'
      % Spec.polyP = Spec.polyAcc (Spec.polyClamp (leNat (key.take 16))) 0 bs' := by
    intro bs' hne
    obtain ⟨l, x, rfl⟩ : ∃ l x, bs' = l ++ [x] :=
      ⟨bs'.dropLast, bs'.getLast hne, (List.dropLast_concat_getLast hne).symm⟩
    unfold Spec.polyAcc
    rw [List.foldl_append]
    simp
  unfold poly64Final
  by_cases h0 : c.numbytes = 0
  · have hr0 : rest = [] := List.length_eq_zero_iff.1 (by omega)
    subst hr0
    rw [if_neg (by simpa using h0)]
    suffices ht : poly64Tag c.h = Spec.Poly1305 key (bs.flatten ++ []) by
      rw [← ht]
      exact ⟨_, rfl⟩
    rw [poly64Tag_ok f5, f3, f4, hpad, Spec.Poly1305, List.append_nil,
      chunks_of_flatten (by decide) bs hbs]
    by_cases hne : bs = []
    · subst hne; rfl
    · rw [hmod bs hne]
  · rw [if_pos h0]
    have hw1 := cWrite_ok (b := c.buffer) (o := c.numbytes) (x := [1]) (by simp; omega)
    have hw2 := cWrite_ok (b := splice c.buffer c.numbytes [1]) (o := c.numbytes + 1)
      (x := List.replicate (16 - (c.numbytes + 1)) 0) (by rw [splice_length (by simp; omega)]; simp; omega)
    rw [hw1]
    simp only [Option.pure_def, Option.bind_eq_bind, Option.bind_some]
    rw [hw2]
    simp only [Option.bind_some]
    have hbuf : splice (splice c.buffer c.numbytes [1]) (c.numbytes + 1)
        (List.replicate (16 - (c.numbytes + 1)) 0)
        = rest ++ [0x01] ++ List.replicate (16 - (c.numbytes + 1)) 0 := by
      rw [splice_prefix (p := rest ++ [0x01])]
      · have := take_splice (b := c.buffer) (o := c.numbytes) (x := [1]) (by simp; omega)
        rw [List.length_singleton] at this
        rw [this, hnb, htk]
      · rw [splice_length (by simp; omega)]; simp; omega
    rw [hbuf]
    suffices ht : poly64Tag (poly64Block { c.h with final := true }
        (rest ++ [0x01] ++ List.replicate (16 - (c.numbytes + 1)) 0))
        = Spec.Poly1305 key (bs.flatten ++ rest) by
      rw [← ht]
      exact ⟨_, rfl⟩
    have hl : (rest ++ [0x01] ++ List.replicate (16 - (c.numbytes + 1)) (0 : Byte)).length = 16 := by
      simp only [List.length_append, List.length_singleton, List.length_replicate]; omega
    obtain ⟨k1, k2, k3, k4, k5⟩ := poly64Block_ok (st := { c.h with final := true })
      ⟨f1.b0, f1.b1, f1.b2, f1.val⟩ ⟨f5.b0, f5.b1, f5.b2, f5.val⟩ hl
    rw [poly64Tag_ok k5, k3, k4]
    show natToLE 16 (_ + (c.h.pad0.toNat + 2 ^ 64 * c.h.pad1.toNat)) = _
    rw [f3, f4, hpad, Spec.Poly1305]
    congr 2
    have hch : chunks 16 (bs.flatten ++ rest) = bs ++ [rest] := by
      rw [chunks_flatten_append (by decide) bs hbs, chunks_cons (by decide) (by
        intro e; rw [e] at hnb; exact h0 hnb), List.take_of_length_le (by omega),
        List.drop_eq_nil_of_le (by omega), chunks_nil]
    rw [hch]
    simp only [if_true, Nat.add_zero]
    rw [leNat_append (rest ++ [0x01]), leNat_replicate_zero, Nat.mul_zero, Nat.add_zero]
    conv => rhs; unfold Spec.polyAcc
    rw [List.foldl_append]
    rfl

end Verif
