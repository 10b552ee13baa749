import Verif.Model.Words
import Verif.Spec.Common
/-
Byte order conversions and rotations.
-/
namespace Verif

theorem byteAt_lt (b : Bytes) (i : Nat) : (byteAt b i).toNat < 256 := (byteAt b i).isLt

theorem take_eq_of_length {b : Bytes} : ∀ {n : Nat}, n ≤ b.length →
    b.take n = (List.range n).map (byteAt b) := by
  intro n hn
  apply List.ext_getElem?
  intro i
  simp only [List.getElem?_take, List.getElem?_map]
  by_cases hi : i < n
  · rw [if_pos hi, List.getElem?_range hi]
    simp [byteAt, List.getElem?_eq_getElem (show i < b.length by omega)]
  · rw [if_neg hi, List.getElem?_eq_none (by simp; omega)]; rfl

theorem leNat_lt (b : Bytes) : leNat b < 256 ^ b.length := by
  induction b with
  | nil => simp [leNat]
  | cons x xs ih =>
    have := x.isLt
    simp only [leNat, List.length_cons, Nat.pow_succ]
    omega

theorem beNat_lt (b : Bytes) : beNat b < 256 ^ b.length := by
  induction b with
  | nil => simp [beNat]
  | cons x xs ih =>
    have := x.isLt
    simp only [beNat, List.length_cons, Nat.pow_succ]
    have : x.toNat * 256 ^ xs.length ≤ 255 * 256 ^ xs.length := Nat.mul_le_mul_right _ (by omega)
    omega

theorem le32_eq {b : Bytes} (h : 4 ≤ b.length) :
    le32 b = BitVec.ofNat 32 (leNat (b.take 4)) := by
  rw [take_eq_of_length h]
  have := byteAt_lt b 0; have := byteAt_lt b 1; have := byteAt_lt b 2; have := byteAt_lt b 3
  apply BitVec.eq_of_toNat_eq
  simp only [le32, BitVec.toNat_add, BitVec.toNat_shiftLeft, BitVec.toNat_setWidth, leNat,
    List.range, List.range.loop, List.map, BitVec.toNat_ofNat, Nat.shiftLeft_eq]
  omega

theorem or_shift_toNat {w : Nat} (x : BitVec w) (b : Byte) (k : Nat) (hx : x.toNat < 2 ^ k)
    (hk : k + 8 ≤ w) : (x ||| (b.setWidth w <<< k)).toNat = x.toNat + b.toNat * 2 ^ k := by
  have hb := b.isLt
  have h1 : (b.setWidth w).toNat = b.toNat := by
    rw [BitVec.toNat_setWidth, Nat.mod_eq_of_lt]
    exact Nat.lt_of_lt_of_le hb (Nat.pow_le_pow_right (by decide) (by omega))
  have h2 : b.toNat * 2 ^ k < 2 ^ w := by
    calc b.toNat * 2 ^ k < 2 ^ 8 * 2 ^ k := Nat.mul_lt_mul_of_pos_right hb (Nat.two_pow_pos k)
      _ = 2 ^ (k + 8) := by rw [← Nat.pow_add, Nat.add_comm]
      _ ≤ 2 ^ w := Nat.pow_le_pow_right (by decide) hk
  rw [BitVec.toNat_or, BitVec.toNat_shiftLeft, h1, Nat.shiftLeft_eq, Nat.mod_eq_of_lt h2,
    Nat.or_comm, ← Nat.shiftLeft_eq, ← Nat.shiftLeft_add_eq_or_of_lt hx, Nat.shiftLeft_eq,
    Nat.add_comm]

theorem le32or_eq {b : Bytes} (h : 4 ≤ b.length) :
    le32or b = BitVec.ofNat 32 (leNat (b.take 4)) := by
  rw [take_eq_of_length h]
  have h0 := byteAt_lt b 0; have h1 := byteAt_lt b 1; have h2 := byteAt_lt b 2
  have h3 := byteAt_lt b 3
  apply BitVec.eq_of_toNat_eq
  have e0 : ((byteAt b 0).setWidth 32).toNat = (byteAt b 0).toNat := by
    rw [BitVec.toNat_setWidth]; omega
  have e1 := or_shift_toNat ((byteAt b 0).setWidth 32) (byteAt b 1) 8 (by omega) (by omega)
  have e2 := or_shift_toNat _ (byteAt b 2) 16 (by rw [e1]; omega) (by omega)
  have e3 := or_shift_toNat _ (byteAt b 3) 24 (by rw [e2]; omega) (by omega)
  rw [le32or, e3, e2, e1, e0]
  simp only [leNat, List.range, List.range.loop, List.map, BitVec.toNat_ofNat]
  omega

theorem le64or_eq {b : Bytes} (h : 8 ≤ b.length) :
    le64or b = BitVec.ofNat 64 (leNat (b.take 8)) := by
  rw [take_eq_of_length h]
  have h0 := byteAt_lt b 0; have h1 := byteAt_lt b 1; have h2 := byteAt_lt b 2
  have h3 := byteAt_lt b 3; have h4 := byteAt_lt b 4; have h5 := byteAt_lt b 5
  have h6 := byteAt_lt b 6; have h7 := byteAt_lt b 7
  apply BitVec.eq_of_toNat_eq
  have e0 : ((byteAt b 0).setWidth 64).toNat = (byteAt b 0).toNat := by
    rw [BitVec.toNat_setWidth]; omega
  have e1 := or_shift_toNat ((byteAt b 0).setWidth 64) (byteAt b 1) 8 (by omega) (by omega)
  have e2 := or_shift_toNat _ (byteAt b 2) 16 (by rw [e1]; omega) (by omega)
  have e3 := or_shift_toNat _ (byteAt b 3) 24 (by rw [e2]; omega) (by omega)
  have e4 := or_shift_toNat _ (byteAt b 4) 32 (by rw [e3]; omega) (by omega)
  have e5 := or_shift_toNat _ (byteAt b 5) 40 (by rw [e4]; omega) (by omega)
  have e6 := or_shift_toNat _ (byteAt b 6) 48 (by rw [e5]; omega) (by omega)
  have e7 := or_shift_toNat _ (byteAt b 7) 56 (by rw [e6]; omega) (by omega)
  rw [le64or, e7, e6, e5, e4, e3, e2, e1, e0]
  simp only [leNat, List.range, List.range.loop, List.map, BitVec.toNat_ofNat]
  omega

theorem toLE32_eq (x : W32) : toLE32 x = natToLE 4 x.toNat := by
  simp only [toLE32, natToLE]
  congr <;> (apply BitVec.eq_of_toNat_eq; simp [Nat.shiftRight_eq_div_pow, Nat.div_div_eq_div_mul])

theorem toLE64_eq (x : W64) : toLE64 x = natToLE 8 x.toNat := by
  simp only [toLE64, natToLE]
  congr <;> (apply BitVec.eq_of_toNat_eq; simp [Nat.shiftRight_eq_div_pow, Nat.div_div_eq_div_mul])

@[simp] theorem natToLE_length (n x : Nat) : (natToLE n x).length = n := by
  induction n generalizing x with
  | zero => rfl
  | succ n ih => simp [natToLE, ih]

@[simp] theorem natToBE_length (n x : Nat) : (natToBE n x).length = n := by
  induction n generalizing x with
  | zero => rfl
  | succ n ih => simp [natToBE, ih]

theorem leNat_natToLE (n x : Nat) : leNat (natToLE n x) = x % 256 ^ n := by
  induction n generalizing x with
  | zero => simp [natToLE, leNat, Nat.mod_one]
  | succ n ih =>
    rw [natToLE, leNat, ih, BitVec.toNat_ofNat, Nat.pow_succ 256, Nat.mul_comm (256 ^ n), Nat.mod_mul]

theorem natToLE_leNat (b : Bytes) : natToLE b.length (leNat b) = b := by
  induction b with
  | nil => rfl
  | cons x xs ih =>
    have := x.isLt
    simp only [List.length_cons, natToLE, leNat]
    rw [show (x.toNat + 256 * leNat xs) / 256 = leNat xs by omega, ih]
    congr 1
    apply BitVec.eq_of_toNat_eq
    rw [BitVec.toNat_ofNat]; omega

theorem rol32_eq (x : W32) {c : Nat} (h : c < 32) : rol32 x c = x.rotateLeft c := by
  rw [BitVec.rotateLeft_def, Nat.mod_eq_of_lt h, rol32]
theorem ror32_eq (x : W32) {c : Nat} (h : c < 32) : ror32 x c = x.rotateRight c := by
  rw [BitVec.rotateRight_def, Nat.mod_eq_of_lt h, ror32]
theorem rol64_eq (x : W64) {c : Nat} (h : c < 64) : rol64 x c = x.rotateLeft c := by
  rw [BitVec.rotateLeft_def, Nat.mod_eq_of_lt h, rol64]
theorem ror64_eq (x : W64) {c : Nat} (h : c < 64) : ror64 x c = x.rotateRight c := by
  rw [BitVec.rotateRight_def, Nat.mod_eq_of_lt h, ror64]

end Verif
