import Verif.Model.BlowfishTables
import Verif.Spec.Blowfish
import Verif.Proof.Pi
/-
The tables of src/blowfish.c are the digits of pi.
-/
namespace Verif.Blowfish

/-- The number written with the words of `l` as digits, after `a`. -/
def digits (a : Nat) (l : List W32) : Nat := l.foldl (fun a w => a * 2 ^ 32 + w.toNat) a

theorem digits_append (a : Nat) (l l' : List W32) : digits a (l ++ l') = digits (digits a l) l' :=
  List.foldl_append

theorem digits_eq (a : Nat) (l : List W32) : ∃ r < 2 ^ (32 * l.length), digits a l = a * 2 ^ (32 * l.length) + r := by
  induction l generalizing a with
  | nil => exact ⟨0, by simp, by simp [digits]⟩
  | cons w l ih =>
    obtain ⟨r, hr, h⟩ := ih (a * 2 ^ 32 + w.toNat)
    refine ⟨w.toNat * 2 ^ (32 * l.length) + r, ?_, ?_⟩
    · have := w.isLt
      rw [List.length_cons, Nat.mul_add, Nat.pow_add, Nat.mul_one]
      have h2 : (w.toNat + 1) * 2 ^ (32 * l.length) ≤ 2 ^ 32 * 2 ^ (32 * l.length) :=
        Nat.mul_le_mul_right _ this
      rw [Nat.add_mul, Nat.one_mul] at h2
      rw [Nat.mul_comm (2 ^ (32 * l.length))]
      omega
    · have : digits a (w :: l) = digits (a * 2 ^ 32 + w.toNat) l := rfl
      rw [this, h, List.length_cons]
      ring

theorem digits_word (a : Nat) (l : List W32) {i : Nat} (hi : i < l.length) :
    BitVec.ofNat 32 (digits a l / 2 ^ (32 * l.length - 32 * (i + 1))) = l[i] := by
  have e : l = l.take i ++ l[i] :: l.drop (i + 1) := by simp
  obtain ⟨r, hr, h⟩ := digits_eq (digits a (l.take i) * 2 ^ 32 + l[i].toNat) (l.drop (i + 1))
  have hl : 32 * (l.drop (i + 1)).length = 32 * l.length - 32 * (i + 1) := by
    rw [List.length_drop]; omega
  have h' : digits a l = (digits a (l.take i) * 2 ^ 32 + l[i].toNat) * 2 ^ (32 * l.length - 32 * (i + 1)) + r := by
    rw [← hl, ← h]
    conv => lhs; rw [e]
    rw [digits_append]
    rfl
  rw [hl] at hr
  rw [h', Nat.mul_comm, Nat.mul_add_div (by positivity), Nat.div_eq_of_lt hr, Nat.add_zero]
  apply BitVec.eq_of_toNat_eq
  rw [BitVec.toNat_ofNat, Nat.mul_add_mod_self_right, Nat.mod_eq_of_lt l[i].isLt]

/-- All the words of the tables. -/
def tables : List W32 := ORIG_P ++ ORIG_S.flatten

theorem tables_length : tables.length = 1042 := by decide +kernel

set_option maxRecDepth 100000 in
theorem floor_pi_tables : ⌊Real.pi * 2 ^ 33344⌋₊ = digits 3 tables := by
  have h5 : 2 ^ (33344 + 64) ≤ 5 ^ (4 * 3597 + 1) := by decide +kernel
  have h239 : 2 ^ (33344 + 64) ≤ 239 ^ (4 * 1057 + 1) := by decide +kernel
  refine Pi.floor_pi 33344 64 3597 1057 (digits 3 tables) h5 h239 ?_ ?_
  · decide +kernel
  · decide +kernel

theorem piWord_eq {i : Nat} (hi : i < 1042) : Spec.Blowfish.piWord i = tables.getD i 0 := by
  have h := Pi.floor_pi_of_more floor_pi_tables (b := 32 * (i + 1)) (by omega)
  unfold Spec.Blowfish.piWord
  have hl := tables_length
  have hi' : i < tables.length := by omega
  have := digits_word 3 tables hi'
  rw [h, show 33344 = 32 * tables.length by omega, this, List.getD_eq_getElem?_getD,
    List.getElem?_eq_getElem hi']
  rfl

end Verif.Blowfish
