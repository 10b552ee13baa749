import Verif.Model.AesTables
import Verif.Spec.Aes
/-
The tables of rijndael-alg-fst.c are the S-boxes of FIPS 197, multiplied by the MixColumns
coefficients.
-/
namespace Verif.Rijndael
open Spec.Aes (mul sbox invSbox)

/-- The word made of four bytes, the most significant first. -/
def w4 (a b c d : Byte) : W32 := ((a ++ b ++ c ++ d : BitVec (8 + 8 + 8 + 8)))

set_option maxRecDepth 10000 in
theorem Te4_eq : Te4 = (List.range 256).map fun i =>
    let s := sbox (BitVec.ofNat 8 i); w4 s s s s := by decide +kernel

set_option maxRecDepth 10000 in
theorem Td4_eq : Td4 = (List.range 256).map fun i =>
    let s := invSbox (BitVec.ofNat 8 i); w4 s s s s := by decide +kernel

set_option maxRecDepth 10000 in
theorem Te0_eq : Te0 = Te4.map fun w =>
    let s := w.setWidth 8; w4 (mul 2 s) s s (mul 3 s) := by decide +kernel
set_option maxRecDepth 10000 in
theorem Te1_eq : Te1 = Te4.map fun w =>
    let s := w.setWidth 8; w4 (mul 3 s) (mul 2 s) s s := by decide +kernel
set_option maxRecDepth 10000 in
theorem Te2_eq : Te2 = Te4.map fun w =>
    let s := w.setWidth 8; w4 s (mul 3 s) (mul 2 s) s := by decide +kernel
set_option maxRecDepth 10000 in
theorem Te3_eq : Te3 = Te4.map fun w =>
    let s := w.setWidth 8; w4 s s (mul 3 s) (mul 2 s) := by decide +kernel

set_option maxRecDepth 10000 in
theorem Td0_eq : Td0 = Td4.map fun w =>
    let s := w.setWidth 8; w4 (mul 0x0e s) (mul 0x09 s) (mul 0x0d s) (mul 0x0b s) := by
  decide +kernel
set_option maxRecDepth 10000 in
theorem Td1_eq : Td1 = Td4.map fun w =>
    let s := w.setWidth 8; w4 (mul 0x0b s) (mul 0x0e s) (mul 0x09 s) (mul 0x0d s) := by
  decide +kernel
set_option maxRecDepth 10000 in
theorem Td2_eq : Td2 = Td4.map fun w =>
    let s := w.setWidth 8; w4 (mul 0x0d s) (mul 0x0b s) (mul 0x0e s) (mul 0x09 s) := by
  decide +kernel
set_option maxRecDepth 10000 in
theorem Td3_eq : Td3 = Td4.map fun w =>
    let s := w.setWidth 8; w4 (mul 0x09 s) (mul 0x0d s) (mul 0x0b s) (mul 0x0e s) := by
  decide +kernel

theorem rcon_eq : rcon = (List.range 10).map fun i =>
    w4 (Spec.Aes.xtime^[i] 1) 0 0 0 := by decide +kernel

/-- The byte of an entry of `Te4` or `Td4`. -/
def tab8 (t : List W32) (i : Nat) : Byte := (t.getD i 0).setWidth 8

theorem w4_low (a b c d : Byte) : (w4 a b c d).setWidth 8 = d := by
  unfold w4
  rw [BitVec.setWidth_append]
  simp

theorem sbox_tab (b : Byte) : sbox b = tab8 Te4 b.toNat := by
  have h := b.isLt
  unfold tab8
  rw [Te4_eq, List.getD_eq_getElem?_getD, List.getElem?_map, List.getElem?_range (by omega)]
  simp [w4_low]

theorem invSbox_tab (b : Byte) : invSbox b = tab8 Td4 b.toNat := by
  have h := b.isLt
  unfold tab8
  rw [Td4_eq, List.getD_eq_getElem?_getD, List.getElem?_map, List.getElem?_range (by omega)]
  simp [w4_low]

theorem tab_inv_all : ∀ b : Nat, b < 256 →
    (tab8 Td4 (tab8 Te4 b).toNat).toNat = b ∧ (tab8 Te4 (tab8 Td4 b).toNat).toNat = b := by
  decide +kernel

theorem invSbox_sbox (b : Byte) : invSbox (sbox b) = b := by
  rw [sbox_tab, invSbox_tab]
  exact BitVec.eq_of_toNat_eq (tab_inv_all _ b.isLt).1

theorem sbox_invSbox (b : Byte) : sbox (invSbox b) = b := by
  rw [sbox_tab, invSbox_tab]
  exact BitVec.eq_of_toNat_eq (tab_inv_all _ b.isLt).2

theorem mul_inv_all : ∀ b : Nat, b < 256 → b ≠ 0 →
    mul (BitVec.ofNat 8 b) (Spec.Aes.inv (BitVec.ofNat 8 b)) = 1 := by decide +kernel

theorem mix_all : ∀ b : Nat, b < 256 → let a := BitVec.ofNat 8 b
    mul 14 (mul 2 a) ^^^ mul 11 (mul 1 a) ^^^ mul 13 (mul 1 a) ^^^ mul 9 (mul 3 a) = a ∧
    mul 9 (mul 2 a) ^^^ mul 14 (mul 1 a) ^^^ mul 11 (mul 1 a) ^^^ mul 13 (mul 3 a) = 0 ∧
    mul 13 (mul 2 a) ^^^ mul 9 (mul 1 a) ^^^ mul 14 (mul 1 a) ^^^ mul 11 (mul 3 a) = 0 ∧
    mul 11 (mul 2 a) ^^^ mul 13 (mul 1 a) ^^^ mul 9 (mul 1 a) ^^^ mul 14 (mul 3 a) = 0 ∧
    mul 2 (mul 14 a) ^^^ mul 3 (mul 9 a) ^^^ mul 1 (mul 13 a) ^^^ mul 1 (mul 11 a) = a ∧
    mul 1 (mul 14 a) ^^^ mul 2 (mul 9 a) ^^^ mul 3 (mul 13 a) ^^^ mul 1 (mul 11 a) = 0 ∧
    mul 1 (mul 14 a) ^^^ mul 1 (mul 9 a) ^^^ mul 2 (mul 13 a) ^^^ mul 3 (mul 11 a) = 0 ∧
    mul 3 (mul 14 a) ^^^ mul 1 (mul 9 a) ^^^ mul 1 (mul 13 a) ^^^ mul 2 (mul 11 a) = 0 ∧
    mul 1 a = a := by decide +kernel

end Verif.Rijndael
