import Verif.Proof.Pclmul
/-
C33: GHASH multiplication.
-/
namespace Verif

open Spec

/-- C33: on every processor, with or without the carry-less multiplication instruction, preparing
the multiplier `key` and multiplying the block `x` yields the product of SP 800-38D. -/
theorem C33_ghash (pclmul : Bool) (key x : Bytes) (hk : key.length = 16) (hx : x.length = 16) :
    ∃ k, cGhashInit pclmul key = some k ∧ cGhashMult k x = some (Spec.ghashMul x key) := by
  have h1 : ¬ key.length < 16 := by omega
  have h2 : ¬ x.length ≠ 16 := by omega
  cases pclmul
  · exact ⟨.sw (ghashInit key), by simp [cGhashInit, h1], by simp [cGhashMult, hx, ghashMult_ok hk hx]⟩
  · exact ⟨.hw key, by simp [cGhashInit, h1], by simp [cGhashMult, hx, pclmulMult_ok hk hx]⟩

/-- C33, corollary: the two implementations agree. -/
theorem C33_agree (key x : Bytes) (hk : key.length = 16) (hx : x.length = 16) :
    (cGhashInit true key).bind (cGhashMult · x) = (cGhashInit false key).bind (cGhashMult · x) := by
  obtain ⟨k, h1, h2⟩ := C33_ghash true key x hk hx
  obtain ⟨k', h3, h4⟩ := C33_ghash false key x hk hx
  simp [h1, h2, h3, h4]

theorem gfMul_mulX_right (x y : BitVec 128) : gfMul x (gfMulX y) = gfMulX (gfMul x y) := by
  rw [gfMul_eq, gfMul_eq, gfHorner_mulX]

theorem gfMul_gfPow_right (x y : BitVec 128) (n : Nat) : gfMul x (gfPow n y) = gfPow n (gfMul x y) := by
  induction n with
  | zero => rfl
  | succ n ih => rw [gfPow, gfMul_mulX_right, ih, gfPow]

theorem gfMul_one (y : BitVec 128) : gfMul (BitVec.twoPow 128 127) y = y := by
  rw [gfMul_twoPow 127 (by decide)]; rfl

/-- C33: the product of SP 800-38D, as defined in `Spec.gfMul`, is that of the ring
GF(2)[x]/(x^128 + x^7 + x^2 + x + 1), the bit of weight 2^(127-i) being the coefficient of x^i:
it is bilinear, x^i x^j = x^(i+j) for i+j < 128, x x^127 = x^7 + x^2 + x + 1, and it is commutative
and associative with unit x^0. -/
theorem C33_field :
    (∀ a b c : BitVec 128, gfMul (a ^^^ b) c = gfMul a c ^^^ gfMul b c) ∧
    (∀ a b c : BitVec 128, gfMul a (b ^^^ c) = gfMul a b ^^^ gfMul a c) ∧
    (∀ i j, i + j < 128 → gfMul (BitVec.twoPow 128 (127 - i)) (BitVec.twoPow 128 (127 - j))
      = BitVec.twoPow 128 (127 - (i + j))) ∧
    gfMul (BitVec.twoPow 128 126) (BitVec.twoPow 128 0)
      = BitVec.twoPow 128 (127 - 7) ^^^ BitVec.twoPow 128 (127 - 2) ^^^ BitVec.twoPow 128 (127 - 1)
        ^^^ BitVec.twoPow 128 127 ∧
    (∀ a b : BitVec 128, gfMul a b = gfMul b a) ∧
    (∀ a b c : BitVec 128, gfMul (gfMul a b) c = gfMul a (gfMul b c)) ∧
    (∀ a : BitVec 128, gfMul (BitVec.twoPow 128 127) a = a) := by
  refine ⟨fun a b c => gfMul_add_left c a b, fun a b c => gfMul_add_right a b c, ?_, ?_, gfMul_comm, ?_,
    gfMul_one⟩
  · intro i j h
    rw [gfMul_basis _ _ (by omega) (by omega), gfPow_one (127 - (i + j)) (by omega)]
    congr 1
    omega
  · rw [gfMul_basis _ _ (by decide) (by decide)]
    decide +kernel
  · intro a b c
    refine Additive.ext (f := fun a => gfMul (gfMul a b) c) (g := fun a => gfMul a (gfMul b c)) ?_ ?_ ?_ a
    · intro x y
      show gfMul (gfMul (x ^^^ y) b) c = _
      have h1 := gfMul_add_left b x y
      have h2 := gfMul_add_left c (gfMul x b) (gfMul y b)
      dsimp only at h1 h2
      rw [h1, h2]
    · exact gfMul_add_left _
    · intro i hi
      rw [gfMul_twoPow i hi, gfMul_twoPow i hi, gfMul_comm, gfMul_gfPow_right, gfMul_comm]

end Verif

namespace Verif.Example

/-- Test case 2 of the GCM specification: H and the first ciphertext block. -/
def gcmH : Bytes := natToBE 16 0x66e94bd4ef8a2c3b884cfa59ca342b2e
def gcmX : Bytes := natToBE 16 0x0388dace60b6a392f328c2b971b2fe78

example : Spec.ghashMul gcmX gcmH = natToBE 16 0x5e2ec746917062882c85b0685353deb7 := by
  rw [← ghashMult_ok (by decide) (by decide)]
  decide +kernel

end Verif.Example
