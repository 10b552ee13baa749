import Verif.Spec.Common
/-
Multiplication in GF(2^128) as NIST SP 800-38D defines it. A block is a 128-bit string whose
first (leftmost) bit is the most significant bit of the number; it is the coefficient of degree 0.
-/
namespace Verif.Spec

/-- R = 11100001 || 0^120 (SP 800-38D section 6.3). -/
def gfR : BitVec 128 := (0xe1 : BitVec 128) <<< 120

/-- One step of the algorithm on V: V>>1 when the last bit is 0, (V>>1) + R otherwise. -/
def gfMulX (v : BitVec 128) : BitVec 128 := if v.getLsbD 0 then (v >>> 1) ^^^ gfR else v >>> 1

/-- Algorithm 1 of SP 800-38D: X • Y. `x.getMsbD i` is the bit x_i of X. -/
def gfMul (x y : BitVec 128) : BitVec 128 :=
  ((List.range 128).foldl
    (fun (zv : BitVec 128 × BitVec 128) i =>
      (if x.getMsbD i then zv.1 ^^^ zv.2 else zv.1, gfMulX zv.2)) (0, y)).1

/-- A 16-byte block as a bit string, and back. -/
def block128 (b : Bytes) : BitVec 128 := BitVec.ofNat 128 (beNat b)
def unblock128 (x : BitVec 128) : Bytes := natToBE 16 x.toNat

/-- The product of two 16-byte blocks. -/
def ghashMul (x h : Bytes) : Bytes := unblock128 (gfMul (block128 x) (block128 h))

end Verif.Spec
