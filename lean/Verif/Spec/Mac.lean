import Verif.Spec.Modes
import Verif.Spec.Padding
/-
CBC-MAC and CMAC (NIST SP 800-38B).
-/
namespace Verif.Spec

/-- CBC-MAC: the last block of the CBC encryption of the message (the IV if it is empty). -/
def cbcMac (E : Bytes → Bytes) (n : Nat) (iv m : Bytes) : Bytes :=
  (cbcEnc E iv (chunks n m)).getLastD iv

/-- SP 800-38B section 6.1, doubling in GF(2^128): shift left by one bit, and xor with R_128 =
0^120 10000111 if the bit shifted out is 1. -/
def dbl (x : BitVec 128) : BitVec 128 := if x.msb then (x <<< 1) ^^^ 0x87#128 else x <<< 1

/-- A block of 16 bytes as a string of 128 bits, and back. -/
def toBits (b : Bytes) : BitVec 128 := BitVec.ofNat 128 (beNat b)
def ofBits (x : BitVec 128) : Bytes := natToBE 16 x.toNat

/-- Section 6.1. -/
def K1 (E : Bytes → Bytes) : Bytes := ofBits (dbl (toBits (E (List.replicate 16 0))))
def K2 (E : Bytes → Bytes) : Bytes := ofBits (dbl (dbl (toBits (E (List.replicate 16 0)))))

/-- Section 6.2, steps 2-6, for a block cipher of 16 bytes per block and a chaining value
initialised to `iv` (zero in the standard). The message is split in `M_1 ... M_(n-1)`, complete, and
`M_n`, complete or not, empty only if the message is. -/
def CMAC (E : Bytes → Bytes) (iv m : Bytes) : Bytes :=
  let full := m.length ≠ 0 ∧ 16 ∣ m.length
  let n := if m.length = 0 then 1 else (m.length + 15) / 16
  let init := m.take (16 * (n - 1))
  let last := m.drop (16 * (n - 1))
  let last := if full then xorb (K1 E) last else xorb (K2 E) (pad8000 16 last)
  E (xorb (cbcMac E 16 iv init) last)

end Verif.Spec
