import Verif.Spec.Common
/-
The Merkle-Damgard construction as used by FIPS 180-4 and RIPEMD-160.
-/
namespace Verif.Spec

/-- The padding of FIPS 180-4 section 5.1 for messages made of bytes: the bit 1, the fewest zero
bits that make the total length a multiple of the block size of `n` bytes, then the field `len`
holding the message length. -/
def mdPad (n : Nat) (m len : Bytes) : Bytes :=
  m ++ [0x80] ++ List.replicate ((n - (m.length + 1 + len.length) % n) % n) 0 ++ len

/-- Iterate the compression function over the blocks of `n` bytes of the padded message. -/
def merkleDamgard (n : Nat) (compress : γ → Bytes → γ) (iv : γ) (padded : Bytes) : γ :=
  (chunks n padded).foldl compress iv

end Verif.Spec
