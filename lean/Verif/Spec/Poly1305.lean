import Verif.Spec.Common
/-
Poly1305, RFC 8439 section 2.5.
-/
namespace Verif.Spec

/-- The prime 2^130 - 5. -/
def polyP : Nat := 2 ^ 130 - 5

/-- Section 2.5.1, `clamp(r)`. -/
def polyClamp (r : Nat) : Nat := r &&& 0x0ffffffc0ffffffc0ffffffc0fffffff

/-- Section 2.5.1: `a = (r * (a + n)) % p` for each block of 16 bytes (the last one may be
shorter), `n` being the little-endian number of the block followed by a byte 0x01. -/
def polyAcc (r : Nat) (a : Nat) (bs : List Bytes) : Nat :=
  bs.foldl (fun a b => (r * (a + leNat (b ++ [0x01]))) % polyP) a

/-- `poly1305_mac(msg, key)`: the 16 low bytes of `a + s`. -/
def Poly1305 (key msg : Bytes) : Bytes :=
  natToLE 16 (polyAcc (polyClamp (leNat (key.take 16))) 0 (chunks 16 msg)
    + leNat ((key.drop 16).take 16))

end Verif.Spec
