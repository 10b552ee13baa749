import Verif.Spec.Common
/-
HMAC, RFC 2104.
-/
namespace Verif.Spec

/-- RFC 2104 section 2, for a hash function `H` with blocks of `B` bytes. -/
def HMAC (H : Bytes → Bytes) (B : Nat) (key text : Bytes) : Bytes :=
  let K := if key.length > B then H key else key
  let K := K ++ List.replicate (B - K.length) 0
  let ipad := List.replicate B 0x36
  let opad := List.replicate B 0x5c
  H (xorb K opad ++ H (xorb K ipad ++ text))

end Verif.Spec
