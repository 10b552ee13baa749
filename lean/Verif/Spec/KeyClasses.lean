import Verif.Spec.Common
/-
Which keys are interchangeable.
-/
namespace Verif.Spec

/-- The keys `k` and `k'`, each repeated without end, have the same first `n` bytes. -/
def SameRepeated (n : Nat) (k k' : Bytes) : Prop :=
  ∀ i < n, k.getD (i % k.length) 0 = k'.getD (i % k'.length) 0

/-- The block of `B` bytes that HMAC over `H` makes of a key: the key, or its hash if it is longer than a
block, completed with zeroes (RFC 2104). -/
def hmacBlock (H : Bytes → Bytes) (B : Nat) (key : Bytes) : Bytes :=
  if B < key.length then H key ++ List.replicate (B - (H key).length) 0
  else key ++ List.replicate (B - key.length) 0

end Verif.Spec
