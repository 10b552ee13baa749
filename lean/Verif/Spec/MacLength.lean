import Verif.Spec.Mac
/-
The length of messages and CBC-MACs: what is compared in C101.
-/
namespace Verif.Spec

/-- Block `i` of the message (counting from 0). -/
def blockAt (n i : Nat) (m : Bytes) : Bytes := (m.drop (n * i)).take n

/-- What the cipher is applied to for block `i` of the message: the block, xored with the CBC-MAC of the
blocks before it. -/
def cbcInput (E : Bytes → Bytes) (n : Nat) (iv m : Bytes) (i : Nat) : Bytes :=
  xorb (blockAt n i m) (cbcMac E n iv (m.take (n * i)))

/-- The two messages have different beginnings, but the cipher is applied to the same block after them: a
collision of the chaining values. -/
def ChainCollision (E : Bytes → Bytes) (n : Nat) (iv m m' : Bytes) : Prop :=
  ∃ i, n * (i + 1) ≤ m.length ∧ n * (i + 1) ≤ m'.length ∧ m.take (n * i) ≠ m'.take (n * i) ∧
    cbcInput E n iv m i = cbcInput E n iv m' i

/-- The extension of a message known to have the tag `T`: the message as it is padded, then `b` masked by the
IV and the tag, then `r`. -/
def extended (iv T P b r : Bytes) : Bytes := P ++ xorb (xorb b iv) T ++ r

/-- The message made of the complete blocks `bs` and of the last block, which is complete or not, and empty
only if the message is. -/
structure Splits (m : Bytes) (bs : List Bytes) (last : Bytes) : Prop where
  eq : m = bs.flatten ++ last
  blocks : ∀ b ∈ bs, b.length = 16
  short : last.length ≤ 16
  nonempty : bs ≠ [] → last ≠ []

/-- The last block of CMAC, before it is added to the chaining value: SP 800-38B section 6.2, step 4. -/
def cmacLast (E : Bytes → Bytes) (last : Bytes) : Bytes :=
  if last.length = 16 then xorb (K1 E) last else xorb (K2 E) (pad8000 16 last)

end Verif.Spec
