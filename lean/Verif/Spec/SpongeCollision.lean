import Verif.Spec.Keccak
/-
Collisions in the sponge construction of FIPS 202.
-/
namespace Verif.Spec

/-- The padded message: the bits of the message, the suffix 01 for SHA-3 and none for Keccak, then
pad10*1 (FIPS 202 sections 5.1, 6.1 and B.2). -/
def spongePad (official : Bool) (rate : Nat) (M : Bytes) : Bytes :=
  let N := bitsOfBytes M ++ (if official then [false, true] else [])
  bytesOfBits (N ++ pad101 (8 * rate) N.length)

/-- The state, of 200 bytes, after the blocks of `rate` bytes of `p` (algorithm 8, steps 5 and 6). -/
def spongeState (rate : Nat) (p : Bytes) : Bytes :=
  (chunks rate p).foldl (fun S Pi => Keccak.f (xorb S (Pi ++ List.replicate (200 - rate) 0)))
    (List.replicate 200 0)

/-- SHA-3 or Keccak. -/
def spongeDigest (official : Bool) (sz : Nat) (M : Bytes) : Bytes :=
  if official then SHA3 sz M else Spec.Keccak sz M

/-- While the padded messages `x` and `y` are absorbed, two different sequences of blocks `p` and
`p'`, before the last block of each message, lead to the same capacity part of the state: what
follows its first `rate` bytes. -/
def InnerCollision (rate : Nat) (x y : Bytes) : Prop :=
  ∃ p q p' q' : Bytes, x = p ++ q ∧ y = p' ++ q' ∧ rate ∣ p.length ∧ rate ∣ p'.length
    ∧ q.length = rate ∧ q'.length = rate ∧ p ≠ p'
    ∧ (spongeState rate p).drop rate = (spongeState rate p').drop rate

/-- The last application of the permutation takes two different states `S` and `S'` to two
different states that have the same first `d` bytes, the digest. -/
def OutputCollision (rate d : Nat) (x y : Bytes) : Prop :=
  ∃ S S' : Bytes, S.length = 200 ∧ S'.length = 200 ∧ S ≠ S'
    ∧ spongeState rate x = Keccak.f S ∧ spongeState rate y = Keccak.f S'
    ∧ Keccak.f S ≠ Keccak.f S' ∧ (Keccak.f S).take d = (Keccak.f S').take d

end Verif.Spec
