import Verif.Model.Tally
/-
Sums of encrypted numbers: which ciphertexts they are made of.
-/
namespace Verif.Spec

/-- The ciphertexts in the sum, from left to right. -/
def ballots : Tally → List Bytes
  | .ballot c => [c]
  | .plus a b => ballots a ++ ballots b

/-- The string `c` may be the result of `Paillier.encrypt` on `msg`, with some generator. -/
def EncryptionOf (e : BnEnv) (key : PaillierPublic) (c msg : Bytes) : Prop :=
  ∃ (τ : Type) (rng : RandomBytes τ) (fuel : Nat) (t t' : τ),
    paillierEncrypt e rng fuel key msg t = .ok c t'

/-- The total of the numbers written in big-endian notation. -/
def total (msgs : List Bytes) : Nat := (msgs.map beNat).sum

end Verif.Spec
