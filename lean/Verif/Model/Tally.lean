import Verif.Model.Pubkey
/-
A client of `Paillier.add`: the sum of any number of encrypted numbers ("electronic voting",
src/cryptokit.mli:1060-1067), added in any order and any grouping.
-/
namespace Verif

/-- An expression made of ciphertexts and of calls of `Paillier.add`, src/cryptokit.ml:2142-2143. -/
inductive Tally where
  | ballot (c : Bytes)
  | plus (a b : Tally)

/-- The evaluation of the expression: the two sums, then the call of `Paillier.add`,
src/cryptokit.ml:2142-2143. -/
def Tally.run (e : BnEnv) (key : PaillierPublic) : Tally → Except Exn Bytes
  | .ballot c => .ok c
  | .plus a b => do
    let c1 ← a.run e key
    let c2 ← b.run e key
    paillierAdd e key c1 c2

end Verif
