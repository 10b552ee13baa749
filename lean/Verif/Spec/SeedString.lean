import Verif.Spec.Random
import Verif.Model.SharedSeed
/-
Several generators created from one seed string: what a program expects.
-/
namespace Verif.Spec

/-- The seed string; for each generator, the seed with which it was created and the number of bytes that
it has delivered, or nothing if it has been wiped. -/
structure Seeded where
  seed : Bytes
  gens : List (Option (Bytes × Nat))

/-- One call, where `ks seed` is the stream of a seed. `erases`: whether wiping a generator overwrites the
string. There is no result for calls on generators that do not exist or have been wiped, nor for
ranges that are not within the buffer. -/
def Seeded.step (erases : Bool) (ks : Bytes → Nat → Byte) : SeedCall → Seeded → Option (Seeded × Bytes)
  | .create, s => some (⟨s.seed, s.gens ++ [some (s.seed, 0)]⟩, [])
  | .randomBytes i buf ofs len, s =>
    match s.gens[i]? with
    | some (some (seed, p)) =>
      if 0 ≤ len ∧ 0 ≤ ofs ∧ ofs + len ≤ buf.length then
        some (⟨s.seed, s.gens.set i (some (seed, p + len.toNat))⟩,
          splice buf ofs.toNat (streamBytes (ks seed) p len.toNat))
      else none
    | _ => none
  | .wipe i, s =>
    match s.gens[i]? with
    | some (some _) =>
      some (⟨if erases then List.replicate s.seed.length 0 else s.seed, s.gens.set i none⟩, [])
    | _ => none

/-- A sequence of calls. -/
def Seeded.run (erases : Bool) (ks : Bytes → Nat → Byte) : List SeedCall → Seeded → Option (Seeded × List Bytes)
  | [], s => some (s, [])
  | c :: cs, s =>
    match s.step erases ks c with
    | none => none
    | some (s', b) =>
      match Seeded.run erases ks cs s' with
      | none => none
      | some (s'', bs) => some (s'', b :: bs)

/-- The stream of `pseudo_rng seed`. -/
def pseudoStream (seed : Bytes) : Nat → Byte := ChaCha20.keystream (seedKey seed) (List.replicate 8 0) 0

def isCreate : SeedCall → Bool
  | .create => true
  | _ => false

def isWipe : SeedCall → Bool
  | .wipe _ => true
  | _ => false

end Verif.Spec
