import Verif.Model.Random
/-
Generators that share the seed string with their caller. The method `wipe` of `pseudo_rng` and of
`pseudo_rng_aes_ctr` overwrites that string, src/cryptokit.ml:1915-1916 and 1945-1946: here it is a memory
cell, the first component of the state, next to all the generators created from it.
-/
namespace Verif

/-- The string `seed` of a program, and the generators that it has created from this string, in order.
src/cryptokit.ml:1901-1947. -/
structure SeedWorld (ρ : Type) where
  seed : Bytes
  gens : List ρ

/-- The calls of a program on its seed string and its generators: `Random.pseudo_rng seed` (or
`Random.pseudo_rng_aes_ctr seed`), `random_bytes` and `wipe` of the generator created by the `i`-th call.
src/cryptokit.ml:1901-1949. -/
inductive SeedCall where
  | create
  | randomBytes (i : Nat) (buf : Bytes) (ofs len : Int)
  | wipe (i : Nat)

/-- One call; the result is the buffer of `random_bytes` after the call. A call on a generator that does
not exist has no effect. `create`: the string is read by the constructor, src/cryptokit.ml:1901-1910,
1921-1927; `random_bytes` does not read it, src/cryptokit.ml:1911-1914, 1929-1943; `wipe` ends by
`wipe_string seed`, src/cryptokit.ml:1916, 1946. -/
def SeedWorld.step (new : Bytes → Except Exn ρ) (g : Rng ρ) : SeedCall → M (SeedWorld ρ) Bytes
  | .create => fun w =>
    match new w.seed with
    | .ok x => .ok [] { w with gens := w.gens ++ [x] }
    | .error e => .exn e w
  | .randomBytes i buf ofs len => fun w =>
    match w.gens[i]? with
    | none => .ok [] w
    | some x =>
      match g.randomBytes ofs len (x, buf) with
      | .ok () (x', b) => .ok b { w with gens := w.gens.set i x' }
      | .exn e (x', _) => .exn e { w with gens := w.gens.set i x' }
      | .ub => .ub
      | .loop => .loop
  | .wipe i => fun w =>
    match w.gens[i]? with
    | none => .ok [] w
    | some x =>
      match g.wipe x with
      | .ok () x' => .ok [] ⟨wipeBytes w.seed, w.gens.set i x'⟩
      | .exn e x' => .exn e { w with gens := w.gens.set i x' }
      | .ub => .ub
      | .loop => .loop

/-- A sequence of calls. src/cryptokit.ml:1901-1949. -/
def SeedWorld.run (new : Bytes → Except Exn ρ) (g : Rng ρ) : List SeedCall → M (SeedWorld ρ) (List Bytes)
  | [] => pure []
  | c :: cs => do
    let b ← SeedWorld.step new g c
    let bs ← SeedWorld.run new g cs
    pure (b :: bs)

end Verif
