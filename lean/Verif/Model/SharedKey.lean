import Verif.Model.Hmac
/-
Objects that share the key string with their caller. Of the classes of src/cryptokit.ml that take a
key or a seed, all but `hmac` read it only when the object is created (the stubs copy it, see
Model/Gc.lean; `pseudo_rng#wipe`, src/cryptokit.ml:1916, overwrites it). The methods of `hmac` read
it again, src/cryptokit.ml:1429: here it is a memory cell, the first component of the state.
-/
namespace Verif

/-- `wipe_string s`, src/cryptokit.ml:31-32, applied by the caller to the key string. -/
def wipeKeyString : M (Bytes × τ) Unit := M.modify fun s => (List.replicate s.1.length 0, s.2)

/-- Run a method of an object that reads the key string. For src/cryptokit.ml:1429. -/
def withKeyString (m : Bytes → M τ α) : M (Bytes × τ) α := fun s =>
  match m s.1 s.2 with
  | .ok a t => .ok a (s.1, t)
  | .exn e t => .exn e (s.1, t)
  | .ub => .ub
  | .loop => .loop

/-- Class `hmac key`, src/cryptokit.ml:1420-1437, with the key string in the state. -/
def hmacShared (h : HashObj τ) (blocksize : Nat) (fresh : Nat → τ) : HashObj (Bytes × τ) where
  hashSize := h.hashSize
  addSubstring b o n := withKeyString fun k => (hmac h blocksize fresh k).addSubstring b o n
  addString x := withKeyString fun k => (hmac h blocksize fresh k).addString x
  addChar x := withKeyString fun k => (hmac h blocksize fresh k).addChar x
  addByte x := withKeyString fun k => (hmac h blocksize fresh k).addByte x
  result := withKeyString fun k => (hmac h blocksize fresh k).result
  wipe := withKeyString fun k => (hmac h blocksize fresh k).wipe

/-- `new hmac key`, src/cryptokit.ml:1423-1426. -/
def hmacSharedNew (h : HashObj τ) (blocksize : Nat) (fresh : Nat → τ) : M (Bytes × τ) Unit :=
  withKeyString fun k => hmacNew h blocksize fresh k

end Verif
