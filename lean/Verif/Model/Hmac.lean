import Verif.Model.Hash
import Verif.Model.Misc
/-
HMAC, src/cryptokit.ml:1410-1437.
-/
namespace Verif

/-- Run code on an object of its own, discarded afterwards.
For `hash_string`, src/cryptokit.ml:1415. -/
def M.isolate (t : τ) (m : M τ α) : M σ α := fun s =>
  match m t with
  | .ok a _ => .ok a s
  | .exn e _ => .exn e s
  | .ub => .ub
  | .loop => .loop

/-- `hmac_pad key byte`, src/cryptokit.ml:1412-1419. `fresh` is the object created by `new H.h`
if any. -/
def hmacPad (h : HashObj τ) (blocksize : Nat) (fresh : τ) (key : Bytes) (byte : Byte) :
    M σ Bytes := do
  let key ← if key.length > blocksize then M.isolate fresh (hashString h key) else pure key
  M.orUB (xorC (.other key) 0 (List.replicate blocksize byte) 0 key.length)

/-- Class `hmac key`, src/cryptokit.ml:1420-1437. All methods but `result` are inherited. The
objects created by `new H.h` during `result` are `fresh 1` and `fresh 2`. -/
def hmac (h : HashObj τ) (blocksize : Nat) (fresh : Nat → τ) (key : Bytes) : HashObj τ :=
  { h with
    result := do
      let b ← hmacPad h blocksize (fresh 1) key 0x5c
      let r ← h.result
      M.isolate (fresh 2) do
        h.addSubstring b 0 b.length
        h.addString r
        let r ← h.result
        h.wipe
        pure r }

/-- `new hmac key`: the initializer, src/cryptokit.ml:1423-1426, on the inherited object
`new H.h`, here `s`. -/
def hmacNew (h : HashObj τ) (blocksize : Nat) (fresh : Nat → τ) (key : Bytes) : M τ Unit := do
  let b ← hmacPad h blocksize (fresh 0) key 0x36
  h.addSubstring b 0 b.length

end Verif
