import Verif.Model.Interrupt
import Verif.Model.Hmac
/-
Asynchronous exceptions in hash functions and HMAC.
-/
namespace Verif

/-- A method that consists of one call to C code, after tests and the computation of arguments that change
nothing: it can be interrupted before and after the call. -/
def interruptible (m : M τ α) : M (Sched × τ) α := do
  poll
  let a ← M.zoom (fun p : Sched × τ => p.2) (fun t p => (p.1, t)) m
  poll
  pure a

/-- The classes of module `Hash`, and `MAC.siphash`, with interruption points: each method makes one call
to C code. src/cryptokit.ml:1076-1334, 1505-1525. -/
def HashObj.interruptible (h : HashObj τ) : HashObj (Sched × τ) where
  hashSize := h.hashSize
  addSubstring src ofs len := Verif.interruptible (h.addSubstring src ofs len)
  addString s := Verif.interruptible (h.addString s)
  addChar c := Verif.interruptible (h.addChar c)
  addByte b := Verif.interruptible (h.addByte b)
  result := Verif.interruptible h.result
  wipe := Verif.interruptible h.wipe

/-- Class `hmac key`, src/cryptokit.ml:1420-1437, with interruption points. What `result` does before and
after `super#result` bears on new objects and local variables only; the points in there are all the same
to the object, and one stands for them. -/
def hmacI (h : HashObj τ) (blocksize : Nat) (fresh : Nat → τ) (key : Bytes) : HashObj (Sched × τ) :=
  { h.interruptible with
    result := do
      poll
      let b ← hmacPad h blocksize (fresh 1) key 0x5c
      let r ← Verif.interruptible h.result
      let r ← M.isolate (fresh 2) do
        h.addSubstring b 0 b.length
        h.addString r
        let r ← h.result
        h.wipe
        pure r
      poll
      pure r }

end Verif
