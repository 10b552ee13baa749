import Verif.Model.Basic
/-
Class `buffered_output`, src/cryptokit.ml:319-370.
-/
namespace Verif

/-- The instance variables of `buffered_output`, src/cryptokit.ml:321-323. -/
structure OBuf where
  obuf : Bytes
  obeg : Nat
  oend : Nat
  deriving DecidableEq

namespace OBuf

/-- `new buffered_output initial_buffer_size`, src/cryptokit.ml:319-323. -/
def init (env : Env) (initialBufferSize : Nat) : OBuf :=
  { obuf := env.create initialBufferSize, obeg := 0, oend := 0 }

/-- `while oend - obeg + n > !newlen do newlen := !newlen * 2 done`,
src/cryptokit.ml:333-335. `none` is an infinite loop (`newlen = 0`). -/
def growLoop (need : Int) (newlen : Nat) : Option Nat :=
  if need > newlen then
    if newlen = 0 then none else growLoop need (newlen * 2)
  else some newlen
termination_by (need - newlen).toNat
decreasing_by omega

/-- `ensure_capacity n`, src/cryptokit.ml:325-349. -/
def ensureCapacity (env : Env) (n : Int) : M OBuf Unit := fun o =>
  let len := o.obuf.length
  if (o.oend : Int) + n > len then
    if (o.oend : Int) - o.obeg + n < len then
      match bytesBlit o.obuf o.obeg o.obuf 0 (o.oend - o.obeg) with
      | none => .exn .invalidArg o
      | some b => .ok () { obuf := b, obeg := 0, oend := o.oend - o.obeg }
    else
      match growLoop ((o.oend : Int) - o.obeg + n) (2 * len) with
      | none => .loop
      | some newlen =>
        if newlen > env.maxLen ∧ ¬ ((o.oend : Int) - o.obeg + n ≤ env.maxLen) then
          .exn (.error .outputBufferOverflow) o
        else
          let newlen := if newlen > env.maxLen then env.maxLen else newlen
          match bytesBlit o.obuf o.obeg (env.create newlen) 0 (o.oend - o.obeg) with
          | none => .exn .invalidArg o
          | some b => .ok () { obuf := b, obeg := 0, oend := o.oend - o.obeg }
  else .ok () o

/-- `available_output`, src/cryptokit.ml:351. -/
def availableOutput : M OBuf Int := fun o => .ok ((o.oend : Int) - o.obeg) o

/-- `get_substring`, src/cryptokit.ml:353-354. The buffer is returned by its current
contents (the real method returns the buffer itself, which the caller must read
before the next `put`). -/
def getSubstring : M OBuf (Bytes × Int × Int) := fun o =>
  .ok (o.obuf, o.obeg, (o.oend : Int) - o.obeg) { o with obeg := 0, oend := 0 }

/-- `get_string`, src/cryptokit.ml:356-357. -/
def getString : M OBuf Bytes := fun o =>
  match bytesSub o.obuf o.obeg ((o.oend : Int) - o.obeg) with
  | none => .exn .invalidArg o
  | some r => .ok r { o with obeg := 0, oend := 0 }

/-- `get_char`, src/cryptokit.ml:359-363. -/
def getChar : M OBuf Byte := fun o =>
  if o.obeg ≥ o.oend then .exn .endOfFile o
  else
    match bytesGet o.obuf o.obeg with
    | none => .exn .invalidArg o
    | some r => .ok r { o with obeg := o.obeg + 1 }

/-- `get_byte`, src/cryptokit.ml:365-366. -/
def getByte : M OBuf Int := do
  let c ← getChar
  pure (c.toNat : Int)

/-- `wipe`, src/cryptokit.ml:368-369 (`obeg` and `oend` are left unchanged). -/
def wipe : M OBuf Unit := M.modify fun o => { o with obuf := wipeBytes o.obuf }

/-- The idiom by which the library's transforms append data to the buffer, e.g.
src/cryptokit.ml:381-383:
`self#ensure_capacity len; Bytes.blit buf ofs obuf oend len; oend <- oend + len`. -/
def append (env : Env) (x : Bytes) : M OBuf Unit := do
  ensureCapacity env x.length
  let o ← M.get
  let b ← M.orRaise .invalidArg (bytesBlit x 0 o.obuf o.oend x.length)
  M.modify fun o => { o with obuf := b, oend := o.oend + x.length }

end OBuf
end Verif
