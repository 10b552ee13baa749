import Verif.Model.OBuf
/-
Class `buffered_output`, src/cryptokit.ml:319-370, with a count of the bytes that
`ensure_capacity` moves from a place of the buffer to another or from a buffer to another.
-/
namespace Verif

namespace OBuf

/-- `ensure_capacity n`, src/cryptokit.ml:325-349. The second component of the state grows by the
last argument of the `Bytes.blit` performed (lines 329 and 344), if any. -/
def ensureCapacityC (env : Env) (n : Int) : M (OBuf × Nat) Unit := fun (o, k) =>
  let len := o.obuf.length
  if (o.oend : Int) + n > len then
    if (o.oend : Int) - o.obeg + n < len then
      match bytesBlit o.obuf o.obeg o.obuf 0 (o.oend - o.obeg) with
      | none => .exn .invalidArg (o, k)
      | some b => .ok () ({ obuf := b, obeg := 0, oend := o.oend - o.obeg }, k + (o.oend - o.obeg))
    else
      match growLoop ((o.oend : Int) - o.obeg + n) (2 * len) with
      | none => .loop
      | some newlen =>
        if newlen > env.maxLen ∧ ¬ ((o.oend : Int) - o.obeg + n ≤ env.maxLen) then
          .exn (.error .outputBufferOverflow) (o, k)
        else
          let newlen := if newlen > env.maxLen then env.maxLen else newlen
          match bytesBlit o.obuf o.obeg (env.create newlen) 0 (o.oend - o.obeg) with
          | none => .exn .invalidArg (o, k)
          | some b => .ok () ({ obuf := b, obeg := 0, oend := o.oend - o.obeg }, k + (o.oend - o.obeg))
  else .ok () (o, k)

/-- The idiom by which data is appended, e.g. src/cryptokit.ml:381-383. The copy of the data itself
is not counted. -/
def appendC (env : Env) (x : Bytes) : M (OBuf × Nat) Unit := do
  ensureCapacityC env x.length
  let (o, _) ← M.get
  let b ← M.orRaise .invalidArg (bytesBlit x 0 o.obuf o.oend x.length)
  M.modify fun (o, k) => ({ o with obuf := b, oend := o.oend + x.length }, k)

end OBuf
end Verif
