import Verif.Model.Transform
import Verif.Spec.Common
/-
Histories of method calls on a transform, used to state properties that must hold
however the input is cut and whenever the output is read.
-/
namespace Verif

/-- A call to a `put` or `get` method of a transform. -/
inductive TOp where
  | putSubstring (b : Bytes) (ofs len : Int)
  | putString (s : Bytes)
  | putChar (c : Byte)
  | putByte (b : Int)
  | getString
  | getSubstring
  | getChar
  | getByte
  | available

/-- The call's offset and length designate a valid range. -/
def TOp.Legal : TOp → Prop
  | .putSubstring b ofs len => InRange b ofs len
  | _ => True

/-- `put_byte` gets an integer that is a byte. -/
def TOp.ByteOk : TOp → Prop
  | .putByte b => 0 ≤ b ∧ b < 256
  | _ => True

/-- Proper arguments. -/
def TOp.Proper (op : TOp) : Prop := op.Legal ∧ op.ByteOk

/-- The input bytes conveyed by a call. -/
def TOp.input : TOp → Bytes
  | .putSubstring b ofs len => slice b ofs.toNat len.toNat
  | .putString s => s
  | .putChar c => [c]
  | .putByte b => [BitVec.ofInt 8 b]
  | _ => []

/-- The input bytes conveyed by a history of calls. -/
def inputOf (ops : List TOp) : Bytes := (ops.map TOp.input).flatten

/-- Perform a call; the result is the output bytes obtained. `End_of_file` from
`get_char`/`get_byte` (no output available) counts as obtaining nothing. -/
def Transform.call (T : Transform τ) : TOp → M τ Bytes
  | .putSubstring b ofs len => do T.putSubstring b ofs len; pure []
  | .putString s => do T.putString s; pure []
  | .putChar c => do T.putChar c; pure []
  | .putByte b => do T.putByte b; pure []
  | .getString => T.getString
  | .getSubstring => do
    let (b, ofs, len) ← T.getSubstring
    M.orRaise .invalidArg (bytesSub b ofs len)
  | .getChar => fun t =>
    match T.getChar t with
    | .exn .endOfFile t' => .ok [] t'
    | .ok c t' => .ok [c] t'
    | .exn e t' => .exn e t'
    | .ub => .ub
    | .loop => .loop
  | .getByte => fun t =>
    match T.getByte t with
    | .exn .endOfFile t' => .ok [] t'
    | .ok b t' => .ok [BitVec.ofInt 8 b] t'
    | .exn e t' => .exn e t'
    | .ub => .ub
    | .loop => .loop
  | .available => do let _ ← T.availableOutput; pure []

/-- Perform a history of calls, collecting the output obtained; stops at the first
exception. -/
def Transform.calls (T : Transform τ) : List TOp → M τ Bytes
  | [] => pure []
  | op :: ops => do
    let x ← T.call op
    let y ← T.calls ops
    pure (x ++ y)

/-- Perform a history of calls, then `finish`, then `get_string`: all the output of the
transform on the input `inputOf ops`. -/
def Transform.total (T : Transform τ) (ops : List TOp) : M τ Bytes := do
  let x ← T.calls ops
  T.finish
  let y ← T.getString
  pure (x ++ y)

/-- What an outcome shows to the caller: a result or an exception (`none` for
undefined behaviour and non-termination). -/
def Out.observe : Out σ α → Option (Except Exn α)
  | .ok a _ => some (.ok a)
  | .exn e _ => some (.error e)
  | .ub => none
  | .loop => none

/-- Calls of a history that may also flush. -/
inductive FOp where
  | call (op : TOp)
  | flush

def FOp.Legal : FOp → Prop
  | .call op => op.Legal
  | .flush => True

def FOp.input : FOp → Bytes
  | .call op => op.input
  | .flush => []

def finputOf (ops : List FOp) : Bytes := (ops.map FOp.input).flatten

def Transform.callF (T : Transform τ) : FOp → M τ Bytes
  | .call op => T.call op
  | .flush => do T.flush; pure []

def Transform.callsF (T : Transform τ) : List FOp → M τ Bytes
  | [] => pure []
  | op :: ops => do
    let x ← T.callF op
    let y ← T.callsF ops
    pure (x ++ y)

/-- As `total`, for a history with flushes. -/
def Transform.totalF (T : Transform τ) (ops : List FOp) : M τ Bytes := do
  let x ← T.callsF ops
  T.finish
  let y ← T.getString
  pure (x ++ y)

/-- Every flush happens when the number of bytes put so far is a multiple of `n`;
`k` bytes were put before. -/
def FlushesAligned (n : Nat) (k : Nat) : List FOp → Prop
  | [] => True
  | .call op :: ops => FlushesAligned n (k + op.input.length) ops
  | .flush :: ops => n ∣ k ∧ FlushesAligned n k ops

/-- Every flush is followed by at least one byte of input. -/
def DataAfterFlush : List FOp → Prop
  | [] => True
  | .call _ :: ops => DataAfterFlush ops
  | .flush :: ops => finputOf ops ≠ [] ∧ DataAfterFlush ops

end Verif
