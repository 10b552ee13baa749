import Verif.Model.Hash
import Verif.Spec.History
/-
Histories of calls on a hash or MAC object.
-/
namespace Verif

/-- Calls that add data. -/
inductive HOp where
  | addSubstring (b : Bytes) (ofs len : Int)
  | addString (s : Bytes)
  | addChar (c : Byte)
  | addByte (b : Int)

/-- Longest OCaml string (64-bit platforms). -/
def maxString : Nat := 2 ^ 57 - 9

/-- The arguments can exist (strings are at most `maxString` long) and designate a valid range. -/
def HOp.Legal : HOp → Prop
  | .addSubstring b ofs len => len ≤ maxString ∧ InRange b ofs len
  | .addString s => s.length ≤ maxString
  | _ => True

/-- The data added by a call. -/
def HOp.input : HOp → Bytes
  | .addSubstring b ofs len => slice b ofs.toNat len.toNat
  | .addString s => s
  | .addChar c => [c]
  | .addByte b => [BitVec.ofInt 8 b]

/-- The data added by a history of calls. -/
def hinputOf (ops : List HOp) : Bytes := (ops.map HOp.input).flatten

def HashObj.call (h : HashObj τ) : HOp → M τ Unit
  | .addSubstring b ofs len => h.addSubstring b ofs len
  | .addString s => h.addString s
  | .addChar c => h.addChar c
  | .addByte b => h.addByte b

/-- Perform a history of calls. -/
def HashObj.calls (h : HashObj τ) : List HOp → τ → Out τ Unit
  | [], s => .ok () s
  | op :: ops, s =>
    match h.call op s with
    | .ok () s' => h.calls ops s'
    | .exn e s' => .exn e s'
    | .ub => .ub
    | .loop => .loop

/-- Perform a history of calls, then `result`. -/
def HashObj.digest (h : HashObj τ) (ops : List HOp) (s : τ) : Out τ Bytes :=
  match h.calls ops s with
  | .ok () s' => h.result s'
  | .exn e s' => .exn e s'
  | .ub => .ub
  | .loop => .loop

/-- From state `s`, the object computes the function `f`: for every legal history of calls, the
result is `f` of the data added, whatever the cut into calls. -/
def HashObj.Computes (h : HashObj τ) (s : τ) (f : Bytes → Bytes) : Prop :=
  ∀ ops : List HOp, (∀ op ∈ ops, op.Legal) →
    (h.digest ops s).observe = some (.ok (f (hinputOf ops)))

end Verif
