import Verif.Spec.History
import Verif.Spec.Hash
/-
What a transform and a hash compute, as seen by a caller who cuts the data in any way, reads the
output at any time, and flushes.
-/
namespace Verif.Spec

/-- One part of a history of calls: calls that put data or read output, after which the transform
is flushed (finished, for the last part) and its output is read, with `get_substring` (`sub`) or
`get_string`. -/
structure Part where
  ops : List TOp
  sub : Bool

/-- Ranges are within bounds, and `put_byte` is given bytes. -/
def Part.Legal (p : Part) : Prop := ∀ op ∈ p.ops, op.Proper

/-- The data put during a part. -/
def Part.data (p : Part) : Bytes := inputOf p.ops

/-- The end of a part: `finish` for the last one, `flush` for the others. -/
def endPart (T : Transform τ) (last : Bool) : M τ Unit := if last then T.finish else T.flush

/-- Perform all parts; the result lists the output obtained during each one. -/
def runParts (T : Transform τ) : List Part → M τ (List Bytes)
  | [] => pure []
  | p :: ps => do
    let x ← T.calls p.ops
    endPart T ps.isEmpty
    let y ← T.call (if p.sub then .getSubstring else .getString)
    let ys ← runParts T ps
    pure ((x ++ y) :: ys)

/-- From state `t`, the transform computes `F`: for any cut of the data into calls and any reads,
the outputs up to each flush and up to the end are given by `F` applied to the data put before each
flush and before the end. `F` may also say that an exception is raised. Only data satisfying `ok`
is considered (the output must fit in memory, for instance). -/
def TComputes (T : Transform τ) (t : τ) (ok : List Bytes → Prop)
    (F : List Bytes → Except Exn (List Bytes)) : Prop :=
  ∀ ps : List Part, ps ≠ [] → (∀ p ∈ ps, p.Legal) → ok (ps.map Part.data) →
    (runParts T ps t).observe = some (F (ps.map Part.data))

/-- From state `s`, the hash computes `f`, for any cut of the data into calls; `f` may also say that
an exception is raised by `result`. -/
def HComputes (H : HashObj η) (s : η) (f : Bytes → Except Exn Bytes) : Prop :=
  ∀ ops : List HOp, (∀ op ∈ ops, op.Legal) → (H.digest ops s).observe = some (f (hinputOf ops))

end Verif.Spec
