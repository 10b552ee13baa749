import Verif.Spec.AuthHistory
/-
Histories in which the caller retrieves the output as it goes, so that the amount of data that goes
through a transform is not limited by the size of strings.
-/
namespace Verif.Spec

/-- The call takes all the output that is available. -/
def takesAll : TOp → Bool
  | .getString => true
  | .getSubstring => true
  | _ => false

/-- At most `L` bytes are put between two successive calls that take all the output available;
`n` bytes were put since the last such call. -/
def Paced (L : Nat) : Nat → List TOp → Prop
  | _, [] => True
  | n, op :: ops => n + op.input.length ≤ L
      ∧ Paced L (if takesAll op then 0 else n + op.input.length) ops

/-- All that a history of calls, then `finish`, then `get_substring` (`sub`) or `get_string`,
shows. -/
def wholeRun (T : Transform τ) (ops : List TOp) (sub : Bool) : M τ Bytes := do
  let x ← T.calls ops
  T.finish
  let y ← T.call (if sub then .getSubstring else .getString)
  pure (x ++ y)

/-- From state `t`, on data of any length of which at most `L` bytes are put between two
retrievals of the output, the result and the data satisfy `P`. -/
def Streams (T : Transform τ) (t : τ) (L : Nat) (P : Bytes → Except Exn Bytes → Prop) : Prop :=
  ∀ (ops : List TOp) (sub : Bool), (∀ op ∈ ops, op.Proper) → Paced L 0 ops →
    ∃ r, (wholeRun T ops sub t).observe = some r ∧ P (inputOf ops) r

/-- The same, for authenticated transforms: output and tag. -/
def AuthStreams (A : AuthTransform τ) (t : τ) (L : Nat) (F : Bytes → Except Exn (Bytes × Bytes)) :
    Prop :=
  ∀ ops : List TOp, (∀ op ∈ ops, op.Proper) → Paced L 0 ops →
    (A.total ops t).observe = some (F (inputOf ops))

end Verif.Spec
