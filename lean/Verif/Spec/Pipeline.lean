import Verif.Model.Pipeline
import Verif.Spec.Combinators
/-
Pipelines of transforms, for a reader who thinks of each transform as a function on data.
-/
namespace Verif.Spec

/-- What one transform of a pipeline does: the data for which it is known to compute a function, and the
function, on lists of data separated by flushes, as in `TComputes`. -/
structure Stage where
  ok : List Bytes → Prop
  F : List Bytes → Except Exn (List Bytes)

/-- The transforms of the pipeline, from left to right, do what the stages say. The grouping does not matter. -/
inductive Stages : Pipe → List Stage → Prop where
  | one {τ : Type} {T : Transform τ} {t : τ} {s : Stage} : TComputes T t s.ok s.F → Stages (.one T t) [s]
  | compose {a b : Pipe} {l m : List Stage} : Stages a l → Stages b m → Stages (.compose a b) (l ++ m)

/-- Each stage is given what the one before has produced; an exception of one stage ends everything. -/
def through : List Stage → List Bytes → Except Exn (List Bytes)
  | [], m => .ok m
  | s :: l, m => s.F m >>= through l

/-- The data given to each stage is data that it is known to handle; only the last one may raise an exception. -/
def handled : List Stage → List Bytes → Prop
  | [], _ => True
  | [s], m => s.ok m
  | s :: l, m => s.ok m ∧ ∃ x, s.F m = .ok x ∧ handled l x

end Verif.Spec
