import Verif.Model.Aead
import Verif.Spec.History
/-
Histories of method calls on an authenticated transform.
-/
namespace Verif

/-- Perform a history of calls, then `finish_and_get_tag`, then `get_string`: all the output of the
transform on the input `inputOf ops`, and the tag. -/
def AuthTransform.total (A : AuthTransform τ) (ops : List TOp) : M τ (Bytes × Bytes) := do
  let x ← A.base.calls ops
  let tag ← A.finishAndGetTag
  let y ← A.base.getString
  pure (x ++ y, tag)

end Verif
