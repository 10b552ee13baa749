import Verif.Model.ChanFault
import Verif.Spec.Combinators
/-
What the caller of `transform_channel` may rely on when operations on the channels may fail.
-/
namespace Verif.Spec

variable {τ : Type}

/-- `transform_string` returns `y`. -/
def Gives (T : Transform τ) (t : τ) (m y : Bytes) : Prop := (transformString T m t).observe = some (.ok y)

/-- Of a run of `transform_channel` that must read `D`, the input channel containing `ic`, and leave `rest`, and
that starts when `oc` has been written:

* if it returns, `D` was there, exactly `D` has been read, and exactly what `transform_string` returns on `D`
  has been written;
* if it raises an exception, then an operation on a channel has raised it, or it is `End_of_file` and the channel
  is too short (`short`), or `transform_string` refuses `D`. What has been written is a beginning of what `transform_string` returns on `D`.
  If `transform_string` refuses `D`, then what has been written is a beginning of what it returns on every
  message that it accepts and that starts like the data read, except for the last 256 bytes at most;
* it has no undefined behaviour, and terminates.

`ok` tells which data are considered: those on which the transform is known to compute a function. -/
def Delivers (T : Transform τ) (t : τ) (ok : List Bytes → Prop) (F : Faults) (short : Prop)
    (ic oc D : Bytes) : Out (τ × FChan) Unit → Prop
  | .ok _ (_, ch) => ¬ short ∧ D ++ ch.ic = ic ∧ ∃ y, Gives T t D y ∧ ch.oc = oc ++ y
  | .exn e (_, ch) => ((∃ i, F.fails i = some e) ∨ (e = .endOfFile ∧ short) ∨ ¬ ∃ y, Gives T t D y)
      ∧ ∃ w, ch.oc = oc ++ w
      ∧ (∀ y, Gives T t D y → w <+: y)
      ∧ ((¬ ∃ y, Gives T t D y) → ∃ c u, c ++ u ++ ch.ic = ic ∧ u.length ≤ 256 ∧
          ∀ z y, ok [c ++ z] → Gives T t (c ++ z) y → w <+: y)
  | .ub => False
  | .loop => False

end Verif.Spec
