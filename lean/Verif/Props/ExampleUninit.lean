import Verif.Props.Example
import Verif.Spec.Uninit
/-
Two machines that differ in the contents of fresh memory, used by the non-vacuity examples of C97.
-/
namespace Verif.Example
open Spec

/-- The machine of `env64`, but `Bytes.create` returns bytes 0xA5. -/
def envA5 : Env := ⟨env64.maxLen, fun _ _ => 0xA5⟩

theorem same_A5 : SameMachine env64 envA5 := rfl

theorem create_A5 : env64.create 16 ≠ envA5.create 16 := by decide

/-- The output buffers of the two machines differ from the start. -/
theorem init_A5 : OBuf.init env64 256 ≠ OBuf.init envA5 256 := by
  intro h
  have := congrArg (fun o => o.obuf[0]?) h
  revert this
  decide +kernel

end Verif.Example
