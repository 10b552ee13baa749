import Verif.Model.Interrupt
/-
Interruptions: the case where there are none.
-/
namespace Verif.Spec

open Verif

/-- Interruption points at which nothing ever happens, whatever the state. -/
@[reducible] def quiet (σ : Type) : Ticking σ := ⟨fun s => (none, s)⟩

end Verif.Spec
