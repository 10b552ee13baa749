import Verif.Model.Gc
/-
What a caller expects of the stubs that allocate, whatever the garbage collector does.
-/
namespace Verif.Spec
open Gc

/-- Calls made by OCaml code: only variables of the OCaml program are registered with the collector
when the stub starts, and they designate blocks. -/
def CalledFromOCaml (s : State γ) : Prop := ∀ v ∈ s.roots, (∃ i, v = .caller i) ∧ s.read v ≠ none

/-- For every behaviour of the collector, the stub accesses only valid blocks; it returns, in the
variable `out`, a block whose contents are `result`; and every variable of the OCaml program has the
contents it had. -/
def Creates (stub : List (Instr γ)) (out : Var) (args : List (Var × Obj γ)) (result : Obj γ) : Prop :=
  ∀ s moves r, CalledFromOCaml s → (∀ p ∈ args, s.read p.1 = some p.2) → Exec moves stub s r →
    ∃ s', r = some s' ∧ s'.read out = some result ∧
      ∀ i, .caller i ∈ s.roots → s'.read (.caller i) = s.read (.caller i)

/-- For every behaviour of the collector, the stub called on a context with contents `c` accesses
only valid blocks; it returns a block whose contents are `result`; the variables of the OCaml
program that designate the context find `c'` in it, and the others have the contents they had. -/
def Finishes (stub : List (Instr γ)) (c : γ) (result : Obj γ) (c' : γ) : Prop :=
  ∀ s moves r, CalledFromOCaml s → s.read .ctx = some (.ctx c) → Exec moves stub s r →
    ∃ s', r = some s' ∧ s'.read .res = some result ∧
      ∀ i, .caller i ∈ s.roots →
        s'.read (.caller i) = if s.env (.caller i) = s.env .ctx then some (.ctx c') else s.read (.caller i)

end Verif.Spec
