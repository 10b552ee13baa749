import Verif.Model.MacEntry
import Verif.Spec.Inert
/-
What the caller sees of an object does not depend on what the memory it allocates held before.

An `Env` gives the contents of fresh memory (`Bytes.create` does not initialise it). The same calls are made on
two machines that differ in those contents only.
-/
namespace Verif.Spec

open Verif

/-- The two machines differ in the contents of fresh memory only. -/
def SameMachine (env env' : Env) : Prop := env.maxLen = env'.maxLen

/-- Either no object was created on both sides, for the same reason, or `P` holds of the two objects. -/
def SameResult (P : α → β → Prop) : Option (Except Exn α) → Option (Except Exn β) → Prop
  | some (.ok a), some (.ok b) => P a b
  | some (.error e), some (.error e') => e = e'
  | none, none => True
  | _, _ => False

/-- The object a constructor returns, or the exception it raises. -/
def built : Out σ α → Option (Except Exn α)
  | .ok a _ => some (.ok a)
  | .exn e _ => some (.error e)
  | .ub => none
  | .loop => none

/-- No sequence of calls, exceptions being caught, tells the two objects apart. -/
def SameTransform (A B : Cipher.AnyTransform) : Prop := ∀ cs, trace A.T cs A.t = trace B.T cs B.t

/-- The same, for hashes and MACs. -/
def SameHash (A B : AnyHash) : Prop :=
  ∀ cs, traceBy (performHash A.H) cs A.t = traceBy (performHash B.H) cs B.t

/-- The same, for authenticated ciphers. -/
def SameAuth (A B : AEAD.AnyAuth) : Prop :=
  ∀ cs, traceBy (performAuth A.T) cs A.t = traceBy (performAuth B.T) cs B.t

end Verif.Spec
