import Verif.Spec.History
import Verif.Spec.Safety
import Verif.Spec.Hash
/-
Calls that raise an exception, and what the caller sees of an object afterwards.
-/
namespace Verif.Spec

open Verif

/-- A call on a transform, with any arguments. -/
inductive Call where
  | op (o : TOp)
  | flush
  | finish

/-- Perform a call; the result is the output obtained. -/
def perform (T : Transform τ) : Call → M τ Bytes
  | .op o => T.call o
  | .flush => do T.flush; pure []
  | .finish => do T.finish; pure []

/-- What the caller sees of a sequence of calls, when it catches the exceptions and goes on: the
result of each call or the exception it raised; `none` is a call that does not return or accesses
memory out of bounds, after which nothing is seen. -/
def trace (T : Transform τ) : List Call → τ → List (Option (Except Exn Bytes))
  | [], _ => []
  | c :: cs, t =>
    match perform T c t with
    | .ok x t' => some (.ok x) :: trace T cs t'
    | .exn e t' => some (.error e) :: trace T cs t'
    | .ub => [none]
    | .loop => [none]

/-- No sequence of calls tells the two states apart. -/
def Indistinguishable (T : Transform τ) (t t' : τ) : Prop := ∀ cs, trace T cs t = trace T cs t'

/-- The states an object may be in after any calls, exceptions being caught. -/
def After (T : Transform τ) (t0 t : τ) : Prop :=
  Reachable (fun c => discard (perform T c)) anyCall t0 t

/-- Whatever the object has been through, if the call `c` raises an exception, the object goes on
as if the call had not been made. -/
def NoEffectIfRaises (T : Transform τ) (t0 : τ) (c : Call) : Prop :=
  ∀ t, After T t0 t → ∀ e t', perform T c t = .exn e t' → Indistinguishable T t t'

/-- The same, for the exceptions that satisfy `P`. -/
def NoEffectWhen (T : Transform τ) (t0 : τ) (c : Call) (P : Exn → Prop) : Prop :=
  ∀ t, After T t0 t → ∀ e t', P e → perform T c t = .exn e t' → Indistinguishable T t t'

/-- The exceptions other than `Output_buffer_overflow`. -/
def notOverflow (e : Exn) : Prop := e ≠ .error .outputBufferOverflow

/-! ### Objects of other classes, whose calls are those of a type `γ` -/

/-- A call on an authenticated transform. -/
inductive AuthCall where
  | call (c : Call)
  | finishAndGetTag

/-- Perform a call on an authenticated transform; the result is the output or the tag. -/
def performAuth (A : AuthTransform τ) : AuthCall → M τ Bytes
  | .call c => perform A.base c
  | .finishAndGetTag => A.finishAndGetTag

/-- A call on a hash or a MAC. -/
inductive HashCall where
  | add (op : HOp)
  | result

/-- Perform a call on a hash or a MAC; `result` gives the hash. -/
def performHash (H : HashObj τ) : HashCall → M τ Bytes
  | .add op => do H.call op; pure []
  | .result => H.result

/-- The calls other than `add_substring`. -/
def notAddSubstring : HashCall → Prop
  | .add (.addSubstring ..) => False
  | _ => True

/-- `trace`, for an object on which the call `c` has the effect `step c`. -/
def traceBy (step : γ → M τ Bytes) : List γ → τ → List (Option (Except Exn Bytes))
  | [], _ => []
  | c :: cs, t =>
    match step c t with
    | .ok x t' => some (.ok x) :: traceBy step cs t'
    | .exn e t' => some (.error e) :: traceBy step cs t'
    | .ub => [none]
    | .loop => [none]

/-- `NoEffectWhen`, for an object on which the call `c` has the effect `step c`. -/
def NoEffectBy (step : γ → M τ Bytes) (t0 : τ) (c : γ) (P : Exn → Prop) : Prop :=
  ∀ t, Reachable (fun c => discard (step c)) anyCall t0 t → ∀ e t', P e → step c t = .exn e t' →
    ∀ cs, traceBy step cs t = traceBy step cs t'

/-- All exceptions. -/
def anyExn : Exn → Prop := fun _ => True

/-- The exceptions other than `Message_too_long`. -/
def notTooLong (e : Exn) : Prop := e ≠ .error .messageTooLong

end Verif.Spec
