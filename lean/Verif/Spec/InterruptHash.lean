import Verif.Spec.Hash
/-
Histories of interrupted calls on a hash object.
-/
namespace Verif.Spec

open Verif

/-- A history of legal calls that add data to a hash object, each of which either returned (`true`) or
raised an exception (`false`). `Attempts h s calls s'`: from state `s`, the `calls` lead to `s'`. -/
inductive Attempts (h : HashObj τ) : τ → List (HOp × Bool) → τ → Prop
  | none (s : τ) : Attempts h s [] s
  | returned {s s' s'' : τ} {op : HOp} {calls : List (HOp × Bool)} (hl : op.Legal)
      (hr : h.call op s = .ok () s') (rest : Attempts h s' calls s'') : Attempts h s ((op, true) :: calls) s''
  | raised {s s' s'' : τ} {op : HOp} {calls : List (HOp × Bool)} {e : Exn} (hl : op.Legal)
      (hr : h.call op s = .exn e s') (rest : Attempts h s' calls s'') : Attempts h s ((op, false) :: calls) s''

/-- `data` is made of the data of all the calls that returned and of some of the calls that raised an
exception, each as a whole and in order. -/
inductive WholeCalls : List (HOp × Bool) → Bytes → Prop
  | none : WholeCalls [] []
  | added {op : HOp} {ok : Bool} {calls : List (HOp × Bool)} {data : Bytes} :
      WholeCalls calls data → WholeCalls ((op, ok) :: calls) (op.input ++ data)
  | left {op : HOp} {calls : List (HOp × Bool)} {data : Bytes} :
      WholeCalls calls data → WholeCalls ((op, false) :: calls) data

/-- From state `s`, the additions are all or nothing: after any history of additions, interrupted or not,
what `result` returns, when it returns, is `f` of the data of whole calls, and of all the calls that
returned. -/
def AllOrNothing (h : HashObj τ) (s : τ) (f : Bytes → Bytes) : Prop :=
  ∀ (calls : List (HOp × Bool)) (s' s'' : τ) (r : Bytes), Attempts h s calls s' → h.result s' = .ok r s'' →
    ∃ data, WholeCalls calls data ∧ r = f data

/-- The same, for the histories in `within` only. -/
def AllOrNothingWithin (within : List (HOp × Bool) → Prop) (h : HashObj τ) (s : τ) (f : Bytes → Bytes) : Prop :=
  ∀ (calls : List (HOp × Bool)) (s' s'' : τ) (r : Bytes), within calls → Attempts h s calls s' →
    h.result s' = .ok r s'' → ∃ data, WholeCalls calls data ∧ r = f data

/-- Less than `limit` bytes in all the calls together, whether they returned or not. -/
def TotalBelow (limit : Nat) (calls : List (HOp × Bool)) : Prop :=
  ((calls.map fun c => c.1.input).flatten).length < limit

/-- Less than `limit` bytes in each call. -/
def EachBelow (limit : Nat) (calls : List (HOp × Bool)) : Prop :=
  ∀ c ∈ calls, c.1.input.length < limit

end Verif.Spec
