import Verif.Model.Combinators
/-
A client of `compose`: transforms put one after the other, in any number and any grouping
("Compose two transforms", src/cryptokit.mli:169-171; `compose`, src/cryptokit.ml:228).
-/
namespace Verif

/-- A pipeline: one transform in a state, or `compose` of two pipelines. src/cryptokit.ml:198-228. -/
inductive Pipe : Type 1 where
  | one {τ : Type} (T : Transform τ) (t : τ)
  | compose (a b : Pipe)

/-- The states of the objects of a pipeline. src/cryptokit.ml:198-228. -/
@[reducible] def Pipe.State : Pipe → Type
  | @Pipe.one τ _ _ => τ
  | .compose a b => a.State × b.State

/-- The object that the calls of `compose` build. src/cryptokit.ml:198-228. -/
def Pipe.obj : (p : Pipe) → Transform p.State
  | .one T _ => T
  | .compose a b => Verif.compose a.obj b.obj

/-- Its initial state. src/cryptokit.ml:198-228. -/
def Pipe.init : (p : Pipe) → p.State
  | .one _ t => t
  | .compose a b => (a.init, b.init)

end Verif
