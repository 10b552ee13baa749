import Verif.Model.Interrupt
import Verif.Model.Combinators
/-
Asynchronous exceptions in `compose`. The interruptions to come between the statements of `compose` are beside
the two transforms; those in the middle of the methods of the two transforms are in their states.
-/
namespace Verif

variable {κ : Type} [Ticking κ] {τ1 τ2 : Type}

/-- Run a method of the first transform. src/cryptokit.ml:203-210. -/
def M.oneI (m : M τ1 α) : M (κ × (τ1 × τ2)) α := M.zoom (fun p => p.2.1) (fun t p => (p.1, (t, p.2.2))) m

/-- Run a method of the second transform. src/cryptokit.ml:214-223. -/
def M.twoI (m : M τ2 α) : M (κ × (τ1 × τ2)) α := M.zoom (fun p => p.2.2) (fun t p => (p.1, (p.2.1, t))) m

/-- `compose#transfer`, src/cryptokit.ml:212-214, with interruption points. -/
def composeTransferI (T1 : Transform τ1) (T2 : Transform τ2) : M (κ × (τ1 × τ2)) Unit := do
  poll
  let r ← M.oneI T1.getSubstring
  poll
  M.twoI (T2.putSubstring r.1 r.2.1 r.2.2)
  poll

/-- `tr1#m; self#transfer`, src/cryptokit.ml:203-210, with interruption points. -/
def composePutI (T1 : Transform τ1) (T2 : Transform τ2) (m : M τ1 Unit) : M (κ × (τ1 × τ2)) Unit := do
  poll
  M.oneI m
  composeTransferI T1 T2

/-- Class `compose`, src/cryptokit.ml:198-228, with interruption points. -/
def composeI (T1 : Transform τ1) (T2 : Transform τ2) : Transform (κ × (τ1 × τ2)) where
  putSubstring buf ofs len := composePutI T1 T2 (T1.putSubstring buf ofs len)
  putString s := composePutI T1 T2 (T1.putString s)
  putChar c := composePutI T1 T2 (T1.putChar c)
  putByte b := composePutI T1 T2 (T1.putByte b)
  availableOutput := do poll; M.twoI T2.availableOutput
  getString := do poll; M.twoI T2.getString
  getSubstring := do poll; M.twoI T2.getSubstring
  getChar := do poll; M.twoI T2.getChar
  getByte := do poll; M.twoI T2.getByte
  flush := do composePutI T1 T2 T1.flush; M.twoI T2.flush; poll
  finish := do composePutI T1 T2 T1.finish; M.twoI T2.finish; poll
  wipe := do poll; M.oneI T1.wipe; poll; M.twoI T2.wipe; poll

end Verif
