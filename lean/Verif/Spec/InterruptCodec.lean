import Verif.Spec.Interrupt
import Verif.Spec.Safety
/-
Interrupted encoders and decoders.
-/
namespace Verif.Spec

open Verif

/-- The object, beside a state of which it makes no use. -/
def beside (κ : Type) (T : Transform τ) : Transform (κ × τ) where
  putSubstring b ofs len := M.zoom (·.2) (fun t p => (p.1, t)) (T.putSubstring b ofs len)
  putString s := M.zoom (·.2) (fun t p => (p.1, t)) (T.putString s)
  putChar c := M.zoom (·.2) (fun t p => (p.1, t)) (T.putChar c)
  putByte b := M.zoom (·.2) (fun t p => (p.1, t)) (T.putByte b)
  flush := M.zoom (·.2) (fun t p => (p.1, t)) T.flush
  finish := M.zoom (·.2) (fun t p => (p.1, t)) T.finish
  wipe := M.zoom (·.2) (fun t p => (p.1, t)) T.wipe
  availableOutput := M.zoom (·.2) (fun t p => (p.1, t)) T.availableOutput
  getString := M.zoom (·.2) (fun t p => (p.1, t)) T.getString
  getSubstring := M.zoom (·.2) (fun t p => (p.1, t)) T.getSubstring
  getChar := M.zoom (·.2) (fun t p => (p.1, t)) T.getChar
  getByte := M.zoom (·.2) (fun t p => (p.1, t)) T.getByte

/-- The object is of no use any more: whatever is done with it, `put_char` raises an exception on every
character among `chars`. -/
def Unusable (run : TCall → M τ Unit) (chars : Byte → Prop) (t : τ) : Prop :=
  ∀ t', Reachable run anyCall t t' → ∀ c, chars c → ∃ e t'', run (.buf (.putChar c)) t' = .exn e t''

/-- Digits of base 16: `0-9 A-F a-f`. -/
def hexDigit (c : Byte) : Prop :=
  (48 ≤ c.toNat ∧ c.toNat ≤ 57) ∨ (65 ≤ c.toNat ∧ c.toNat ≤ 70) ∨ (97 ≤ c.toNat ∧ c.toNat ≤ 102)

/-- Digits of base 64: `A-Z a-z 0-9 + /`. -/
def base64Digit (c : Byte) : Prop :=
  (65 ≤ c.toNat ∧ c.toNat ≤ 90) ∨ (97 ≤ c.toNat ∧ c.toNat ≤ 122) ∨ (48 ≤ c.toNat ∧ c.toNat ≤ 57) ∨
    c.toNat = 43 ∨ c.toNat = 47

end Verif.Spec
