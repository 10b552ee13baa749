import Verif.Model.Hash
import Verif.Model.Aead
/-
Arbitrary use of an object: any method, with any arguments, in any order, the caller catching
exceptions and going on.
-/
namespace Verif.Spec

open Verif

/-- Ignore a result. -/
def discard (m : M τ α) : M τ Unit := do
  let _ ← m
  pure ()

/-- A call to one of the methods common to all transforms, with any arguments. -/
inductive BufCall where
  | putSubstring (b : Bytes) (ofs len : Int)
  | putString (s : Bytes)
  | putChar (c : Byte)
  | putByte (b : Int)
  | availableOutput
  | getString
  | getSubstring
  | getChar
  | getByte
  | wipe

/-- A call to a method of a transform. -/
inductive TCall where
  | buf (c : BufCall)
  | flush
  | finish

/-- A call to a method of an authenticated transform. -/
inductive ACall where
  | buf (c : BufCall)
  | finishAndGetTag

/-- A call to a method of a hash. -/
inductive HCall where
  | addSubstring (b : Bytes) (ofs len : Int)
  | addString (s : Bytes)
  | addChar (c : Byte)
  | addByte (b : Int)
  | result
  | wipe

def invokeBuf (T : Transform τ) : BufCall → M τ Unit
  | .putSubstring b ofs len => T.putSubstring b ofs len
  | .putString s => T.putString s
  | .putChar c => T.putChar c
  | .putByte b => T.putByte b
  | .availableOutput => discard T.availableOutput
  | .getString => discard T.getString
  | .getSubstring => discard T.getSubstring
  | .getChar => discard T.getChar
  | .getByte => discard T.getByte
  | .wipe => T.wipe

/-- The effect of a call on the object, its result being dropped. -/
def invoke (T : Transform τ) : TCall → M τ Unit
  | .buf c => invokeBuf T c
  | .flush => T.flush
  | .finish => T.finish

/-- The effect of a call on the object, its result being dropped. -/
def invokeA (T : AuthTransform τ) : ACall → M τ Unit
  | .buf c => invokeBuf T.base c
  | .finishAndGetTag => discard T.finishAndGetTag

/-- The effect of a call on the object, its result being dropped. -/
def invokeH (H : HashObj τ) : HCall → M τ Unit
  | .addSubstring b ofs len => H.addSubstring b ofs len
  | .addString s => H.addString s
  | .addChar c => H.addChar c
  | .addByte b => H.addByte b
  | .result => discard H.result
  | .wipe => H.wipe

/-- The states in which the object can be after any number of calls among those in `allowed`, each
of which either returned or raised an exception (which was caught). -/
inductive Reachable (run : μ → M τ Unit) (allowed : μ → Prop) (t0 : τ) : τ → Prop
  | start : Reachable run allowed t0 t0
  | returned {t t' c} : Reachable run allowed t0 t → allowed c → run c t = .ok () t' →
      Reachable run allowed t0 t'
  | raised {t t' c e} : Reachable run allowed t0 t → allowed c → run c t = .exn e t' →
      Reachable run allowed t0 t'

/-- Whatever the object has been through, any call among those in `allowed` returns or raises an
exception: it does not access memory out of bounds and it terminates. -/
def MemorySafe (run : μ → M τ Unit) (allowed : μ → Prop) (t0 : τ) : Prop :=
  ∀ t, Reachable run allowed t0 t → ∀ c, allowed c →
    (∃ t', run c t = .ok () t') ∨ (∃ e t', run c t = .exn e t')

/-- `Reachable`, with the sum of the sizes of the calls made. -/
inductive ReachableIn (run : μ → M τ Unit) (allowed : μ → Prop) (size : μ → Nat) (t0 : τ) : Nat → τ → Prop
  | start : ReachableIn run allowed size t0 0 t0
  | returned {n t t' c} : ReachableIn run allowed size t0 n t → allowed c → run c t = .ok () t' →
      ReachableIn run allowed size t0 (n + size c) t'
  | raised {n t t' c e} : ReachableIn run allowed size t0 n t → allowed c → run c t = .exn e t' →
      ReachableIn run allowed size t0 (n + size c) t'

/-- `MemorySafe`, for the uses whose total size is less than `bound`. -/
def MemorySafeBelow (bound : Nat) (run : μ → M τ Unit) (allowed : μ → Prop) (size : μ → Nat) (t0 : τ) : Prop :=
  ∀ n t, ReachableIn run allowed size t0 n t → ∀ c, allowed c → n + size c < bound →
    (∃ t', run c t = .ok () t') ∨ (∃ e t', run c t = .exn e t')

/-- The number of bytes given to a hash by a call. -/
def HCall.bytes : HCall → Nat
  | .addSubstring _ _ len => len.toNat
  | .addString s => s.length
  | .addChar _ => 1
  | .addByte _ => 1
  | .result => 0
  | .wipe => 0

/-- All calls. -/
def anyCall : μ → Prop := fun _ => True

/-- All calls but `wipe`. -/
def notWipe : TCall → Prop := fun c => c ≠ .buf .wipe
def notWipeA : ACall → Prop := fun c => c ≠ .buf .wipe
def notWipeH : HCall → Prop := fun c => c ≠ .wipe

/-- Whether `wipe` is among the calls considered. -/
def callsOf (w : Bool) : TCall → Prop := if w then anyCall else notWipe
def callsOfA (w : Bool) : ACall → Prop := if w then anyCall else notWipeA
def callsOfH (w : Bool) : HCall → Prop := if w then anyCall else notWipeH

/-- The calls in which `put_substring`, `add_substring` get a range of their argument. -/
def inRangeT : TCall → Prop
  | .buf (.putSubstring b ofs len) => InRange b ofs len
  | _ => True
def inRangeA : ACall → Prop
  | .buf (.putSubstring b ofs len) => InRange b ofs len
  | _ => True

/-- Exceptions that a call with an illegal range may raise: `Invalid_argument`, or an exception that
can be raised by the processing of data that precede the end of the source. -/
def RangeExn (e : Exn) : Prop :=
  e = .invalidArg ∨ e = .error .messageTooLong ∨ e = .error .outputBufferOverflow
    ∨ e = .error .badEncoding

/-- Whatever the object has been through, `put b ofs len` where `ofs`, `len` is not a range of `b`
either raises an exception or, `len` not being positive, has no effect. -/
def RangeChecked (run : μ → M τ Unit) (allowed : μ → Prop) (t0 : τ)
    (put : Bytes → Int → Int → M τ Unit) : Prop :=
  ∀ t, Reachable run allowed t0 t → ∀ b ofs len, ¬ InRange b ofs len →
    (∃ e t', put b ofs len t = .exn e t' ∧ RangeExn e) ∨ (len ≤ 0 ∧ put b ofs len t = .ok () t)

/-- The strong form: such a call raises `Invalid_argument` and has no effect. -/
def RangeRejected (run : μ → M τ Unit) (allowed : μ → Prop) (t0 : τ)
    (put : Bytes → Int → Int → M τ Unit) : Prop :=
  ∀ t, Reachable run allowed t0 t → ∀ b ofs len, ¬ InRange b ofs len →
    put b ofs len t = .exn .invalidArg t

/-- The method `pad` of a padding scheme does not change the length of its buffer, as nothing can
change the length of a `bytes` in OCaml. -/
def PadKeeps (p : PadScheme) : Prop := ∀ b used b', p.pad b used = .ok b' → b'.length = b.length

end Verif.Spec
