import Verif.Model.InterruptCodec
import Verif.Model.InterruptCompose
/-
Asynchronous exceptions in `transform_then_hash` and `transform_and_hash`. The interruptions to come between their
statements are beside the transform and the hash; those in the middle of the methods of these are in their states.
-/
namespace Verif

open Codec

variable {κ : Type} [Ticking κ] {τ η : Type}

namespace ThenHashSt

/-- A method of `tr`, src/cryptokit.ml:374-406. -/
def onTrI (m : M τ α) : M (κ × ThenHashSt τ η) α := M.zoom (·.2.tr) (fun x p => (p.1, { p.2 with tr := x })) m
/-- A method of `h`, src/cryptokit.ml:374-406. -/
def onHashI (m : M η α) : M (κ × ThenHashSt τ η) α := M.zoom (·.2.h) (fun x p => (p.1, { p.2 with h := x })) m
/-- A method of `output_buffer`, src/cryptokit.ml:374-406. -/
def onObI (m : M (κ × OBuf) α) : M (κ × ThenHashSt τ η) α := Codec.outI (·.ob) (fun o t => { t with ob := o }) m

/-- `transform_then_hash#transfer`, src/cryptokit.ml:378-383, with interruption points. -/
def transferI (env : Env) (T : Transform τ) (H : HashObj η) : M (κ × ThenHashSt τ η) Unit := do
  poll
  let r ← onTrI T.getSubstring
  poll
  onHashI (H.addSubstring r.1 r.2.1 r.2.2)
  poll
  onObI (OBuf.ensureCapacityI env r.2.2)
  poll
  let st ← self
  let b ← M.orRaise .invalidArg (bytesBlit r.1 r.2.1 st.ob.obuf st.ob.oend r.2.2)
  assignI fun st => { st with ob := { st.ob with obuf := b } }
  poll
  assignI fun st => { st with ob := { st.ob with oend := st.ob.oend + r.2.2.toNat } }
  poll

/-- `tr#m; self#transfer`, src/cryptokit.ml:385-396, with interruption points. -/
def putI (env : Env) (T : Transform τ) (H : HashObj η) (m : M τ Unit) : M (κ × ThenHashSt τ η) Unit := do
  poll
  onTrI m
  transferI env T H

end ThenHashSt

open ThenHashSt in
/-- Class `transform_then_hash`, src/cryptokit.ml:374-404, with interruption points. -/
def transformThenHashI (env : Env) (T : Transform τ) (H : HashObj η) : AuthTransform (κ × ThenHashSt τ η) where
  base := {
    putSubstring := fun buf ofs len => putI env T H (T.putSubstring buf ofs len)
    putString := fun s => putI env T H (T.putString s)
    putChar := fun c => putI env T H (T.putChar c)
    putByte := fun b => putI env T H (T.putByte b)
    flush := M.undef
    finish := M.undef
    availableOutput := onObI OBuf.availableOutputI
    getString := onObI OBuf.getStringI
    getSubstring := onObI OBuf.getSubstringI
    getChar := onObI OBuf.getCharI
    getByte := onObI OBuf.getByteI
    wipe := do poll; onObI OBuf.wipeI; poll; onTrI T.wipe; poll; onHashI H.wipe; poll }
  tagSize := H.hashSize
  finishAndGetTag := do putI env T H T.finish; onHashI H.result

/-- A method of the transform, then one of the hash, src/cryptokit.ml:414-432, with interruption points. -/
def bothI (m : M τ Unit) (k : M η α) : M (κ × (τ × η)) α := do
  poll
  M.oneI m
  poll
  M.twoI k

/-- Class `transform_and_hash`, src/cryptokit.ml:408-434, with interruption points. -/
def transformAndHashI (T : Transform τ) (H : HashObj η) : AuthTransform (κ × (τ × η)) where
  base := {
    putSubstring := fun buf ofs len => do bothI (T.putSubstring buf ofs len) (H.addSubstring buf ofs len); poll
    putString := fun s => do bothI (T.putString s) (H.addString s); poll
    putChar := fun c => do bothI (T.putChar c) (H.addChar c); poll
    putByte := fun b => do bothI (T.putByte b) (H.addByte b); poll
    flush := M.undef
    finish := M.undef
    availableOutput := do poll; M.oneI T.availableOutput
    getString := do poll; M.oneI T.getString
    getSubstring := do poll; M.oneI T.getSubstring
    getChar := do poll; M.oneI T.getChar
    getByte := do poll; M.oneI T.getByte
    wipe := do bothI T.wipe H.wipe; poll }
  tagSize := H.hashSize
  finishAndGetTag := bothI T.finish H.result

end Verif
