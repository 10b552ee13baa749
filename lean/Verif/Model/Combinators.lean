import Verif.Model.Cipher
import Verif.Model.Hash
/-
Combinators of transforms and hashes, src/cryptokit.ml:169-269 and 374-436. The objects combined
are assumed distinct.
-/
namespace Verif

variable {τ τ1 τ2 η : Type}

/-- Run a method of the first of two objects. For src/cryptokit.ml:198-228. -/
def M.onFst (m : M σ α) : M (σ × ρ) α := M.zoom Prod.fst (fun s p => (s, p.2)) m
/-- Run a method of the second of two objects. For src/cryptokit.ml:198-228. -/
def M.onSnd (m : M ρ α) : M (σ × ρ) α := M.zoom Prod.snd (fun s p => (p.1, s)) m

/-! ### `compose` -/

/-- `compose#transfer`, src/cryptokit.ml:212-214. -/
def composeTransfer (T1 : Transform τ1) (T2 : Transform τ2) : M (τ1 × τ2) Unit := do
  let (buf, ofs, len) ← M.onFst T1.getSubstring
  M.onSnd (T2.putSubstring buf ofs len)

/-- Class `compose`, src/cryptokit.ml:198-228. -/
def compose (T1 : Transform τ1) (T2 : Transform τ2) : Transform (τ1 × τ2) where
  putSubstring buf ofs len := do M.onFst (T1.putSubstring buf ofs len); composeTransfer T1 T2
  putString s := do M.onFst (T1.putString s); composeTransfer T1 T2
  putChar c := do M.onFst (T1.putChar c); composeTransfer T1 T2
  putByte b := do M.onFst (T1.putByte b); composeTransfer T1 T2
  availableOutput := M.onSnd T2.availableOutput
  getString := M.onSnd T2.getString
  getSubstring := M.onSnd T2.getSubstring
  getChar := M.onSnd T2.getChar
  getByte := M.onSnd T2.getByte
  flush := do M.onFst T1.flush; composeTransfer T1 T2; M.onSnd T2.flush
  finish := do M.onFst T1.finish; composeTransfer T1 T2; M.onSnd T2.finish
  wipe := do M.onFst T1.wipe; M.onSnd T2.wipe

/-! ### Channels -/

/-- An input channel and an output channel: the bytes that remain to be read, the number of reads
so far, and the bytes written. For src/cryptokit.ml:169-196, 247-269. -/
structure Chan where
  ic : Bytes
  reads : Nat
  oc : Bytes

/-- `input ic ibuf 0 n` (OCaml standard library) returns the number of bytes read, and the new
contents of `ibuf`. It reads at least one byte and at most `n`, unless `n = 0` or the channel is at
its end; how many is chosen by the environment: the `i`-th read gets `sched i` bytes if possible.
Used at src/cryptokit.ml:172, 181, 250, 257. -/
def chanInput (sched : Nat → Nat) (n : Nat) (ibuf : Bytes) : M Chan (Nat × Bytes) := fun ch =>
  let most := min n ch.ic.length
  let r := min most (max 1 (sched ch.reads))
  .ok (r, splice ibuf 0 (ch.ic.take r)) { ch with ic := ch.ic.drop r, reads := ch.reads + 1 }

/-- `output oc buf pos len` (OCaml standard library). Used at src/cryptokit.ml:176, 185, 195. -/
def chanOutput (buf : Bytes) (pos len : Int) : M Chan Unit := do
  let x ← M.orRaise .invalidArg (bytesSub buf pos len)
  M.modify fun ch => { ch with oc := ch.oc ++ x }

/-- `let (obuf, opos, olen) = tr#get_substring in output oc obuf opos olen`,
src/cryptokit.ml:175-176, 184-185, 194-195. -/
def outputPending (T : Transform τ) : M (τ × Chan) Unit := do
  let (obuf, opos, olen) ← M.onFst T.getSubstring
  M.onSnd (chanOutput obuf opos olen)

/-- `transf_to_eof`, src/cryptokit.ml:171-178; returns the contents of `ibuf`. The first argument
bounds the number of iterations: each but the last reads at least one byte, so that one more than
the number of bytes in the channel is enough; running out of it is recorded as non-termination. -/
def transfToEof (T : Transform τ) (sched : Nat → Nat) : Nat → Bytes → M (τ × Chan) Bytes
  | 0, _ => M.diverge
  | fuel + 1, ibuf => do
    let (r, ibuf) ← M.onSnd (chanInput sched 256 ibuf)
    if r > 0 then
      M.onFst (T.putSubstring ibuf 0 r)
      outputPending T
      transfToEof T sched fuel ibuf
    else pure ibuf

/-- `transf_bounded numleft`, src/cryptokit.ml:179-187; iterations are bounded as above. -/
def transfBounded (T : Transform τ) (sched : Nat → Nat) : Nat → Int → Bytes → M (τ × Chan) Bytes
  | 0, _, _ => M.diverge
  | fuel + 1, numleft, ibuf =>
    if numleft > 0 then do
      let (r, ibuf) ← M.onSnd (chanInput sched (min 256 numleft).toNat ibuf)
      if r = 0 then M.raise .endOfFile
      M.onFst (T.putSubstring ibuf 0 r)
      outputPending T
      transfBounded T sched fuel (numleft - r) ibuf
    else pure ibuf

/-- `transform_channel tr ?len ic oc`, src/cryptokit.ml:169-196. -/
def transformChannel (env : Env) (T : Transform τ) (sched : Nat → Nat) (len : Option Int) :
    M (τ × Chan) Unit := do
  let ibuf := env.create 256
  let st ← M.get
  let ibuf ← (match len with
    | none => transfToEof T sched (st.2.ic.length + 1) ibuf
    | some l => transfBounded T sched (l.toNat + 1) l ibuf)
  let _ibuf := wipeBytes ibuf
  M.onFst T.finish
  outputPending T
  M.onFst T.wipe

/-- `hash_to_eof`, src/cryptokit.ml:249-254. -/
def hashToEof (H : HashObj η) (sched : Nat → Nat) : Nat → Bytes → M (η × Chan) Bytes
  | 0, _ => M.diverge
  | fuel + 1, ibuf => do
    let (r, ibuf) ← M.onSnd (chanInput sched 256 ibuf)
    if r > 0 then
      M.onFst (H.addSubstring ibuf 0 r)
      hashToEof H sched fuel ibuf
    else pure ibuf

/-- `hash_bounded numleft`, src/cryptokit.ml:255-261. -/
def hashBounded (H : HashObj η) (sched : Nat → Nat) : Nat → Int → Bytes → M (η × Chan) Bytes
  | 0, _, _ => M.diverge
  | fuel + 1, numleft, ibuf =>
    if numleft > 0 then do
      let (r, ibuf) ← M.onSnd (chanInput sched (min 256 numleft).toNat ibuf)
      if r = 0 then M.raise .endOfFile
      M.onFst (H.addSubstring ibuf 0 r)
      hashBounded H sched fuel (numleft - r) ibuf
    else pure ibuf

/-- `hash_channel hash ?len ic`, src/cryptokit.ml:247-269. -/
def hashChannel (env : Env) (H : HashObj η) (sched : Nat → Nat) (len : Option Int) :
    M (η × Chan) Bytes := do
  let ibuf := env.create 256
  let st ← M.get
  let ibuf ← (match len with
    | none => hashToEof H sched (st.2.ic.length + 1) ibuf
    | some l => hashBounded H sched (l.toNat + 1) l ibuf)
  let _ibuf := wipeBytes ibuf
  let res ← M.onFst H.result
  M.onFst H.wipe
  pure res

/-! ### Authenticated transforms from a transform and a hash -/

/-- State of `transform_then_hash`, src/cryptokit.ml:374-376. -/
structure ThenHashSt (τ η : Type) where
  tr : τ
  h : η
  ob : OBuf

namespace ThenHashSt

/-- A method of `tr`, src/cryptokit.ml:374-406. -/
def onTr (m : M τ α) : M (ThenHashSt τ η) α := M.zoom (·.tr) (fun x t => { t with tr := x }) m
/-- A method of `h`, src/cryptokit.ml:374-406. -/
def onHash (m : M η α) : M (ThenHashSt τ η) α := M.zoom (·.h) (fun x t => { t with h := x }) m
/-- A method of `output_buffer`, src/cryptokit.ml:374-406. -/
def onBuf (m : M OBuf α) : M (ThenHashSt τ η) α := M.zoom (·.ob) (fun x t => { t with ob := x }) m

/-- `transform_then_hash#transfer`, src/cryptokit.ml:378-383. -/
def transfer (env : Env) (T : Transform τ) (H : HashObj η) : M (ThenHashSt τ η) Unit := do
  let (buf, ofs, len) ← onTr T.getSubstring
  onHash (H.addSubstring buf ofs len)
  onBuf (OBuf.ensureCapacity env len)
  let st ← M.get
  let b ← M.orRaise .invalidArg (bytesBlit buf ofs st.ob.obuf st.ob.oend len)
  M.modify fun st => { st with ob := { st.ob with obuf := b, oend := st.ob.oend + len.toNat } }

end ThenHashSt

open ThenHashSt in
/-- Class `transform_then_hash`, src/cryptokit.ml:374-404; it has no methods `flush` and
`finish`. -/
def transformThenHash (env : Env) (T : Transform τ) (H : HashObj η) :
    AuthTransform (ThenHashSt τ η) where
  base := {
    putSubstring := fun buf ofs len => do onTr (T.putSubstring buf ofs len); transfer env T H
    putString := fun s => do onTr (T.putString s); transfer env T H
    putChar := fun c => do onTr (T.putChar c); transfer env T H
    putByte := fun b => do onTr (T.putByte b); transfer env T H
    flush := M.undef
    finish := M.undef
    availableOutput := onBuf OBuf.availableOutput
    getString := onBuf OBuf.getString
    getSubstring := onBuf OBuf.getSubstring
    getChar := onBuf OBuf.getChar
    getByte := onBuf OBuf.getByte
    wipe := do onBuf OBuf.wipe; onTr T.wipe; onHash H.wipe }
  tagSize := H.hashSize
  finishAndGetTag := do onTr T.finish; transfer env T H; onHash H.result

/-- `new transform_then_hash tr h`: `inherit buffered_output 256`. src/cryptokit.ml:374-376. -/
def thenHashInit (env : Env) (t : τ) (h : η) : ThenHashSt τ η := ⟨t, h, OBuf.init env 256⟩

/-- Class `transform_and_hash`, src/cryptokit.ml:408-434; it has no methods `flush` and `finish`. -/
def transformAndHash (T : Transform τ) (H : HashObj η) : AuthTransform (τ × η) where
  base := {
    putSubstring := fun buf ofs len => do
      M.onFst (T.putSubstring buf ofs len); M.onSnd (H.addSubstring buf ofs len)
    putString := fun s => do M.onFst (T.putString s); M.onSnd (H.addString s)
    putChar := fun c => do M.onFst (T.putChar c); M.onSnd (H.addChar c)
    putByte := fun b => do M.onFst (T.putByte b); M.onSnd (H.addByte b)
    flush := M.undef
    finish := M.undef
    availableOutput := M.onFst T.availableOutput
    getString := M.onFst T.getString
    getSubstring := M.onFst T.getSubstring
    getChar := M.onFst T.getChar
    getByte := M.onFst T.getByte
    wipe := do M.onFst T.wipe; M.onSnd H.wipe }
  tagSize := H.hashSize
  finishAndGetTag := do M.onFst T.finish; M.onSnd H.result

end Verif
