import Verif.Model.Combinators
/-
`transform_channel` and `hash_channel` over channels that may fail. Model/Combinators.lean models the same
functions over channels that do not; here each operation on a channel may also raise an exception, and the
buffer through which data is read is part of the state, since it is left in memory when the function ends.
-/
namespace Verif

variable {τ η : Type}

/-- What the environment decides: the number of bytes obtained by the `i`-th operation on the channels if it
is a read, the exception that it raises, if any (`Sys_error`, or an exception raised by a signal handler), and,
if it is a write that fails, the number of bytes that the channel has taken before.
For src/cryptokit.ml:169-196, 247-269. -/
structure Faults where
  sched : Nat → Nat
  fails : Nat → Option Exn
  part : Nat → Nat

/-- The channels, as `Chan`, with the number of operations so far and the contents of `ibuf`.
For src/cryptokit.ml:169-196, 247-269. -/
structure FChan where
  ic : Bytes
  count : Nat
  oc : Bytes
  ibuf : Bytes

/-- `input ic ibuf 0 n`, as `chanInput`, unless it fails. Used at src/cryptokit.ml:172, 181, 250, 257. -/
def fInput (F : Faults) (n : Nat) : M FChan Nat := fun ch =>
  match F.fails ch.count with
  | some e => .exn e { ch with count := ch.count + 1 }
  | none =>
    let most := min n ch.ic.length
    let r := min most (max 1 (F.sched ch.count))
    .ok r { ch with ic := ch.ic.drop r, count := ch.count + 1, ibuf := splice ch.ibuf 0 (ch.ic.take r) }

/-- `output oc buf pos len`, as `chanOutput`, unless it fails, in which case part of the bytes may have been
written. Used at src/cryptokit.ml:176, 185, 195. -/
def fOutput (F : Faults) (buf : Bytes) (pos len : Int) : M FChan Unit := fun ch =>
  match bytesSub buf pos len with
  | none => .exn .invalidArg ch
  | some x =>
    match F.fails ch.count with
    | some e => .exn e { ch with count := ch.count + 1, oc := ch.oc ++ x.take (F.part ch.count) }
    | none => .ok () { ch with count := ch.count + 1, oc := ch.oc ++ x }

/-- `let (obuf, opos, olen) = tr#get_substring in output oc obuf opos olen`,
src/cryptokit.ml:175-176, 184-185, 194-195. -/
def fOutputPending (F : Faults) (T : Transform τ) : M (τ × FChan) Unit := do
  let (obuf, opos, olen) ← M.onFst T.getSubstring
  M.onSnd (fOutput F obuf opos olen)

/-- `tr#put_substring ibuf 0 r`, src/cryptokit.ml:174, 183. -/
def fPut (T : Transform τ) (r : Nat) : M (τ × FChan) Unit := do
  let st ← M.get
  M.onFst (T.putSubstring st.2.ibuf 0 r)

/-- `transf_to_eof`, src/cryptokit.ml:171-178. Iterations are bounded as in `transfToEof`. -/
def fTransfToEof (F : Faults) (T : Transform τ) : Nat → M (τ × FChan) Unit
  | 0 => M.diverge
  | fuel + 1 => do
    let r ← M.onSnd (fInput F 256)
    if r > 0 then
      fPut T r
      fOutputPending F T
      fTransfToEof F T fuel
    else pure ()

/-- `transf_bounded numleft`, src/cryptokit.ml:179-187. -/
def fTransfBounded (F : Faults) (T : Transform τ) : Nat → Int → M (τ × FChan) Unit
  | 0, _ => M.diverge
  | fuel + 1, numleft =>
    if numleft > 0 then do
      let r ← M.onSnd (fInput F (min 256 numleft).toNat)
      if r = 0 then M.raise .endOfFile
      fPut T r
      fOutputPending F T
      fTransfBounded F T fuel (numleft - r)
    else pure ()

/-- The choice between the two loops, src/cryptokit.ml:188-191. -/
def fTransf (F : Faults) (T : Transform τ) (len : Option Int) : M (τ × FChan) Unit := do
  let st ← M.get
  match len with
  | none => fTransfToEof F T (st.2.ic.length + 1)
  | some l => fTransfBounded F T (l.toNat + 1) l

/-- `transform_channel tr ?len ic oc`, src/cryptokit.ml:169-196. -/
def transformChannelF (env : Env) (F : Faults) (T : Transform τ) (len : Option Int) :
    M (τ × FChan) Unit := do
  M.onSnd (M.modify fun ch => { ch with ibuf := env.create 256 })
  fTransf F T len
  M.onSnd (M.modify fun ch => { ch with ibuf := wipeBytes ch.ibuf })
  M.onFst T.finish
  fOutputPending F T
  M.onFst T.wipe

/-- `hash#add_substring ibuf 0 r`, src/cryptokit.ml:252, 259. -/
def fAdd (H : HashObj η) (r : Nat) : M (η × FChan) Unit := do
  let st ← M.get
  M.onFst (H.addSubstring st.2.ibuf 0 r)

/-- `hash_to_eof`, src/cryptokit.ml:249-254. -/
def fHashToEof (F : Faults) (H : HashObj η) : Nat → M (η × FChan) Unit
  | 0 => M.diverge
  | fuel + 1 => do
    let r ← M.onSnd (fInput F 256)
    if r > 0 then
      fAdd H r
      fHashToEof F H fuel
    else pure ()

/-- `hash_bounded numleft`, src/cryptokit.ml:255-261. -/
def fHashBounded (F : Faults) (H : HashObj η) : Nat → Int → M (η × FChan) Unit
  | 0, _ => M.diverge
  | fuel + 1, numleft =>
    if numleft > 0 then do
      let r ← M.onSnd (fInput F (min 256 numleft).toNat)
      if r = 0 then M.raise .endOfFile
      fAdd H r
      fHashBounded F H fuel (numleft - r)
    else pure ()

/-- The choice between the two loops, src/cryptokit.ml:262-265. -/
def fHash (F : Faults) (H : HashObj η) (len : Option Int) : M (η × FChan) Unit := do
  let st ← M.get
  match len with
  | none => fHashToEof F H (st.2.ic.length + 1)
  | some l => fHashBounded F H (l.toNat + 1) l

/-- `hash_channel hash ?len ic`, src/cryptokit.ml:247-269. -/
def hashChannelF (env : Env) (F : Faults) (H : HashObj η) (len : Option Int) : M (η × FChan) Bytes := do
  M.onSnd (M.modify fun ch => { ch with ibuf := env.create 256 })
  fHash F H len
  M.onSnd (M.modify fun ch => { ch with ibuf := wipeBytes ch.ibuf })
  let res ← M.onFst H.result
  M.onFst H.wipe
  pure res

end Verif
