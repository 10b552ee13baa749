import Verif.Model.Cipher
/-
Asynchronous exceptions. An OCaml program may be interrupted between any two statements by a signal
handler that raises an exception (`Sys.Break`, a timeout). Here the methods of the buffered
transforms are modelled again with such an interruption point, `poll`, before, between and after
their statements. Calls to C code and assignments are atomic.
-/
namespace Verif

/-- The interruptions to come: at each point reached, nothing or the exception that the signal
handler raises; nothing any more at the end of the list. A modelling device: it takes the place of
the environment of src/cryptokit.ml. -/
abbrev Sched := List (Option Exn)

/-- States in which the interruptions to come can be found. A modelling device. src/cryptokit.ml. -/
class Ticking (σ : Type) where
  /-- What happens at the next interruption point, and the state after it. -/
  tick : σ → Option Exn × σ

instance : Ticking Sched where
  tick
    | [] => (none, [])
    | e :: s => (e, s)

instance [Ticking σ] : Ticking (σ × β) where
  tick p := ((Ticking.tick p.1).1, ((Ticking.tick p.1).2, p.2))

instance [Ticking σ] : Ticking (ModeSt σ) where
  tick st := ((Ticking.tick st.c).1, { st with c := (Ticking.tick st.c).2 })

instance [Ticking σ] : Ticking (CtrSt σ) where
  tick st := ((Ticking.tick st.m).1, { st with m := (Ticking.tick st.m).2 })

instance [Ticking σ] : Ticking (CipherSt σ) where
  tick st := ((Ticking.tick st.c).1, { st with c := (Ticking.tick st.c).2 })

instance [Ticking σ] : Ticking (StreamSt σ) where
  tick st := ((Ticking.tick st.c).1, { st with c := (Ticking.tick st.c).2 })

/-- An interruption point: between any two statements of src/cryptokit.ml. -/
def poll [Ticking σ] : M σ Unit := fun s =>
  match (Ticking.tick s).1 with
  | some e => .exn e (Ticking.tick s).2
  | none => .ok () (Ticking.tick s).2

/-! ### `buffered_output` -/

namespace OBuf

variable {κ : Type} [Ticking κ]

/-- Assignment to the instance variables of `buffered_output`. src/cryptokit.ml:321-323. -/
def assign (f : OBuf → OBuf) : M (κ × OBuf) Unit := M.modify fun p => (p.1, f p.2)

/-- `Bytes.blit obuf obeg obuf 0 (oend - obeg); oend <- oend - obeg; obeg <- 0`,
src/cryptokit.ml:329-331. -/
def compactI : M (κ × OBuf) Unit := do
  let (_, o) ← M.get
  let b ← M.orRaise .invalidArg (bytesBlit o.obuf o.obeg o.obuf 0 ((o.oend : Int) - o.obeg))
  assign fun o => { o with obuf := b }
  poll
  assign fun o => { o with oend := o.oend - o.obeg }
  poll
  assign fun o => { o with obeg := 0 }
  poll

/-- The rest of the method when the buffer has to grow, `newlen` being final:
`let newbuf = Bytes.create (!newlen) in Bytes.blit obuf obeg newbuf 0 (oend - obeg); obuf <- newbuf;
oend <- oend - obeg; obeg <- 0`, src/cryptokit.ml:342-346. -/
def growI (env : Env) (newlen : Nat) : M (κ × OBuf) Unit := do
  poll
  let (_, o) ← M.get
  let b ← M.orRaise .invalidArg
    (bytesBlit o.obuf o.obeg (env.create newlen) 0 ((o.oend : Int) - o.obeg))
  poll
  assign fun o => { o with obuf := b }
  poll
  assign fun o => { o with oend := o.oend - o.obeg }
  poll
  assign fun o => { o with obeg := 0 }
  poll

/-- The loop on `newlen`, src/cryptokit.ml:333-335. The points inside of it are all the same: they
change nothing but the list of interruptions to come, of which each loop turn would take one. One
point after the loop stands for them. -/
def growLoopI (need : Int) (newlen : Nat) : M (κ × OBuf) Nat := fun p =>
  match growLoop need newlen with
  | none => .loop
  | some r => .ok r p

/-- `ensure_capacity n`, src/cryptokit.ml:325-349, with interruption points. -/
def ensureCapacityI (env : Env) (n : Int) : M (κ × OBuf) Unit := do
  poll
  let (_, o) ← M.get
  if (o.oend : Int) + n > o.obuf.length then
    if (o.oend : Int) - o.obeg + n < o.obuf.length then compactI
    else
      let newlen ← growLoopI ((o.oend : Int) - o.obeg + n) (2 * o.obuf.length)
      poll
      if newlen > env.maxLen ∧ ¬ ((o.oend : Int) - o.obeg + n ≤ env.maxLen) then
        M.raise (.error .outputBufferOverflow)
      else growI env (if newlen > env.maxLen then env.maxLen else newlen)
  else M.pure ()

/-- `available_output`, src/cryptokit.ml:351, with interruption points. -/
def availableOutputI : M (κ × OBuf) Int := do
  poll
  let (_, o) ← M.get
  poll
  pure ((o.oend : Int) - o.obeg)

/-- `get_substring`, src/cryptokit.ml:353-354, with interruption points. -/
def getSubstringI : M (κ × OBuf) (Bytes × Int × Int) := do
  poll
  let (_, o) ← M.get
  poll
  assign fun o => { o with obeg := 0 }
  poll
  assign fun o => { o with oend := 0 }
  poll
  pure (o.obuf, (o.obeg : Int), (o.oend : Int) - o.obeg)

/-- `get_string`, src/cryptokit.ml:356-357, with interruption points. -/
def getStringI : M (κ × OBuf) Bytes := do
  poll
  let (_, o) ← M.get
  let r ← M.orRaise .invalidArg (bytesSub o.obuf o.obeg ((o.oend : Int) - o.obeg))
  poll
  assign fun o => { o with obeg := 0 }
  poll
  assign fun o => { o with oend := 0 }
  poll
  pure r

/-- `get_char`, src/cryptokit.ml:359-363, with interruption points. -/
def getCharI : M (κ × OBuf) Byte := do
  poll
  let (_, o) ← M.get
  if o.obeg ≥ o.oend then M.raise .endOfFile
  else do
    let r ← M.orRaise .invalidArg (bytesGet o.obuf o.obeg)
    poll
    assign fun o => { o with obeg := o.obeg + 1 }
    poll
    pure r

/-- `get_byte`, src/cryptokit.ml:365-366, with interruption points. -/
def getByteI : M (κ × OBuf) Int := do
  let c ← getCharI
  poll
  pure (c.toNat : Int)

/-- `wipe`, src/cryptokit.ml:368-369, with interruption points. -/
def wipeI : M (κ × OBuf) Unit := do
  poll
  assign fun o => { o with obuf := wipeBytes o.obuf }
  poll

end OBuf

/-! ### Chaining modes. Their method `wipe` is not interrupted. -/

section modes

open ModeSt

variable {σ : Type} [Ticking σ]

/-- Class `cbc_encrypt`, src/cryptokit.ml:651-663, with interruption points. -/
def cbcEncryptI (c : BlockCipher σ) : BlockCipher (ModeSt σ) where
  blocksize := c.blocksize
  transform src so dofs := do
    poll
    let (st, dst) ← M.get
    let iv ← M.orUB (xorC (.other (src.read dst)) so st.iv 0 c.blocksize)
    setIv iv
    poll
    callDst c (.other iv) 0 dofs
    poll
    let (st, dst) ← M.get
    let iv ← M.orRaise .invalidArg (bytesBlit dst dofs st.iv 0 c.blocksize)
    setIv iv
    poll
  wipe := (cbcEncrypt c).wipe

/-- Class `cbc_decrypt`, src/cryptokit.ml:665-680, with interruption points. -/
def cbcDecryptI (c : BlockCipher σ) : BlockCipher (ModeSt σ) where
  blocksize := c.blocksize
  transform src so dofs := do
    poll
    let (st, dst) ← M.get
    let next ← M.orRaise .invalidArg (bytesBlit (src.read dst) so st.aux 0 c.blocksize)
    setAux next
    poll
    callDst c src so dofs
    poll
    let (st, dst) ← M.get
    let dst ← M.orUB (xorC (.other st.iv) 0 dst dofs c.blocksize)
    setDst dst
    poll
    let (st, _) ← M.get
    let iv ← M.orRaise .invalidArg (bytesBlit st.aux 0 st.iv 0 c.blocksize)
    setIv iv
    poll
  wipe := (cbcDecrypt c).wipe

/-- Class `cfb_encrypt`, src/cryptokit.ml:682-699, with interruption points. -/
def cfbEncryptI (chunksize : Nat) (c : BlockCipher σ) : BlockCipher (ModeSt σ) where
  blocksize := chunksize
  transform src so dofs := do
    poll
    let (st, _) ← M.get
    callAux c (.other st.iv) 0 0
    poll
    let (_, dst) ← M.get
    let dst ← M.orRaise .invalidArg (bytesBlit (src.read dst) so dst dofs chunksize)
    setDst dst
    poll
    let (st, dst) ← M.get
    let dst ← M.orUB (xorC (.other st.aux) 0 dst dofs chunksize)
    setDst dst
    poll
    let (st, _) ← M.get
    let iv ← M.orRaise .invalidArg
      (bytesBlit st.iv chunksize st.iv 0 ((c.blocksize : Int) - chunksize))
    setIv iv
    poll
    let (st, dst) ← M.get
    let iv ← M.orRaise .invalidArg
      (bytesBlit dst dofs st.iv ((c.blocksize : Int) - chunksize) chunksize)
    setIv iv
    poll
  wipe := (cfbEncrypt chunksize c).wipe

/-- Class `cfb_decrypt`, src/cryptokit.ml:701-718, with interruption points. -/
def cfbDecryptI (chunksize : Nat) (c : BlockCipher σ) : BlockCipher (ModeSt σ) where
  blocksize := chunksize
  transform src so dofs := do
    poll
    let (st, _) ← M.get
    callAux c (.other st.iv) 0 0
    poll
    let (st, _) ← M.get
    let iv ← M.orRaise .invalidArg
      (bytesBlit st.iv chunksize st.iv 0 ((c.blocksize : Int) - chunksize))
    setIv iv
    poll
    let (st, dst) ← M.get
    let iv ← M.orRaise .invalidArg
      (bytesBlit (src.read dst) so st.iv ((c.blocksize : Int) - chunksize) chunksize)
    setIv iv
    poll
    let (_, dst) ← M.get
    let dst ← M.orRaise .invalidArg (bytesBlit (src.read dst) so dst dofs chunksize)
    setDst dst
    poll
    let (st, dst) ← M.get
    let dst ← M.orUB (xorC (.other st.aux) 0 dst dofs chunksize)
    setDst dst
    poll
  wipe := (cfbDecrypt chunksize c).wipe

/-- Class `ofb`, src/cryptokit.ml:720-733, with interruption points. -/
def ofbI (chunksize : Nat) (c : BlockCipher σ) : BlockCipher (ModeSt σ) where
  blocksize := chunksize
  transform src so dofs := do
    poll
    callIv c .self 0 0
    poll
    let (_, dst) ← M.get
    let dst ← M.orRaise .invalidArg (bytesBlit (src.read dst) so dst dofs chunksize)
    setDst dst
    poll
    let (st, dst) ← M.get
    let dst ← M.orUB (xorC (.other st.iv) 0 dst dofs chunksize)
    setDst dst
    poll
  wipe := (ofb chunksize c).wipe

/-- `increment_counter iv lim pos`, src/cryptokit.ml:735-740, with an interruption point at the recursive
call (OCaml has one there: the function is a loop). The last argument is `pos + 1`, as in
`incrementCounter`. -/
def incrementCounterI (lim : Nat) : Nat → M (ModeSt σ × Bytes) Unit
  | 0 => pure ()
  | pos + 1 =>
    if pos ≥ lim then do
      let (st, _) ← M.get
      let b ← M.orRaise .invalidArg st.iv[pos]?
      setIv (st.iv.set pos (BitVec.ofNat 8 (1 + b.toNat)))
      if 1 + b.toNat = 0x100 then do
        poll
        incrementCounterI lim pos
      else pure ()
    else pure ()

/-- Class `ctr`, src/cryptokit.ml:742-766, with interruption points. -/
def ctrI (nincr : Nat) (c : BlockCipher σ) : BlockCipher (CtrSt σ) where
  blocksize := c.blocksize
  transform src so dofs := do
    M.zoom (fun p => (p.1.m, p.2)) (fun r p => ({ p.1 with m := r.1 }, r.2))
      (do
        poll
        let (st, _) ← M.get
        callAux c (.other st.iv) 0 0
        poll
        let (_, dst) ← M.get
        let dst ← M.orRaise .invalidArg (bytesBlit (src.read dst) so dst dofs c.blocksize)
        setDst dst
        poll
        let (st, dst) ← M.get
        let dst ← M.orUB (xorC (.other st.aux) 0 dst dofs c.blocksize)
        setDst dst
        poll
        incrementCounterI (c.blocksize - nincr) c.blocksize
        poll)
    let (st, _) ← M.get
    let m := st.maxTransf - 1#64
    if m = 0#64 then M.raise (.error .messageTooLong)
    M.modify fun p => ({ p.1 with maxTransf := m }, p.2)
    poll
  wipe := (ctr nincr c).wipe

end modes

/-! ### `Block.cipher` -/

section cipher

open CipherSt

variable {σ : Type} [Ticking σ]

/-- Run a method inherited from `buffered_output`. src/cryptokit.ml:772. -/
def onBufI (m : M (σ × OBuf) α) : M (CipherSt σ) α :=
  M.zoom (fun t => (t.c, t.ob)) (fun r t => { t with c := r.1, ob := r.2 }) m

/-- `self#ensure_capacity blocksize; cipher#transform ibuf 0 obuf oend; oend <- oend + blocksize`,
src/cryptokit.ml:791-793, with interruption points. -/
def pushBlockI (env : Env) (c : BlockCipher σ) : M (CipherSt σ) Unit := do
  onBufI (OBuf.ensureCapacityI env c.blocksize)
  poll
  callOut c
  poll
  M.modify fun st => { st with ob := { st.ob with oend := st.ob.oend + c.blocksize } }
  poll

/-- `...; used <- 0`, src/cryptokit.ml:791-794, with interruption points. -/
def pushResetI (env : Env) (c : BlockCipher σ) : M (CipherSt σ) Unit := do
  pushBlockI env c
  M.modify fun st => { st with used := 0 }
  poll

/-- `cipher#put_substring`, src/cryptokit.ml:781-797, with interruption points. (`used` is 0 before
the recursive call: the test of it is for Lean's termination check only. A block size of 0 would make
the real method loop.) -/
def cipherPutSubstringI (env : Env) (c : BlockCipher σ) (src : Bytes) (ofs len : Int)
    (st : CipherSt σ) : Out (CipherSt σ) Unit :=
  if len ≤ 0 then poll st
  else if (st.used : Int) + len ≤ c.blocksize then
    (do
      poll
      let st ← M.get
      let ib ← M.orRaise .invalidArg (bytesBlit src ofs st.ibuf st.used len)
      M.modify fun st => { st with ibuf := ib }
      poll
      M.modify fun st => { st with used := st.used + len.toNat }
      poll : M (CipherSt σ) Unit) st
  else
    let n : Int := (c.blocksize : Int) - st.used
    match _h : bytesBlit src ofs st.ibuf st.used n with
    | none => (do poll; M.raise .invalidArg : M (CipherSt σ) Unit) st
    | some ib =>
      match _hr : (do
          poll
          M.modify fun st => { st with ibuf := ib }
          poll
          pushResetI env c : M (CipherSt σ) Unit) st with
      | .ok () st' =>
        if _hb : c.blocksize = 0 ∨ st'.used ≠ 0 then .loop
        else cipherPutSubstringI env c src (ofs + n) (len - n) st'
      | .exn e st' => .exn e st'
      | .ub => .ub
      | .loop => .loop
termination_by len.toNat * 2 + (if st.used = 0 then 0 else 1)
decreasing_by
  have := bytesBlit_len_nonneg _h
  rw [if_pos (show st'.used = 0 by omega), Nat.add_zero]
  split <;> omega

/-- `cipher#put_char`, src/cryptokit.ml:802-812, with interruption points. -/
def cipherPutCharI (env : Env) (c : BlockCipher σ) (ch : Byte) : M (CipherSt σ) Unit := do
  poll
  let st ← M.get
  if st.used < c.blocksize then do
    let ib ← M.orRaise .invalidArg (bytesSet st.ibuf st.used ch)
    M.modify fun st => { st with ibuf := ib }
    poll
    M.modify fun st => { st with used := st.used + 1 }
    poll
  else do
    pushBlockI env c
    let st ← M.get
    let ib ← M.orRaise .invalidArg (bytesSet st.ibuf 0 ch)
    M.modify fun st => { st with ibuf := ib }
    poll
    M.modify fun st => { st with used := 1 }
    poll

/-- `cipher#flush`, src/cryptokit.ml:822-830 (where `used <- 0` comes before
`oend <- oend + blocksize`), with interruption points. -/
def cipherFlushI (env : Env) (c : BlockCipher σ) : M (CipherSt σ) Unit := do
  poll
  let st ← M.get
  if st.used = 0 then M.pure ()
  else if st.used = c.blocksize then do
    onBufI (OBuf.ensureCapacityI env c.blocksize)
    poll
    callOut c
    poll
    M.modify fun st => { st with used := 0 }
    poll
    M.modify fun st => { st with ob := { st.ob with oend := st.ob.oend + c.blocksize } }
    poll
  else M.raise (.error .wrongDataLength)

/-- `cipher#wipe`, src/cryptokit.ml:817-820, with interruption points. -/
def cipherWipeI (c : BlockCipher σ) : M (CipherSt σ) Unit := do
  poll
  M.modify fun st => { st with c := c.wipe st.c }
  poll
  onBufI OBuf.wipeI
  poll
  M.modify fun st => { st with ibuf := wipeBytes st.ibuf }
  poll

/-- Class `cipher` (`Block.cipher`), src/cryptokit.ml:770-834, with interruption points. -/
def blockTransformI (env : Env) (c : BlockCipher σ) : Transform (CipherSt σ) where
  putSubstring src ofs len := cipherPutSubstringI env c src ofs len
  putString s := cipherPutSubstringI env c s 0 s.length
  putChar := cipherPutCharI env c
  putByte b := cipherPutCharI env c (BitVec.ofInt 8 b)
  flush := cipherFlushI env c
  finish := cipherFlushI env c
  availableOutput := onBufI OBuf.availableOutputI
  getString := onBufI OBuf.getStringI
  getSubstring := onBufI OBuf.getSubstringI
  getChar := onBufI OBuf.getCharI
  getByte := onBufI OBuf.getByteI
  wipe := cipherWipeI c

/-- `padding#pad ibuf used; self#ensure_capacity blocksize; cipher#transform ibuf 0 obuf oend;
oend <- oend + blocksize`, src/cryptokit.ml:852-855, with interruption points. -/
def padPushI (env : Env) (p : PadScheme) (c : BlockCipher σ) : M (CipherSt σ) Unit := do
  let st ← M.get
  let ib ← ofExcept (p.pad st.ibuf st.used)
  M.modify fun st => { st with ibuf := ib }
  poll
  pushBlockI env c

/-- `cipher_padded_encrypt#finish`, src/cryptokit.ml:845-855, with interruption points. -/
def paddedEncryptFinishI (env : Env) (p : PadScheme) (c : BlockCipher σ) : M (CipherSt σ) Unit := do
  poll
  let st ← M.get
  if st.used ≥ c.blocksize then do
    pushResetI env c
    padPushI env p c
  else padPushI env p c

/-- Class `cipher_padded_encrypt`, src/cryptokit.ml:838-856, with interruption points. -/
def paddedEncryptI (env : Env) (p : PadScheme) (c : BlockCipher σ) : Transform (CipherSt σ) :=
  { blockTransformI env c with finish := paddedEncryptFinishI env p c }

/-- `cipher_padded_decrypt#finish`, src/cryptokit.ml:865-871, with interruption points. -/
def paddedDecryptFinishI (env : Env) (p : PadScheme) (c : BlockCipher σ) : M (CipherSt σ) Unit := do
  poll
  let st ← M.get
  if st.used ≠ c.blocksize then M.raise (.error .wrongDataLength)
  callIbuf c
  poll
  let st ← M.get
  let valid ← ofExcept (p.strip st.ibuf)
  poll
  onBufI (OBuf.ensureCapacityI env valid)
  poll
  let st ← M.get
  let b ← M.orRaise .invalidArg (bytesBlit st.ibuf 0 st.ob.obuf st.ob.oend valid)
  M.modify fun st => { st with ob := { st.ob with obuf := b } }
  poll
  M.modify fun st => { st with ob := { st.ob with oend := st.ob.oend + valid } }
  poll

/-- Class `cipher_padded_decrypt`, src/cryptokit.ml:858-872, with interruption points. -/
def paddedDecryptI (env : Env) (p : PadScheme) (c : BlockCipher σ) : Transform (CipherSt σ) :=
  { blockTransformI env c with finish := paddedDecryptFinishI env p c }

end cipher

/-! ### `Stream.cipher` -/

section stream

variable {σ : Type} [Ticking σ]

/-- Run a method inherited from `buffered_output`. src/cryptokit.ml:1040. -/
def onStreamBufI (m : M (σ × OBuf) α) : M (StreamSt σ) α :=
  M.zoom (fun t => (t.c, t.ob)) (fun r t => { t with c := r.1, ob := r.2 }) m

/-- `cipher#transform src ofs obuf oend len`, src/cryptokit.ml:1046. -/
def streamOut (c : StreamCipher σ) (src : Bytes) (ofs len : Int) : M (StreamSt σ) Unit := fun st =>
  match c.transform (.other src) ofs st.ob.oend len (st.c, st.ob.obuf) with
  | .ok () (s, b) => .ok () { st with c := s, ob := { st.ob with obuf := b } }
  | .exn e (s, b) => .exn e { st with c := s, ob := { st.ob with obuf := b } }
  | .ub => .ub
  | .loop => .loop

/-- `put_substring`, src/cryptokit.ml:1044-1047, with interruption points. -/
def streamPutI (env : Env) (c : StreamCipher σ) (src : Bytes) (ofs len : Int) :
    M (StreamSt σ) Unit := do
  onStreamBufI (OBuf.ensureCapacityI env len)
  poll
  streamOut c src ofs len
  poll
  M.modify fun st => { st with ob := { st.ob with oend := st.ob.oend + len.toNat } }
  poll

/-- `put_char`, src/cryptokit.ml:1052-1056, with interruption points. -/
def streamPutCharI (env : Env) (c : StreamCipher σ) (ch : Byte) : M (StreamSt σ) Unit := do
  poll
  let st ← M.get
  let cb ← M.orRaise .invalidArg (bytesSet st.charbuf 0 ch)
  M.modify fun st => { st with charbuf := cb }
  poll
  streamPutI env c cb 0 1

/-- `wipe`, src/cryptokit.ml:1064-1067, with interruption points. -/
def streamWipeI (c : StreamCipher σ) : M (StreamSt σ) Unit := do
  poll
  M.modify fun st => { st with c := c.wipe st.c }
  poll
  onStreamBufI OBuf.wipeI
  poll
  M.modify fun st => { st with charbuf := wipeBytes st.charbuf }
  poll

/-- Class `Stream.cipher`, src/cryptokit.ml:1036-1068, with interruption points. -/
def streamTransformI (env : Env) (c : StreamCipher σ) : Transform (StreamSt σ) where
  putSubstring := streamPutI env c
  putString s := streamPutI env c s 0 s.length
  putChar := streamPutCharI env c
  putByte b := streamPutCharI env c (BitVec.ofInt 8 b)
  flush := poll
  finish := poll
  availableOutput := onStreamBufI OBuf.availableOutputI
  getString := onStreamBufI OBuf.getStringI
  getSubstring := onStreamBufI OBuf.getSubstringI
  getChar := onStreamBufI OBuf.getCharI
  getByte := onStreamBufI OBuf.getByteI
  wipe := streamWipeI c

end stream

/-! ### Construction -/

/-- A block cipher in C, which is not interrupted, in a program that may be. src/cryptokit.ml:499-640. -/
def BlockCipher.atomic (c : BlockCipher σ) : BlockCipher (Sched × σ) where
  blocksize := c.blocksize
  transform src so dofs :=
    M.zoom (fun p => (p.1.2, p.2)) (fun r p => ((p.1.1, r.1), r.2)) (c.transform src so dofs)
  wipe p := (p.1, c.wipe p.2)

/-- A stream cipher in C, which is not interrupted. src/cryptokit.ml:994-1032. -/
def StreamCipher.atomic (c : StreamCipher σ) : StreamCipher (Sched × σ) where
  transform src so dofs len :=
    M.zoom (fun p => (p.1.2, p.2)) (fun r p => ((p.1.1, r.1), r.2)) (c.transform src so dofs len)
  wipe p := (p.1, c.wipe p.2)

namespace Cipher

/-- An object of class type `block_cipher` that may be interrupted. src/cryptokit.ml:492-497. -/
structure AnyBlockI where
  {σ : Type}
  [inst : Ticking σ]
  c : BlockCipher σ
  s : σ

attribute [instance] AnyBlockI.inst

/-- The `chained_cipher` of `make_block_cipher`, src/cryptokit.ml:1356-1368, `sched` being the
interruptions to come once the object has been made. -/
def chainedI (env : Env) (mode : Mode) (iv : Option Bytes) (dir : Dir) (sched : Sched) (b : AnyBlock) :
    Except Exn AnyBlockI :=
  match mode, dir with
  | .ECB, _ => .ok ⟨b.c.atomic, (sched, b.s)⟩
  | .CBC, .encrypt =>
    (modeInit env b.c.atomic (sched, b.s) iv).map fun st => ⟨cbcEncryptI b.c.atomic, st⟩
  | .CBC, .decrypt =>
    (modeInit env b.c.atomic (sched, b.s) iv).map fun st => ⟨cbcDecryptI b.c.atomic, st⟩
  | .CFB n, .encrypt =>
    (modeInitChunk env b.c.atomic (sched, b.s) iv n).map fun st => ⟨cfbEncryptI n.toNat b.c.atomic, st⟩
  | .CFB n, .decrypt =>
    (modeInitChunk env b.c.atomic (sched, b.s) iv n).map fun st => ⟨cfbDecryptI n.toNat b.c.atomic, st⟩
  | .OFB n, _ =>
    (modeInitChunk env b.c.atomic (sched, b.s) iv n).map fun st => ⟨ofbI n.toNat b.c.atomic, st⟩
  | .CTR, _ => (ctrInit env b.c.atomic (sched, b.s) iv none).map fun p => ⟨ctrI p.1 b.c.atomic, p.2⟩
  | .CTR_N n, _ =>
    (ctrInit env b.c.atomic (sched, b.s) iv (some n)).map fun p => ⟨ctrI p.1 b.c.atomic, p.2⟩

/-- `make_block_cipher`, src/cryptokit.ml:1355-1375. -/
def makeBlockCipherI (env : Env) (mode : Option Mode) (pad : Option PadScheme) (iv : Option Bytes)
    (dir : Dir) (sched : Sched) (b : AnyBlock) : Except Exn AnyTransform :=
  (chainedI env (mode.getD .CBC) iv dir sched b).map fun m =>
    match pad with
    | none => ⟨blockTransformI env m.c, cipherInit env m.c m.s⟩
    | some p =>
      match dir with
      | .encrypt => ⟨paddedEncryptI env p m.c, cipherInit env m.c m.s⟩
      | .decrypt => ⟨paddedDecryptI env p m.c, cipherInit env m.c m.s⟩

/-- `make_block_cipher ... (new ... key)`, src/cryptokit.ml:1343-1398. -/
def makeI (env : Env) (mode : Option Mode) (pad : Option PadScheme) (iv : Option Bytes) (dir : Dir)
    (sched : Sched) (b : Option (Except Exn AnyBlock)) : Option (Except Exn AnyTransform) :=
  b.map fun r => r.bind (makeBlockCipherI env mode pad iv dir sched)

/-- `Cipher.aes`, src/cryptokit.ml:1382-1386. -/
def aesI (env : Env) (host : AesHost) (mode : Option Mode) (pad : Option PadScheme)
    (iv : Option Bytes) (key : Bytes) (dir : Dir) (sched : Sched) : Option (Except Exn AnyTransform) :=
  makeI env mode pad iv dir sched (aesBlock host (normalizeDir mode dir) key)

/-- `Cipher.blowfish`, src/cryptokit.ml:1388-1392. -/
def blowfishI (env : Env) (mode : Option Mode) (pad : Option PadScheme)
    (iv : Option Bytes) (key : Bytes) (dir : Dir) (sched : Sched) : Option (Except Exn AnyTransform) :=
  makeI env mode pad iv dir sched (blowfishBlock (normalizeDir mode dir) key)

/-- `Cipher.des`, src/cryptokit.ml:1394-1396. -/
def desI (env : Env) (mode : Option Mode) (pad : Option PadScheme)
    (iv : Option Bytes) (key : Bytes) (dir : Dir) (sched : Sched) : Option (Except Exn AnyTransform) :=
  makeI env mode pad iv dir sched (desBlock (normalizeDir mode dir) key)

/-- `Cipher.triple_des`, src/cryptokit.ml:1398-1402. -/
def tripleDesI (env : Env) (mode : Option Mode) (pad : Option PadScheme)
    (iv : Option Bytes) (key : Bytes) (dir : Dir) (sched : Sched) : Option (Except Exn AnyTransform) :=
  makeI env mode pad iv dir sched (tripleDesBlock (normalizeDir mode dir) key)

/-- `Cipher.arcfour`, src/cryptokit.ml:1404. -/
def arcfourI (env : Env) (key : Bytes) (_dir : Dir) (sched : Sched) : Except Exn AnyTransform :=
  (arcfourInit key).map fun s =>
    ⟨streamTransformI env Verif.arcfour.atomic, streamInit env ((sched, s) : Sched × Arcfour)⟩

/-- `Cipher.chacha20`, src/cryptokit.ml:1406-1407. -/
def chacha20I (env : Env) (iv : Option Bytes) (ctr : Option W64) (key : Bytes) (_dir : Dir)
    (sched : Sched) : Except Exn AnyTransform :=
  (chacha20Init env key iv ctr).map fun s =>
    ⟨streamTransformI env Verif.chacha20.atomic, streamInit env ((sched, s) : Sched × ChaCha)⟩

end Cipher
end Verif
