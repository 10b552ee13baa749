import Verif.Model.Codec
import Verif.Model.Mac
import Verif.Model.Cipher
import Verif.Model.Aead
/-
OCaml's integers have `Sys.int_size` bits (63 on 64-bit platforms, 31 on 32-bit ones) and wrap
around. The rest of the model computes on mathematical integers; here are the methods of
src/cryptokit.ml that do arithmetic on the lengths and offsets given by the caller, with the
arithmetic of the machine.
-/
namespace Verif

/-- The value, with `w`-bit integers, of an operation whose mathematical result is `x`. OCaml's
`+`, `-` and `*`, as used in src/cryptokit.ml:327-335, 783-797, 2280. -/
def wrapInt (w : Nat) (x : Int) : Int := (x + 2 ^ (w - 1)) % 2 ^ w - 2 ^ (w - 1)

/-- `while need > !newlen do newlen := !newlen * 2 done`, src/cryptokit.ml:333-335. `none` is an
infinite loop. The loop is followed for `w` iterations only (first argument after `need`): by then
all the bits of `newlen` have been shifted out, `newlen` is 0 and stays so
(`growLoopW_none_iff`, Proof/MachineInt.lean). -/
def growLoopW (w : Nat) (need : Int) : Nat → Int → Option Int
  | 0, newlen => if need > newlen then none else some newlen
  | k + 1, newlen =>
    if need > newlen then growLoopW w need k (wrapInt w (newlen * 2)) else some newlen

/-- `ensure_capacity n`, src/cryptokit.ml:325-349. The last test is that of `Bytes.create`. -/
def OBuf.ensureCapacityW (w : Nat) (env : Env) (n : Int) : M OBuf Unit := fun o =>
  let len : Int := o.obuf.length
  let need := wrapInt w (wrapInt w ((o.oend : Int) - o.obeg) + n)
  if wrapInt w ((o.oend : Int) + n) > len then
    if need < len then
      match bytesBlit o.obuf o.obeg o.obuf 0 (o.oend - o.obeg) with
      | none => .exn .invalidArg o
      | some b => .ok () { obuf := b, obeg := 0, oend := o.oend - o.obeg }
    else
      match growLoopW w need w (wrapInt w (2 * len)) with
      | none => .loop
      | some newlen =>
        if newlen > env.maxLen ∧ ¬ (need ≤ env.maxLen) then
          .exn (.error .outputBufferOverflow) o
        else
          let newlen : Int := if newlen > env.maxLen then env.maxLen else newlen
          if newlen < 0 then .exn .invalidArg o
          else
            match bytesBlit o.obuf o.obeg (env.create newlen.toNat) 0 (o.oend - o.obeg) with
            | none => .exn .invalidArg o
            | some b => .ok () { obuf := b, obeg := 0, oend := o.oend - o.obeg }
  else .ok () o

/-! ### `Stream.cipher` -/

/-- `put_substring`, src/cryptokit.ml:1044-1047. The tests made by `transform` on its arguments
(`src_ofs > Bytes.length src - len`, after `len < 0`, src/cryptokit.ml:1003-1007) do not wrap
around. -/
def streamPutW (w : Nat) (env : Env) (c : StreamCipher σ) (src : Bytes) (ofs len : Int) :
    M (StreamSt σ) Unit := do
  M.zoom (·.ob) (fun o t => { t with ob := o }) (OBuf.ensureCapacityW w env len)
  (fun st =>
    match c.transform (.other src) ofs st.ob.oend len (st.c, st.ob.obuf) with
    | .ok () (s, b) => .ok () { st with c := s, ob := { st.ob with obuf := b } }
    | .exn e (s, b) => .exn e { st with c := s, ob := { st.ob with obuf := b } }
    | .ub => .ub
    | .loop => .loop)
  M.modify fun st => { st with ob := { st.ob with oend := st.ob.oend + len.toNat } }

/-- `put_char`, src/cryptokit.ml:1052-1056. -/
def streamPutCharW (w : Nat) (env : Env) (c : StreamCipher σ) (ch : Byte) : M (StreamSt σ) Unit := do
  let st ← M.get
  let cb ← M.orRaise .invalidArg (bytesSet st.charbuf 0 ch)
  M.modify fun st => { st with charbuf := cb }
  streamPutW w env c cb 0 1

/-- Class `Stream.cipher`, src/cryptokit.ml:1036-1068: the methods that call `ensure_capacity`. -/
def streamTransformW (w : Nat) (env : Env) (c : StreamCipher σ) : Transform (StreamSt σ) :=
  { streamTransform env c with
    putSubstring := streamPutW w env c
    putString := fun s => streamPutW w env c s 0 s.length
    putChar := streamPutCharW w env c
    putByte := fun b => streamPutCharW w env c (BitVec.ofInt 8 b) }

/-! ### `Block.cipher` -/

/-- `self#ensure_capacity blocksize; cipher#transform ibuf 0 obuf oend; oend <- oend + blocksize`,
src/cryptokit.ml:791-793, 807-809, 825-828. -/
def pushBlockW (w : Nat) (env : Env) (c : BlockCipher σ) : M (CipherSt σ) Unit := do
  CipherSt.onBuf (OBuf.ensureCapacityW w env c.blocksize)
  CipherSt.callOut c
  M.modify fun st => { st with ob := { st.ob with oend := st.ob.oend + c.blocksize } }

/-- `cipher#put_substring`, src/cryptokit.ml:781-797. `ofs + n` and `len - n` do not wrap around:
when they are computed `Bytes.blit` has checked that `0 <= n` and `ofs + n <= Bytes.length src`. -/
def cipherPutSubstringW (w : Nat) (env : Env) (c : BlockCipher σ) (src : Bytes) (ofs len : Int)
    (st : CipherSt σ) : Out (CipherSt σ) Unit :=
  if len ≤ 0 then .ok () st
  else if wrapInt w ((st.used : Int) + len) ≤ c.blocksize then
    match bytesBlit src ofs st.ibuf st.used len with
    | none => .exn .invalidArg st
    | some ib => .ok () { st with ibuf := ib, used := st.used + len.toNat }
  else
    let n : Int := (c.blocksize : Int) - st.used
    match _h : bytesBlit src ofs st.ibuf st.used n with
    | none => .exn .invalidArg st
    | some ib =>
      match pushBlockW w env c { st with ibuf := ib } with
      | .ok () st' =>
        if _hb : c.blocksize = 0 then .loop
        else cipherPutSubstringW w env c src (ofs + n) (len - n) { st' with used := 0 }
      | .exn e st' => .exn e st'
      | .ub => .ub
      | .loop => .loop
termination_by len.toNat * 2 + (if st.used = 0 then 0 else 1)
decreasing_by
  have := bytesBlit_len_nonneg _h
  simp only [if_true, Nat.add_zero]
  split <;> omega

/-- `cipher#put_char`, src/cryptokit.ml:802-812. -/
def cipherPutCharW (w : Nat) (env : Env) (c : BlockCipher σ) (ch : Byte) : M (CipherSt σ) Unit := fun st =>
  if st.used < c.blocksize then
    match bytesSet st.ibuf st.used ch with
    | none => .exn .invalidArg st
    | some ib => .ok () { st with ibuf := ib, used := st.used + 1 }
  else
    (do
      pushBlockW w env c
      let st ← M.get
      let ib ← M.orRaise .invalidArg (bytesSet st.ibuf 0 ch)
      M.modify fun st => { st with ibuf := ib, used := 1 }) st

/-- `cipher#flush`, src/cryptokit.ml:822-830. -/
def cipherFlushW (w : Nat) (env : Env) (c : BlockCipher σ) : M (CipherSt σ) Unit := fun st =>
  if st.used = 0 then .ok () st
  else if st.used = c.blocksize then
    (do
      pushBlockW w env c
      M.modify fun st => { st with used := 0 }) st
  else .exn (.error .wrongDataLength) st

/-- Class `cipher` (`Block.cipher`), src/cryptokit.ml:770-834. -/
def blockTransformW (w : Nat) (env : Env) (c : BlockCipher σ) : Transform (CipherSt σ) :=
  { blockTransform env c with
    putSubstring := fun src ofs len => cipherPutSubstringW w env c src ofs len
    putString := fun s => cipherPutSubstringW w env c s 0 s.length
    putChar := cipherPutCharW w env c
    putByte := fun b => cipherPutCharW w env c (BitVec.ofInt 8 b)
    flush := cipherFlushW w env c
    finish := cipherFlushW w env c }

/-! ### Padded ciphers -/

/-- `cipher_padded_encrypt#finish`, src/cryptokit.ml:845-855. -/
def paddedEncryptFinishW (w : Nat) (env : Env) (p : PadScheme) (c : BlockCipher σ) : M (CipherSt σ) Unit := do
  let st ← M.get
  if st.used ≥ c.blocksize then
    pushBlockW w env c
    M.modify fun st => { st with used := 0 }
  let st ← M.get
  let ib ← ofExcept (p.pad st.ibuf st.used)
  M.modify fun st => { st with ibuf := ib }
  pushBlockW w env c

/-- Class `cipher_padded_encrypt`, src/cryptokit.ml:838-856. -/
def paddedEncryptW (w : Nat) (env : Env) (p : PadScheme) (c : BlockCipher σ) : Transform (CipherSt σ) :=
  { blockTransformW w env c with finish := paddedEncryptFinishW w env p c }

/-- `cipher_padded_decrypt#finish`, src/cryptokit.ml:865-871. -/
def paddedDecryptFinishW (w : Nat) (env : Env) (p : PadScheme) (c : BlockCipher σ) : M (CipherSt σ) Unit := do
  let st ← M.get
  if st.used ≠ c.blocksize then M.raise (.error .wrongDataLength)
  callIbuf c
  let st ← M.get
  let valid ← ofExcept (p.strip st.ibuf)
  CipherSt.onBuf (OBuf.ensureCapacityW w env valid)
  let st ← M.get
  let b ← M.orRaise .invalidArg (bytesBlit st.ibuf 0 st.ob.obuf st.ob.oend valid)
  M.modify fun st => { st with ob := { st.ob with obuf := b, oend := st.ob.oend + valid } }

/-- Class `cipher_padded_decrypt`, src/cryptokit.ml:858-872. -/
def paddedDecryptW (w : Nat) (env : Env) (p : PadScheme) (c : BlockCipher σ) : Transform (CipherSt σ) :=
  { blockTransformW w env c with finish := paddedDecryptFinishW w env p c }

/-! ### `Block.mac` -/

/-- `mac#add_substring`, src/cryptokit.ml:884-901. For `ofs + n` and `len - n`, see
`cipherPutSubstringW`. -/
def macAddSubstringW (w : Nat) (c : BlockCipher σ) (src : Bytes) (ofs len : Int) (st : MacSt σ) :
    Out (MacSt σ) Unit :=
  if len ≤ 0 then .ok () st
  else if wrapInt w ((st.used : Int) + len) ≤ c.blocksize then
    match bytesBlit src ofs st.buffer st.used len with
    | none => .exn .invalidArg st
    | some b => .ok () { st with buffer := b, used := st.used + len.toNat }
  else
    let n : Int := (c.blocksize : Int) - st.used
    match _h : bytesBlit src ofs st.buffer st.used n with
    | none => .exn .invalidArg st
    | some b =>
      match macBlock c { st with buffer := b } with
      | .ok () st' =>
        if _hb : c.blocksize = 0 then .loop
        else macAddSubstringW w c src (ofs + n) (len - n) { st' with used := 0 }
      | .exn e st' => .exn e st'
      | .ub => .ub
      | .loop => .loop
termination_by len.toNat * 2 + (if st.used = 0 then 0 else 1)
decreasing_by
  have := bytesBlit_len_nonneg _h
  simp only [if_true, Nat.add_zero]
  split <;> omega

/-- Class `mac`, src/cryptokit.ml:876-942. -/
def macW (w : Nat) (c : BlockCipher σ) (pad : Option PadScheme) : HashObj (MacSt σ) :=
  { mac c pad with
    addSubstring := macAddSubstringW w c
    addString := fun s => macAddSubstringW w c s 0 s.length }

/-- Class `mac_final_triple`, src/cryptokit.ml:944-959: the methods inherited from `mac` that take
offsets and lengths. -/
def macFinalTripleW (w : Nat) (c1 : BlockCipher σ) (c2 : BlockCipher σ2) (c3 : BlockCipher σ3)
    (pad : Option PadScheme) : HashObj (Mac3St σ σ2 σ3) :=
  { macFinalTriple c1 c2 c3 pad with
    addSubstring := fun src ofs len => Mac3St.onMac (macAddSubstringW w c1 src ofs len)
    addString := fun s => Mac3St.onMac (macAddSubstringW w c1 s 0 s.length) }

/-- Class `cmac`, src/cryptokit.ml:963-981: the methods inherited from `mac` that take offsets and
lengths. -/
def cmacW (w : Nat) (c : BlockCipher σ) : HashObj (CmacSt σ) :=
  { cmac c with
    addSubstring := fun src ofs len => CmacSt.onMac (macAddSubstringW w c src ofs len)
    addString := fun s => CmacSt.onMac (macAddSubstringW w c s 0 s.length) }

/-! ### AES-GCM -/

/-- `aes_gcm_encrypt#finish_and_get_tag`, the last block: src/cryptokit.ml:1653-1664. -/
def gcmEncLastW (w : Nat) (env : Env) (aes : BlockCipher κ) : M (CipherSt (GcmSt κ)) Unit := do
  let st ← M.get
  if st.used > 0 then
    CipherSt.onBuf (OBuf.ensureCapacityW w env st.used)
    let st ← M.get
    gcmOnOut (ctrEncDec aes (.other st.ibuf) 0 st.ob.oend st.used)
    let st ← M.get
    gcmOnOut (gcmHash st.ob.obuf st.ob.oend st.used)
    M.modify fun st => { st with ob := { st.ob with oend := st.ob.oend + st.used } }
    gcmOnOut (gcmCount (BitVec.ofNat 64 st.used))
    gcmOnOut gcmCheck

/-- `aes_gcm_encrypt#finish_and_get_tag`, src/cryptokit.ml:1652-1665. -/
def gcmEncFinishW (w : Nat) (env : Env) (aes : BlockCipher κ) : M (CipherSt (GcmSt κ)) Bytes := do
  gcmEncLastW w env aes
  gcmTag env

/-- `aes_gcm_decrypt#finish_and_get_tag`, the last block: src/cryptokit.ml:1705-1715. -/
def gcmDecLastW (w : Nat) (env : Env) (aes : BlockCipher κ) : M (CipherSt (GcmSt κ)) Unit := do
  let st ← M.get
  if st.used > 0 then
    gcmOnOut (gcmHash st.ibuf 0 st.used)
    CipherSt.onBuf (OBuf.ensureCapacityW w env st.used)
    let st ← M.get
    gcmOnOut (ctrEncDec aes (.other st.ibuf) 0 st.ob.oend st.used)
    M.modify fun st => { st with ob := { st.ob with oend := st.ob.oend + st.used } }
    gcmOnOut (gcmCount (BitVec.ofNat 64 st.used))

/-- `aes_gcm_decrypt#finish_and_get_tag`, src/cryptokit.ml:1704-1716. -/
def gcmDecFinishW (w : Nat) (env : Env) (aes : BlockCipher κ) : M (CipherSt (GcmSt κ)) Bytes := do
  gcmDecLastW w env aes
  gcmTag env

/-- `aes_gcm`, src/cryptokit.ml:1718-1721. -/
def aesGcmW (w : Nat) (env : Env) (aes : BlockCipher κ) : Dir → AuthTransform (CipherSt (GcmSt κ))
  | .encrypt => ⟨blockTransformW w env (gcmEncWrapped aes), 16, gcmEncFinishW w env aes⟩
  | .decrypt => ⟨blockTransformW w env (gcmDecWrapped aes), 16, gcmDecFinishW w env aes⟩

/-- `chacha20_poly1305`, src/cryptokit.ml:1804-1807. The lengths given to the wrapped cipher have
been checked by `Stream.cipher`'s `transform` (encryption); in decryption they go first to the C
stub `poly1305_update`. -/
def chacha20Poly1305W (w : Nat) (env : Env) (ivLength : Nat) : Dir → AuthTransform (StreamSt ChaPolySt)
  | .encrypt => ⟨streamTransformW w env (chapolyEnc ivLength), 16, chapolyFinish env⟩
  | .decrypt => ⟨streamTransformW w env chapolyDec, 16, chapolyFinish env⟩

/-! ### `Base64`, `Hexa` -/

/-- `put_substring` of the encoders and decoders,
`for i = ofs to ofs + len - 1 do self#put_char (Bytes.get s i) done`,
src/cryptokit.ml:2279-2280, 2368-2369, 2422-2423, 2467-2468. -/
def putLoopW (w : Nat) (put : Byte → M τ Unit) (s : Bytes) (ofs len : Int) : M τ Unit :=
  putLoop put s ofs (wrapInt w (wrapInt w (ofs + len) - 1) - ofs + 1).toNat

end Verif
