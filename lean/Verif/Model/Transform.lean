import Verif.Model.OBuf
import Verif.Model.Block
import Verif.Model.Padding
/-
Class type `transform` and the block-cipher transforms, src/cryptokit.ml:139-162 and
768-872.
-/
namespace Verif

/-- Class type `transform`, src/cryptokit.ml:141-162, with object state `τ`
(`input_block_size` and `output_block_size` are omitted: they are constants that no
other code consults). -/
structure Transform (τ : Type) where
  putSubstring : Bytes → Int → Int → M τ Unit
  putString : Bytes → M τ Unit
  putChar : Byte → M τ Unit
  putByte : Int → M τ Unit
  flush : M τ Unit
  finish : M τ Unit
  availableOutput : M τ Int
  getString : M τ Bytes
  getSubstring : M τ (Bytes × Int × Int)
  getChar : M τ Byte
  getByte : M τ Int
  wipe : M τ Unit

/-- State of class `cipher`, src/cryptokit.ml:770-776. -/
structure CipherSt (σ : Type) where
  c : σ
  ibuf : Bytes
  used : Nat
  ob : OBuf

namespace CipherSt

/-- Run a method inherited from `buffered_output`. src/cryptokit.ml:772. -/
def onBuf (m : M OBuf α) : M (CipherSt σ) α :=
  M.zoom (·.ob) (fun o t => { t with ob := o }) m

/-- `cipher#transform ibuf 0 obuf oend`. src/cryptokit.ml:789, 811. -/
def callOut (c : BlockCipher σ) : M (CipherSt σ) Unit := fun st =>
  match c.transform (.other st.ibuf) 0 st.ob.oend (st.c, st.ob.obuf) with
  | .ok () (s, b) => .ok () { st with c := s, ob := { st.ob with obuf := b } }
  | .exn e (s, b) => .exn e { st with c := s, ob := { st.ob with obuf := b } }
  | .ub => .ub
  | .loop => .loop

/-- `self#ensure_capacity blocksize; cipher#transform ibuf 0 obuf oend;
oend <- oend + blocksize`, src/cryptokit.ml:791-793, 807-809, 825-828, 847-849, 853-855. -/
def pushBlock (env : Env) (c : BlockCipher σ) : M (CipherSt σ) Unit := do
  onBuf (OBuf.ensureCapacity env c.blocksize)
  callOut c
  M.modify fun st => { st with ob := { st.ob with oend := st.ob.oend + c.blocksize } }

end CipherSt

open CipherSt

theorem bytesBlit_len_nonneg {src : Bytes} {so : Int} {dst : Bytes} {dofs n : Int} {b : Bytes}
    (h : bytesBlit src so dst dofs n = some b) : 0 ≤ n := by
  unfold bytesBlit at h
  split at h
  · rename_i h'; exact h'.1.1
  · simp at h

/-- `new cipher cipher`, src/cryptokit.ml:770-776. -/
def cipherInit (env : Env) (c : BlockCipher σ) (s : σ) : CipherSt σ :=
  { c := s, ibuf := env.create c.blocksize, used := 0,
    ob := OBuf.init env (max 256 (2 * c.blocksize)) }

/-- `cipher#put_substring`, src/cryptokit.ml:781-797. (A block size of 0 would make the
real method loop.) -/
def cipherPutSubstring (env : Env) (c : BlockCipher σ) (src : Bytes) (ofs len : Int)
    (st : CipherSt σ) : Out (CipherSt σ) Unit :=
  if len ≤ 0 then .ok () st
  else if (st.used : Int) + len ≤ c.blocksize then
    match bytesBlit src ofs st.ibuf st.used len with
    | none => .exn .invalidArg st
    | some ib => .ok () { st with ibuf := ib, used := st.used + len.toNat }
  else
    let n : Int := (c.blocksize : Int) - st.used
    match _h : bytesBlit src ofs st.ibuf st.used n with
    | none => .exn .invalidArg st
    | some ib =>
      match pushBlock env c { st with ibuf := ib } with
      | .ok () st' =>
        if _hb : c.blocksize = 0 then .loop
        else cipherPutSubstring env c src (ofs + n) (len - n) { st' with used := 0 }
      | .exn e st' => .exn e st'
      | .ub => .ub
      | .loop => .loop
termination_by len.toNat * 2 + (if st.used = 0 then 0 else 1)
decreasing_by
  have := bytesBlit_len_nonneg _h
  simp only [if_true, Nat.add_zero]
  split <;> omega

/-- `cipher#put_char`, src/cryptokit.ml:802-812. -/
def cipherPutChar (env : Env) (c : BlockCipher σ) (ch : Byte) : M (CipherSt σ) Unit := fun st =>
  if st.used < c.blocksize then
    match bytesSet st.ibuf st.used ch with
    | none => .exn .invalidArg st
    | some ib => .ok () { st with ibuf := ib, used := st.used + 1 }
  else
    (do
      pushBlock env c
      let st ← M.get
      let ib ← M.orRaise .invalidArg (bytesSet st.ibuf 0 ch)
      M.modify fun st => { st with ibuf := ib, used := 1 }) st

/-- `cipher#flush`, src/cryptokit.ml:822-830. -/
def cipherFlush (env : Env) (c : BlockCipher σ) : M (CipherSt σ) Unit := fun st =>
  if st.used = 0 then .ok () st
  else if st.used = c.blocksize then
    (do
      pushBlock env c
      M.modify fun st => { st with used := 0 }) st
  else .exn (.error .wrongDataLength) st

/-- `cipher#wipe`, src/cryptokit.ml:817-820. -/
def cipherWipe (c : BlockCipher σ) : M (CipherSt σ) Unit := do
  M.modify fun st => { st with c := c.wipe st.c }
  onBuf OBuf.wipe
  M.modify fun st => { st with ibuf := wipeBytes st.ibuf }

/-- Class `cipher` (`Block.cipher`), src/cryptokit.ml:770-834. `Bytes.unsafe_of_string`
is the identity on contents; `Char.unsafe_chr b` keeps the low 8 bits. -/
def blockTransform (env : Env) (c : BlockCipher σ) : Transform (CipherSt σ) where
  putSubstring src ofs len := cipherPutSubstring env c src ofs len
  putString s := cipherPutSubstring env c s 0 s.length
  putChar := cipherPutChar env c
  putByte b := cipherPutChar env c (BitVec.ofInt 8 b)
  flush := cipherFlush env c
  finish := cipherFlush env c
  availableOutput := onBuf OBuf.availableOutput
  getString := onBuf OBuf.getString
  getSubstring := onBuf OBuf.getSubstring
  getChar := onBuf OBuf.getChar
  getByte := onBuf OBuf.getByte
  wipe := cipherWipe c

/-- Lift the padding methods. src/cryptokit.ml:838-872. -/
def ofExcept (e : Except Exn α) : M σ α :=
  match e with
  | .ok a => M.pure a
  | .error e => M.raise e

/-- `cipher_padded_encrypt#finish`, src/cryptokit.ml:845-855. -/
def paddedEncryptFinish (env : Env) (p : PadScheme) (c : BlockCipher σ) : M (CipherSt σ) Unit := do
  let st ← M.get
  if st.used ≥ c.blocksize then
    pushBlock env c
    M.modify fun st => { st with used := 0 }
  let st ← M.get
  let ib ← ofExcept (p.pad st.ibuf st.used)
  M.modify fun st => { st with ibuf := ib }
  pushBlock env c

/-- Class `cipher_padded_encrypt`, src/cryptokit.ml:838-856: as `cipher`, except `finish`. -/
def paddedEncrypt (env : Env) (p : PadScheme) (c : BlockCipher σ) : Transform (CipherSt σ) :=
  { blockTransform env c with finish := paddedEncryptFinish env p c }

/-- `cipher#transform ibuf 0 ibuf 0`, src/cryptokit.ml:867 (in place). -/
def callIbuf (c : BlockCipher σ) : M (CipherSt σ) Unit :=
  M.zoom (fun st => (st.c, st.ibuf)) (fun r st => { st with c := r.1, ibuf := r.2 })
    (c.transform .self 0 0)

/-- `cipher_padded_decrypt#finish`, src/cryptokit.ml:865-871. -/
def paddedDecryptFinish (env : Env) (p : PadScheme) (c : BlockCipher σ) : M (CipherSt σ) Unit := do
  let st ← M.get
  if st.used ≠ c.blocksize then M.raise (.error .wrongDataLength)
  callIbuf c
  let st ← M.get
  let valid ← ofExcept (p.strip st.ibuf)
  onBuf (OBuf.ensureCapacity env valid)
  let st ← M.get
  let b ← M.orRaise .invalidArg (bytesBlit st.ibuf 0 st.ob.obuf st.ob.oend valid)
  M.modify fun st => { st with ob := { st.ob with obuf := b, oend := st.ob.oend + valid } }

/-- Class `cipher_padded_decrypt`, src/cryptokit.ml:858-872: as `cipher`, except `finish`. -/
def paddedDecrypt (env : Env) (p : PadScheme) (c : BlockCipher σ) : Transform (CipherSt σ) :=
  { blockTransform env c with finish := paddedDecryptFinish env p c }

end Verif
