import Verif.Model.Stream
import Verif.Model.Ghash
import Verif.Model.Poly1305
/-
Authenticated transforms, src/cryptokit.ml:271-315, and module `AEAD`,
src/cryptokit.ml:1531-1807.
-/
namespace Verif

/-- Class type `authenticated_transform`, src/cryptokit.ml:271-292. The put and get methods are
those of `base`; the methods `finish` and `flush` of `base` are not part of the class type. -/
structure AuthTransform (τ : Type) where
  base : Transform τ
  tagSize : Nat
  finishAndGetTag : M τ Bytes

/-- `auth_transform_string_detached`, src/cryptokit.ml:294-299. -/
def authTransformStringDetached (tr : AuthTransform τ) (s : Bytes) : M τ (Bytes × Bytes) := do
  tr.base.putString s
  let tag ← tr.finishAndGetTag
  let txt ← tr.base.getString
  tr.base.wipe
  pure (txt, tag)

/-- `auth_transform_string`, src/cryptokit.ml:301-303. -/
def authTransformString (tr : AuthTransform τ) (s : Bytes) : M τ Bytes := do
  let (txt, tag) ← authTransformStringDetached tr s
  pure (txt ++ tag)

/-- `auth_check_transform_string`, src/cryptokit.ml:305-315. -/
def authCheckTransformString (tr : AuthTransform τ) (s : Bytes) : M τ (Option Bytes) := do
  let ls := s.length
  let lt := tr.tagSize
  if ls < lt then M.raise (.error .wrongDataLength)
  let s1 ← M.orRaise .invalidArg (bytesSub s 0 ((ls : Int) - lt))
  tr.base.putString s1
  let tag ← tr.finishAndGetTag
  let s2 ← M.orRaise .invalidArg (bytesSub s ((ls : Int) - lt) lt)
  let (eq, _) ← M.orRaise .invalidArg (seqEqual tag s2)
  let res ← if eq then some <$> tr.base.getString else pure none
  tr.base.wipe
  pure res

/-! ### AES-GCM -/

/-- The variables bound by `aes_gcm_encrypt` and `aes_gcm_decrypt`, src/cryptokit.ml:1618-1638,
1669-1689; `aes` is the state of the block cipher. -/
structure GcmSt (κ : Type) where
  aes : κ
  h : GhashKey
  ctr : Bytes
  e0 : Bytes
  mac : Bytes
  headerlen : W64
  cipherlen : W64
  buf : Bytes

/-- `ghash_block`, `ghash_block_s`, src/cryptokit.ml:1553-1559, on the current value of `mac`. -/
def ghashBlock (h : GhashKey) (mac buf : Bytes) (ofs len : Int) : Option Bytes := do
  let mac ← xorC (.other buf) ofs mac 0 len
  cGhashMult h mac

/-- The loop of `ghash_string`, src/cryptokit.ml:1568-1572, and the last block. -/
def ghashStringLoop (h : GhashKey) (msg : Bytes) (i : Nat) (mac : Bytes) : Option Bytes :=
  if i + 16 ≤ msg.length then
    match ghashBlock h mac msg i 16 with
    | none => none
    | some mac => ghashStringLoop h msg (i + 16) mac
  else if i < msg.length then ghashBlock h mac msg i ((msg.length : Int) - i)
  else some mac
termination_by msg.length - i

/-- `ghash_string`, src/cryptokit.ml:1564-1573. -/
def ghashString (h : GhashKey) (msg : Bytes) : Option Bytes :=
  ghashStringLoop h msg 0 (List.replicate 16 0)

/-- `Bytes.set_int64_be b ofs x` (OCaml standard library).
Used at src/cryptokit.ml:1580-1581, 1596. -/
def setInt64BE (b : Bytes) (ofs : Nat) (x : W64) : Option Bytes := bytesBlit (toBE64 x) 0 b ofs 8

/-- `Bytes.set_int64_le b ofs x` (OCaml standard library). Used at src/cryptokit.ml:1742-1743. -/
def setInt64LE (b : Bytes) (ofs : Nat) (x : W64) : Option Bytes := bytesBlit (toLE64 x) 0 b ofs 8

/-- `ghash_final`, src/cryptokit.ml:1577-1586; also returns the final `mac`. -/
def ghashFinal (env : Env) (h : GhashKey) (mac : Bytes) (headerlen cipherlen : W64) (e0 : Bytes) :
    M σ (Bytes × Bytes) := do
  let buf ← M.orRaise .invalidArg (setInt64BE (env.create 16) 0 (headerlen * 8))
  let buf ← M.orRaise .invalidArg (setInt64BE buf 8 (cipherlen * 8))
  let mac ← M.orUB (ghashBlock h mac buf 0 16)
  let buf ← M.orRaise .invalidArg (bytesBlit mac 0 buf 0 16)
  let buf ← M.orUB (xorC (.other e0) 0 buf 0 16)
  pure (mac, buf)

/-- `counter0`, src/cryptokit.ml:1590-1599. -/
def counter0 (h : GhashKey) (iv : Bytes) : M σ Bytes :=
  if iv.length = 12 then pure (iv ++ [0, 0, 0, 1])
  else do
    let mac ← M.orUB (ghashString h iv)
    let buf ← M.orRaise .invalidArg
      (setInt64BE (List.replicate 16 0) 8 (BitVec.ofNat 64 iv.length * 8))
    M.orUB (ghashBlock h mac buf 0 16)

/-- `aes#transform src 0 b 0` on a local buffer `b`; returns the new contents of `b`.
src/cryptokit.ml:1545, 1605, 1612. -/
def blockLocal (aes : BlockCipher κ) (src : Src) (b : Bytes) : M κ Bytes := fun k =>
  match aes.transform src 0 0 (k, b) with
  | .ok () (k', b') => .ok b' k'
  | .exn e (k', _) => .exn e k'
  | .ub => .ub
  | .loop => .loop

/-- The local definitions of `aes_gcm_encrypt` / `aes_gcm_decrypt`, src/cryptokit.ml:1617-1638,
1668-1688, with `ghash_multiplier` (1542-1545) and `enc_initial_counter` (1603-1606). `pclmul`:
whether the processor has the instruction. `aes` is the object `new Block.aes_encrypt key`. -/
def gcmInit (env : Env) (pclmul : Bool) (aes : BlockCipher κ) (header iv : Bytes) :
    M κ (GcmSt κ) := do
  let b ← blockLocal aes .self (List.replicate 16 0)
  let h ← M.orUB (cGhashInit pclmul b)
  let ctr ← counter0 h iv
  let e0 ← blockLocal aes (.other ctr) (env.create 16)
  let mac ← M.orUB (ghashString h header)
  let k ← M.get
  pure { aes := k, h := h, ctr := ctr, e0 := e0, mac := mac,
         headerlen := BitVec.ofNat 64 header.length, cipherlen := 0, buf := env.create 16 }

/-- `ctr_enc_dec aes ctr buf src soff dst doff len`, src/cryptokit.ml:1610-1614. The buffer `buf`
is the component of that name (the local buffer of `finish_and_get_tag`, 1654, 1706, whose
contents are overwritten before they are used, is not distinguished from that of the wrapper). -/
def ctrEncDec (aes : BlockCipher κ) (src : Src) (so dofs len : Int) : M (GcmSt κ × Bytes) Unit := do
  let (st, _) ← M.get
  let ctr ← M.orRaise .invalidArg (incrementCounter st.ctr 12 16)
  M.modify fun p => ({ p.1 with ctr := ctr }, p.2)
  M.zoom (fun p : GcmSt κ × Bytes => (p.1.aes, p.1.buf))
    (fun r p => ({ p.1 with aes := r.1, buf := r.2 }, p.2)) (aes.transform (.other ctr) 0 0)
  let (st, dst) ← M.get
  let buf ← M.orUB (xorC (.other (src.read dst)) so st.buf 0 len)
  M.modify fun p => ({ p.1 with buf := buf }, p.2)
  let dst ← M.orRaise .invalidArg (bytesBlit buf 0 dst dofs len)
  M.modify fun p => (p.1, dst)

/-- `ghash_block h mac b ofs len` on the variable `mac`. src/cryptokit.ml:1642, 1658, 1692, 1705. -/
def gcmHash (b : Bytes) (ofs len : Int) : M (GcmSt κ × Bytes) Unit := do
  let (st, _) ← M.get
  let mac ← M.orUB (ghashBlock st.h st.mac b ofs len)
  M.modify fun p => ({ p.1 with mac := mac }, p.2)

/-- `cipherlen := Int64.add !cipherlen n`. src/cryptokit.ml:1643, 1660, 1694, 1710. -/
def gcmCount (n : W64) : M (GcmSt κ × Bytes) Unit :=
  M.modify fun p => ({ p.1 with cipherlen := p.1.cipherlen + n }, p.2)

/-- `if !cipherlen > 0xfffffffe0L then raise (Error Message_too_long)`; the comparison of boxed
`int64` is signed. src/cryptokit.ml:1644, 1661. -/
def gcmCheck : M (GcmSt κ × Bytes) Unit := do
  let (st, _) ← M.get
  if st.cipherlen.toInt > 0xfffffffe0 then M.raise (.error .messageTooLong)

/-- `enc_wrapped`, src/cryptokit.ml:1639-1648. -/
def gcmEncWrapped (aes : BlockCipher κ) : BlockCipher (GcmSt κ) where
  blocksize := 16
  transform src so dofs := do
    ctrEncDec aes src so dofs 16
    let (_, dst) ← M.get
    gcmHash dst dofs 16
    gcmCount 16
    gcmCheck
  wipe st := { st with aes := aes.wipe st.aes }

/-- `dec_wrapped`, src/cryptokit.ml:1690-1698. -/
def gcmDecWrapped (aes : BlockCipher κ) : BlockCipher (GcmSt κ) where
  blocksize := 16
  transform src so dofs := do
    let (_, dst) ← M.get
    gcmHash (src.read dst) so 16
    ctrEncDec aes src so dofs 16
    gcmCount 16
  wipe st := { st with aes := aes.wipe st.aes }

/-- Run code on the variables and `obuf`.
For src/cryptokit.ml:1651-1664, 1701-1713, where methods use both. -/
def gcmOnOut (m : M (GcmSt κ × Bytes) α) : M (CipherSt (GcmSt κ)) α :=
  M.zoom (fun st => (st.c, st.ob.obuf))
    (fun r st => { st with c := r.1, ob := { st.ob with obuf := r.2 } }) m

/-- `ghash_final h mac headerlen !cipherlen e0`. src/cryptokit.ml:1664, 1713. -/
def gcmTag (env : Env) : M (CipherSt (GcmSt κ)) Bytes := do
  let st ← M.get
  let (mac, tag) ← ghashFinal env st.c.h st.c.mac st.c.headerlen st.c.cipherlen st.c.e0
  M.modify fun st => { st with c := { st.c with mac := mac } }
  pure tag

/-- `aes_gcm_encrypt#finish_and_get_tag`, the last block: src/cryptokit.ml:1653-1664. -/
def gcmEncLast (env : Env) (aes : BlockCipher κ) : M (CipherSt (GcmSt κ)) Unit := do
  let st ← M.get
  if st.used > 0 then
    CipherSt.onBuf (OBuf.ensureCapacity env st.used)
    let st ← M.get
    gcmOnOut (ctrEncDec aes (.other st.ibuf) 0 st.ob.oend st.used)
    let st ← M.get
    gcmOnOut (gcmHash st.ob.obuf st.ob.oend st.used)
    M.modify fun st => { st with ob := { st.ob with oend := st.ob.oend + st.used } }
    gcmOnOut (gcmCount (BitVec.ofNat 64 st.used))
    gcmOnOut gcmCheck

/-- `aes_gcm_encrypt#finish_and_get_tag`, src/cryptokit.ml:1652-1665. -/
def gcmEncFinish (env : Env) (aes : BlockCipher κ) : M (CipherSt (GcmSt κ)) Bytes := do
  gcmEncLast env aes
  gcmTag env

/-- `aes_gcm_decrypt#finish_and_get_tag`, the last block: src/cryptokit.ml:1705-1715. -/
def gcmDecLast (env : Env) (aes : BlockCipher κ) : M (CipherSt (GcmSt κ)) Unit := do
  let st ← M.get
  if st.used > 0 then
    gcmOnOut (gcmHash st.ibuf 0 st.used)
    CipherSt.onBuf (OBuf.ensureCapacity env st.used)
    let st ← M.get
    gcmOnOut (ctrEncDec aes (.other st.ibuf) 0 st.ob.oend st.used)
    M.modify fun st => { st with ob := { st.ob with oend := st.ob.oend + st.used } }
    gcmOnOut (gcmCount (BitVec.ofNat 64 st.used))

/-- `aes_gcm_decrypt#finish_and_get_tag`, src/cryptokit.ml:1704-1716. -/
def gcmDecFinish (env : Env) (aes : BlockCipher κ) : M (CipherSt (GcmSt κ)) Bytes := do
  gcmDecLast env aes
  gcmTag env

/-- Type `direction`, src/cryptokit.ml:1533-1535. -/
inductive Dir where
  | encrypt
  | decrypt
  deriving DecidableEq

/-- `aes_gcm`, src/cryptokit.ml:1718-1721: the methods of the object. -/
def aesGcm (env : Env) (aes : BlockCipher κ) : Dir → AuthTransform (CipherSt (GcmSt κ))
  | .encrypt => ⟨blockTransform env (gcmEncWrapped aes), 16, gcmEncFinish env aes⟩
  | .decrypt => ⟨blockTransform env (gcmDecWrapped aes), 16, gcmDecFinish env aes⟩

/-- `aes_gcm ~header ~iv key dir`, src/cryptokit.ml:1718-1721: construction of the object, from
the state `k` of `new Block.aes_encrypt key`. -/
def aesGcmInit (env : Env) (pclmul : Bool) (aes : BlockCipher κ) (k : κ) (header iv : Bytes) :
    Out κ (CipherSt (GcmSt κ)) :=
  match gcmInit env pclmul aes header iv k with
  | .ok st k' => .ok (cipherInit env (gcmEncWrapped aes) st) k'
  | .exn e k' => .exn e k'
  | .ub => .ub
  | .loop => .loop

/-! ### ChaCha20-Poly1305 -/

/-- The variables bound by `chapoly_encrypt` and `chapoly_decrypt`, src/cryptokit.ml:1751-1759,
1779-1785. -/
structure ChaPolySt where
  cha : ChaCha
  h : PolyCtx
  headerlen : W64
  cipherlen : W64

/-- `poly1305_update h src ofs len`, src/stubs-poly1305.c:30-34: no check of `ofs` and `len`. -/
def polyUpdate (h : PolyCtx) (src : Bytes) (ofs len : Int) : Option PolyCtx :=
  if len < 0 then none
  else
    match cRead src ofs len.toNat with
    | none => none
    | some m => poly64Update h m

/-- `poly1305_update_pad`, src/cryptokit.ml:1725-1727, for `0 <= n < 16`. -/
def polyUpdatePad (h : PolyCtx) (n : Nat) : Option PolyCtx :=
  let n := (0x10 - n) % 16
  if n > 0 then polyUpdate h (List.replicate n 0) 0 n else some h

/-- `cha#transform b 0 b 0 64` on a local buffer `b` (src/cryptokit.ml:1731); returns the new
contents of `b`. -/
def chachaLocal (b : Bytes) : M ChaCha Bytes := fun cha =>
  match chacha20.transform .self 0 0 64 (cha, b) with
  | .ok () (cha', b) => .ok b cha'
  | .exn e (cha', _) => .exn e cha'
  | .ub => .ub
  | .loop => .loop

/-- `poly1305_init_hash`, src/cryptokit.ml:1729-1737. -/
def polyInitHash (env : Env) (header : Bytes) : M ChaCha PolyCtx := do
  let buf ← chachaLocal (List.replicate 64 0)
  let h := poly64Init (buf.take 32) (env.create 16)
  let h ← M.orUB (polyUpdate h header 0 header.length)
  M.orUB (polyUpdatePad h (header.length % 16))

/-- `poly1305_finish_and_get_tag`, src/cryptokit.ml:1739-1748. -/
def polyFinishAndGetTag (env : Env) : M ChaPolySt Bytes := do
  let st ← M.get
  let h ← M.orUB (polyUpdatePad st.h (st.cipherlen.toNat % 16))
  let buf ← M.orRaise .invalidArg (setInt64LE (env.create 16) 0 st.headerlen)
  let buf ← M.orRaise .invalidArg (setInt64LE buf 8 st.cipherlen)
  let h ← M.orUB (polyUpdate h buf 0 16)
  let (tag, h) ← M.orUB (poly64Final h)
  M.modify fun st => { st with h := h }
  pure tag

/-- The variables of `chapoly_encrypt` and `chapoly_decrypt`: src/cryptokit.ml:1752-1757,
1780-1785. -/
def chapolyInit (env : Env) (header iv key : Bytes) : Out Unit ChaPolySt :=
  match chacha20Init env key (some iv) none with
  | .error e => .exn e ()
  | .ok cha =>
    match polyInitHash env header cha with
    | .ok h cha => .ok ⟨cha, h, BitVec.ofNat 64 header.length, 0⟩ ()
    | .exn e _ => .exn e ()
    | .ub => .ub
    | .loop => .loop

/-- `cha#transform` from inside the wrapper. src/cryptokit.ml:1762, 1790. -/
def chapolyCha (src : Src) (so dofs len : Int) : M (ChaPolySt × Bytes) Unit :=
  M.zoom (fun p : ChaPolySt × Bytes => (p.1.cha, p.2)) (fun r p => ({ p.1 with cha := r.1 }, r.2))
    (chacha20.transform src so dofs len)

/-- `poly1305_update h b ofs len` from inside the wrapper. src/cryptokit.ml:1763, 1789. -/
def chapolyHash (b : Bytes) (ofs len : Int) : M (ChaPolySt × Bytes) Unit := do
  let (st, _) ← M.get
  let h ← M.orUB (polyUpdate st.h b ofs len)
  M.modify fun p => ({ p.1 with h := h }, p.2)

/-- `cipherlen := Int64.(add !cipherlen (of_int len))`. src/cryptokit.ml:1764, 1791. -/
def chapolyCount (len : Int) : M (ChaPolySt × Bytes) Unit :=
  M.modify fun p => ({ p.1 with cipherlen := p.1.cipherlen + BitVec.ofInt 64 len }, p.2)

/-- `wipe`: `cha#wipe; wipe_bytes h`, src/cryptokit.ml:1766-1767, 1792-1793. -/
def chapolyWipe (st : ChaPolySt) : ChaPolySt :=
  { st with cha := st.cha.wipe,
            h := { h := ⟨0, 0, 0, 0, 0, 0, 0, 0, false⟩, numbytes := 0,
                   buffer := wipeBytes st.h.buffer } }

/-- `maxlen`, src/cryptokit.ml:1758-1759. -/
def chapolyMaxlen (ivLength : Nat) : Int :=
  if ivLength = 12 then 0x4000000000 else 2 ^ 63 - 1

/-- The stream cipher of `chapoly_encrypt`, src/cryptokit.ml:1761-1768. -/
def chapolyEnc (ivLength : Nat) : StreamCipher ChaPolySt where
  transform src so dofs len := do
    chapolyCha src so dofs len
    let (_, dst) ← M.get
    chapolyHash dst dofs len
    chapolyCount len
    let (st, _) ← M.get
    if st.cipherlen.toInt > chapolyMaxlen ivLength then M.raise (.error .messageTooLong)
  wipe := chapolyWipe

/-- The stream cipher of `chapoly_decrypt`, src/cryptokit.ml:1787-1794. -/
def chapolyDec : StreamCipher ChaPolySt where
  transform src so dofs len := do
    let (_, dst) ← M.get
    chapolyHash (src.read dst) so len
    chapolyCha src so dofs len
    chapolyCount len
  wipe := chapolyWipe

/-- `finish_and_get_tag`, src/cryptokit.ml:1774-1775, 1800-1801. -/
def chapolyFinish (env : Env) : M (StreamSt ChaPolySt) Bytes :=
  M.zoom (·.c) (fun c st => { st with c := c }) (polyFinishAndGetTag env)

/-- `chacha20_poly1305`, src/cryptokit.ml:1804-1807: the methods of the object. -/
def chacha20Poly1305 (env : Env) (ivLength : Nat) : Dir → AuthTransform (StreamSt ChaPolySt)
  | .encrypt => ⟨streamTransform env (chapolyEnc ivLength), 16, chapolyFinish env⟩
  | .decrypt => ⟨streamTransform env chapolyDec, 16, chapolyFinish env⟩

/-- `chacha20_poly1305 ~header ~iv key dir`, src/cryptokit.ml:1804-1807: construction of the
object. -/
def chacha20Poly1305Init (env : Env) (header iv key : Bytes) : Out Unit (StreamSt ChaPolySt) :=
  match chapolyInit env header iv key with
  | .ok st _ => .ok (streamInit env st) ()
  | .exn e _ => .exn e ()
  | .ub => .ub
  | .loop => .loop

end Verif
