import Verif.Model.Interrupt
import Verif.Model.MacEntry
/-
The authenticated ciphers of src/cryptokit.ml:1538-1807, interrupted by asynchronous exceptions as in
Model/Interrupt.
-/
namespace Verif

/-! ### AES-GCM -/

instance [Ticking κ] : Ticking (GcmSt κ) where
  tick st := ((Ticking.tick st.aes).1, { st with aes := (Ticking.tick st.aes).2 })

section gcm

variable {κ : Type} [Ticking κ]

/-- `Block.increment_counter ctr 12 15`, src/cryptokit.ml:1611, with interruption points. The counter
takes the place of the variable `iv` in `incrementCounterI`. -/
def gcmIncrementI : M (GcmSt κ × Bytes) Unit :=
  M.zoom (fun p => ((⟨p.1.aes, p.1.ctr, p.1.buf⟩ : ModeSt κ), p.2))
    (fun r p => ({ p.1 with aes := r.1.c, ctr := r.1.iv }, r.2)) (incrementCounterI 12 16)

/-- `ctr_enc_dec`, src/cryptokit.ml:1610-1614, with interruption points. -/
def ctrEncDecI (aes : BlockCipher κ) (src : Src) (so dofs len : Int) : M (GcmSt κ × Bytes) Unit := do
  poll
  gcmIncrementI
  poll
  let (st, _) ← M.get
  M.zoom (fun p : GcmSt κ × Bytes => (p.1.aes, p.1.buf))
    (fun r p => ({ p.1 with aes := r.1, buf := r.2 }, p.2)) (aes.transform (.other st.ctr) 0 0)
  poll
  let (st, dst) ← M.get
  let buf ← M.orUB (xorC (.other (src.read dst)) so st.buf 0 len)
  M.modify fun p => ({ p.1 with buf := buf }, p.2)
  poll
  let (st, dst) ← M.get
  let dst ← M.orRaise .invalidArg (bytesBlit st.buf 0 dst dofs len)
  M.modify fun p => (p.1, dst)
  poll

/-- `ghash_block h mac b ofs len`, src/cryptokit.ml:1553-1555, on the variable `mac`, with interruption
points. -/
def gcmHashI (b : Bytes) (ofs len : Int) : M (GcmSt κ × Bytes) Unit := do
  poll
  let (st, _) ← M.get
  let mac ← M.orUB (xorC (.other b) ofs st.mac 0 len)
  M.modify fun p => ({ p.1 with mac := mac }, p.2)
  poll
  let (st, _) ← M.get
  let mac ← M.orUB (cGhashMult st.h st.mac)
  M.modify fun p => ({ p.1 with mac := mac }, p.2)
  poll

/-- `enc_wrapped`, src/cryptokit.ml:1639-1648, with interruption points. -/
def gcmEncWrappedI (aes : BlockCipher κ) : BlockCipher (GcmSt κ) where
  blocksize := 16
  transform src so dofs := do
    ctrEncDecI aes src so dofs 16
    let (_, dst) ← M.get
    gcmHashI dst dofs 16
    gcmCount 16
    poll
    gcmCheck
  wipe st := { st with aes := aes.wipe st.aes }

/-- `dec_wrapped`, src/cryptokit.ml:1690-1698, with interruption points. -/
def gcmDecWrappedI (aes : BlockCipher κ) : BlockCipher (GcmSt κ) where
  blocksize := 16
  transform src so dofs := do
    let (_, dst) ← M.get
    gcmHashI (src.read dst) so 16
    ctrEncDecI aes src so dofs 16
    gcmCount 16
    poll
  wipe st := { st with aes := aes.wipe st.aes }

/-- `ghash_final h mac headerlen !cipherlen e0`, src/cryptokit.ml:1577-1586, 1664, 1713, with
interruption points where `mac` changes (the rest is on a local buffer). -/
def gcmTagI (env : Env) : M (CipherSt (GcmSt κ)) Bytes := do
  poll
  let st ← M.get
  let buf ← M.orRaise .invalidArg (setInt64BE (env.create 16) 0 (st.c.headerlen * 8))
  let buf ← M.orRaise .invalidArg (setInt64BE buf 8 (st.c.cipherlen * 8))
  gcmOnOut (gcmHashI buf 0 16)
  let st ← M.get
  let buf ← M.orRaise .invalidArg (bytesBlit st.c.mac 0 buf 0 16)
  M.orUB (xorC (.other st.c.e0) 0 buf 0 16)

/-- `aes_gcm_encrypt#finish_and_get_tag`, the last block, src/cryptokit.ml:1653-1664, with interruption
points. -/
def gcmEncLastI (env : Env) (aes : BlockCipher κ) : M (CipherSt (GcmSt κ)) Unit := do
  poll
  let st ← M.get
  if st.used > 0 then
    onBufI (OBuf.ensureCapacityI env st.used)
    let st ← M.get
    gcmOnOut (ctrEncDecI aes (.other st.ibuf) 0 st.ob.oend st.used)
    let st ← M.get
    gcmOnOut (gcmHashI st.ob.obuf st.ob.oend st.used)
    M.modify fun st => { st with ob := { st.ob with oend := st.ob.oend + st.used } }
    poll
    gcmOnOut (gcmCount (BitVec.ofNat 64 st.used))
    poll
    gcmOnOut gcmCheck

/-- `aes_gcm_encrypt#finish_and_get_tag`, src/cryptokit.ml:1652-1665, with interruption points. -/
def gcmEncFinishI (env : Env) (aes : BlockCipher κ) : M (CipherSt (GcmSt κ)) Bytes := do
  gcmEncLastI env aes
  gcmTagI env

/-- `aes_gcm_decrypt#finish_and_get_tag`, the last block, src/cryptokit.ml:1705-1715, with interruption
points. -/
def gcmDecLastI (env : Env) (aes : BlockCipher κ) : M (CipherSt (GcmSt κ)) Unit := do
  poll
  let st ← M.get
  if st.used > 0 then
    gcmOnOut (gcmHashI st.ibuf 0 st.used)
    onBufI (OBuf.ensureCapacityI env st.used)
    let st ← M.get
    gcmOnOut (ctrEncDecI aes (.other st.ibuf) 0 st.ob.oend st.used)
    M.modify fun st => { st with ob := { st.ob with oend := st.ob.oend + st.used } }
    poll
    gcmOnOut (gcmCount (BitVec.ofNat 64 st.used))
    poll

/-- `aes_gcm_decrypt#finish_and_get_tag`, src/cryptokit.ml:1704-1716, with interruption points. -/
def gcmDecFinishI (env : Env) (aes : BlockCipher κ) : M (CipherSt (GcmSt κ)) Bytes := do
  gcmDecLastI env aes
  gcmTagI env

/-- `aes_gcm`, src/cryptokit.ml:1718-1721: the methods of the object, with interruption points. -/
def aesGcmI (env : Env) (aes : BlockCipher κ) : Dir → AuthTransform (CipherSt (GcmSt κ))
  | .encrypt => ⟨blockTransformI env (gcmEncWrappedI aes), 16, gcmEncFinishI env aes⟩
  | .decrypt => ⟨blockTransformI env (gcmDecWrappedI aes), 16, gcmDecFinishI env aes⟩

end gcm

/-- `AEAD.aes_gcm ?header ~iv key dir`, src/cryptokit.ml:1718-1721, `sched` being the interruptions to
come once the object has been made. -/
def AEAD.aesGcmI (env : Env) (host : Cipher.AesHost) (pclmul : Bool) (header : Option Bytes)
    (iv key : Bytes) (dir : Dir) (sched : Sched) : Option (Except Exn AEAD.AnyAuth) :=
  (Cipher.aesBlock host .encrypt key).bind fun r =>
    match r with
    | .error e => some (.error e)
    | .ok b =>
      match aesGcmInit env pclmul b.c.atomic (sched, b.s) (header.getD []) iv with
      | .ok st _ => some (.ok ⟨Verif.aesGcmI env b.c.atomic dir, st⟩)
      | .exn e _ => some (.error e)
      | .ub => none
      | .loop => none

/-! ### ChaCha20-Poly1305 -/

section chapoly

variable {τ : Type} [Ticking τ]

/-- Run code on the variables of `chapoly_encrypt` or `chapoly_decrypt`, kept in a larger state.
A modelling device for src/cryptokit.ml:1751-1801. -/
def onCha (get : τ → ChaPolySt) (set : ChaPolySt → τ → τ) (m : M (ChaPolySt × Bytes) α) :
    M (τ × Bytes) α :=
  M.zoom (fun p => (get p.1, p.2)) (fun r p => (set r.1 p.1, r.2)) m

/-- The stream cipher of `chapoly_encrypt`, src/cryptokit.ml:1761-1768, with interruption points. -/
def chapolyEncI (get : τ → ChaPolySt) (set : ChaPolySt → τ → τ) (ivLength : Nat) : StreamCipher τ where
  transform src so dofs len := do
    poll
    onCha get set (chapolyCha src so dofs len)
    poll
    let (_, dst) ← M.get
    onCha get set (chapolyHash dst dofs len)
    poll
    onCha get set (chapolyCount len)
    poll
    let (st, _) ← M.get
    if (get st).cipherlen.toInt > chapolyMaxlen ivLength then M.raise (.error .messageTooLong)
  wipe t := set (chapolyWipe (get t)) t

/-- The stream cipher of `chapoly_decrypt`, src/cryptokit.ml:1787-1794, with interruption points. -/
def chapolyDecI (get : τ → ChaPolySt) (set : ChaPolySt → τ → τ) : StreamCipher τ where
  transform src so dofs len := do
    poll
    let (_, dst) ← M.get
    onCha get set (chapolyHash (src.read dst) so len)
    poll
    onCha get set (chapolyCha src so dofs len)
    poll
    onCha get set (chapolyCount len)
    poll
  wipe t := set (chapolyWipe (get t)) t

/-- `finish_and_get_tag`, src/cryptokit.ml:1739-1748, 1774-1775, 1800-1801, with interruption points
between the operations on the hash context. -/
def chapolyFinishI (get : τ → ChaPolySt) (set : ChaPolySt → τ → τ) (env : Env) :
    M (StreamSt τ) Bytes := do
  poll
  let st ← M.get
  let h ← M.orUB (polyUpdatePad (get st.c).h ((get st.c).cipherlen.toNat % 16))
  M.modify fun st => { st with c := set { get st.c with h := h } st.c }
  poll
  let st ← M.get
  let buf ← M.orRaise .invalidArg (setInt64LE (env.create 16) 0 (get st.c).headerlen)
  let buf ← M.orRaise .invalidArg (setInt64LE buf 8 (get st.c).cipherlen)
  let h ← M.orUB (polyUpdate (get st.c).h buf 0 16)
  M.modify fun st => { st with c := set { get st.c with h := h } st.c }
  poll
  let st ← M.get
  let (tag, h) ← M.orUB (poly64Final (get st.c).h)
  M.modify fun st => { st with c := set { get st.c with h := h } st.c }
  poll
  pure tag

/-- `chacha20_poly1305`, src/cryptokit.ml:1804-1807: the methods of the object, with interruption
points. -/
def chacha20Poly1305I (get : τ → ChaPolySt) (set : ChaPolySt → τ → τ) (env : Env) (ivLength : Nat) :
    Dir → AuthTransform (StreamSt τ)
  | .encrypt => ⟨streamTransformI env (chapolyEncI get set ivLength), 16, chapolyFinishI get set env⟩
  | .decrypt => ⟨streamTransformI env (chapolyDecI get set), 16, chapolyFinishI get set env⟩

end chapoly

/-- `AEAD.chacha20_poly1305 ?header ~iv key dir`, src/cryptokit.ml:1804-1807, `sched` being the
interruptions to come once the object has been made. -/
def AEAD.chacha20Poly1305I (env : Env) (header iv key : Bytes) (dir : Dir) (sched : Sched) :
    Option (Except Exn AEAD.AnyAuth) :=
  match chapolyInit env header iv key with
  | .ok st _ =>
    some (.ok ⟨Verif.chacha20Poly1305I (τ := Sched × ChaPolySt) (·.2) (fun x p => (p.1, x)) env iv.length dir,
      streamInit env ((sched, st) : Sched × ChaPolySt)⟩)
  | .exn e _ => some (.error e)
  | .ub => none
  | .loop => none

end Verif
