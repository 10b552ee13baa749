import Verif.Model.Misc
/-
Block ciphers and chaining modes, module `Block` of src/cryptokit.ml:490-766.
-/
namespace Verif

/-- Class type `block_cipher`, src/cryptokit.ml:492-497. `σ` is the state of the object.
`transform src so dofs` acts on the object and on the destination byte sequence; the
source may be the destination itself. -/
structure BlockCipher (σ : Type) where
  blocksize : Nat
  transform : Src → Int → Int → M (σ × Bytes) Unit
  wipe : σ → σ

/-- `make_initial_iv`, src/cryptokit.ml:644-649. -/
def makeInitialIV (blocksize : Nat) : Option Bytes → Except Exn Bytes
  | none => .ok (List.replicate blocksize 0)
  | some s => if s.length ≠ blocksize then .error (.error .wrongIVSize) else .ok s

/-- State of a chaining mode: underlying cipher, IV register, and one scratch block
(`next_iv` of `cbc_decrypt`, `out` of `cfb_*` and `ctr`; unused by `cbc_encrypt`, `ofb`).
src/cryptokit.ml:651-766. -/
structure ModeSt (σ : Type) where
  c : σ
  iv : Bytes
  aux : Bytes

namespace ModeSt

/-- `cipher#transform (other b) so dst dofs` from inside a mode whose destination is `dst`.
src/cryptokit.ml:658, 673. -/
def callDst (c : BlockCipher σ) (src : Src) (so dofs : Int) : M (ModeSt σ × Bytes) Unit :=
  M.zoom (fun p => (p.1.c, p.2)) (fun r p => ({ p.1 with c := r.1 }, r.2)) (c.transform src so dofs)

/-- `cipher#transform iv 0 out 0` from inside a mode. src/cryptokit.ml:690, 709, 755. -/
def callAux (c : BlockCipher σ) (src : Src) (so dofs : Int) : M (ModeSt σ × Bytes) Unit :=
  M.zoom (fun p => (p.1.c, p.1.aux)) (fun r p => ({ p.1 with c := r.1, aux := r.2 }, p.2))
    (c.transform src so dofs)

/-- `cipher#transform iv 0 iv 0` from inside a mode. src/cryptokit.ml:727. -/
def callIv (c : BlockCipher σ) (src : Src) (so dofs : Int) : M (ModeSt σ × Bytes) Unit :=
  M.zoom (fun p => (p.1.c, p.1.iv)) (fun r p => ({ p.1 with c := r.1, iv := r.2 }, p.2))
    (c.transform src so dofs)

/-- Assignment to `iv`, src/cryptokit.ml:659, 675. -/
def setIv (iv : Bytes) : M (ModeSt σ × Bytes) Unit :=
  M.modify fun p => ({ p.1 with iv := iv }, p.2)
/-- Assignment to `next_iv` or `out`, src/cryptokit.ml:672. -/
def setAux (b : Bytes) : M (ModeSt σ × Bytes) Unit :=
  M.modify fun p => ({ p.1 with aux := b }, p.2)
/-- Assignment to `dst`, src/cryptokit.ml:674. -/
def setDst (b : Bytes) : M (ModeSt σ × Bytes) Unit :=
  M.modify fun p => (p.1, b)

end ModeSt

open ModeSt

/-- Construction of a mode object: `val iv = make_initial_iv blocksize iv_init` and
`Bytes.create blocksize` for the scratch block. src/cryptokit.ml:654, 668-669. -/
def modeInit (env : Env) (c : BlockCipher σ) (s : σ) (iv : Option Bytes) : Except Exn (ModeSt σ) :=
  match makeInitialIV c.blocksize iv with
  | .ok iv => .ok { c := s, iv := iv, aux := env.create c.blocksize }
  | .error e => .error e

/-- Construction of `cfb_encrypt`, `cfb_decrypt`, `ofb` with
`assert (chunksize > 0 && chunksize <= blocksize)`, src/cryptokit.ml:684, 703, 722. -/
def modeInitChunk (env : Env) (c : BlockCipher σ) (s : σ) (iv : Option Bytes) (chunksize : Int) :
    Except Exn (ModeSt σ) :=
  if chunksize > 0 ∧ chunksize ≤ c.blocksize then modeInit env c s iv else .error .assertFailure

/-- Class `cbc_encrypt`, src/cryptokit.ml:651-663. -/
def cbcEncrypt (c : BlockCipher σ) : BlockCipher (ModeSt σ) where
  blocksize := c.blocksize
  transform src so dofs := do
    let (st, dst) ← M.get
    let iv ← M.orUB (xorC (.other (src.read dst)) so st.iv 0 c.blocksize)
    setIv iv
    callDst c (.other iv) 0 dofs
    let (st, dst) ← M.get
    let iv ← M.orRaise .invalidArg (bytesBlit dst dofs st.iv 0 c.blocksize)
    setIv iv
  wipe st := { st with c := c.wipe st.c, iv := wipeBytes st.iv }

/-- Class `cbc_decrypt`, src/cryptokit.ml:665-680. -/
def cbcDecrypt (c : BlockCipher σ) : BlockCipher (ModeSt σ) where
  blocksize := c.blocksize
  transform src so dofs := do
    let (st, dst) ← M.get
    let next ← M.orRaise .invalidArg (bytesBlit (src.read dst) so st.aux 0 c.blocksize)
    setAux next
    callDst c src so dofs
    let (st, dst) ← M.get
    let dst ← M.orUB (xorC (.other st.iv) 0 dst dofs c.blocksize)
    setDst dst
    let iv ← M.orRaise .invalidArg (bytesBlit st.aux 0 st.iv 0 c.blocksize)
    setIv iv
  wipe st := { c := c.wipe st.c, iv := wipeBytes st.iv, aux := wipeBytes st.aux }

/-- Class `cfb_encrypt`, src/cryptokit.ml:682-699. -/
def cfbEncrypt (chunksize : Nat) (c : BlockCipher σ) : BlockCipher (ModeSt σ) where
  blocksize := chunksize
  transform src so dofs := do
    let (st, _) ← M.get
    callAux c (.other st.iv) 0 0
    let (st, dst) ← M.get
    let dst ← M.orRaise .invalidArg (bytesBlit (src.read dst) so dst dofs chunksize)
    setDst dst
    let dst ← M.orUB (xorC (.other st.aux) 0 dst dofs chunksize)
    setDst dst
    let iv ← M.orRaise .invalidArg
      (bytesBlit st.iv chunksize st.iv 0 ((c.blocksize : Int) - chunksize))
    setIv iv
    let iv ← M.orRaise .invalidArg
      (bytesBlit dst dofs iv ((c.blocksize : Int) - chunksize) chunksize)
    setIv iv
  wipe st := { c := c.wipe st.c, iv := wipeBytes st.iv, aux := wipeBytes st.aux }

/-- Class `cfb_decrypt`, src/cryptokit.ml:701-718. -/
def cfbDecrypt (chunksize : Nat) (c : BlockCipher σ) : BlockCipher (ModeSt σ) where
  blocksize := chunksize
  transform src so dofs := do
    let (st, _) ← M.get
    callAux c (.other st.iv) 0 0
    let (st, dst) ← M.get
    let iv ← M.orRaise .invalidArg
      (bytesBlit st.iv chunksize st.iv 0 ((c.blocksize : Int) - chunksize))
    setIv iv
    let iv ← M.orRaise .invalidArg
      (bytesBlit (src.read dst) so iv ((c.blocksize : Int) - chunksize) chunksize)
    setIv iv
    let dst ← M.orRaise .invalidArg (bytesBlit (src.read dst) so dst dofs chunksize)
    setDst dst
    let dst ← M.orUB (xorC (.other st.aux) 0 dst dofs chunksize)
    setDst dst
  wipe st := { c := c.wipe st.c, iv := wipeBytes st.iv, aux := wipeBytes st.aux }

/-- Class `ofb`, src/cryptokit.ml:720-733. -/
def ofb (chunksize : Nat) (c : BlockCipher σ) : BlockCipher (ModeSt σ) where
  blocksize := chunksize
  transform src so dofs := do
    callIv c .self 0 0
    let (st, dst) ← M.get
    let dst ← M.orRaise .invalidArg (bytesBlit (src.read dst) so dst dofs chunksize)
    setDst dst
    let dst ← M.orUB (xorC (.other st.iv) 0 dst dofs chunksize)
    setDst dst
  wipe st := { st with c := c.wipe st.c, iv := wipeBytes st.iv }

/-- `increment_counter c lim pos`, src/cryptokit.ml:735-740. The last argument is
`pos + 1`, so that `0` stands for `pos = -1` (which is below every `lim >= 0`).
`none` is `Invalid_argument`. -/
def incrementCounter (c : Bytes) (lim : Nat) : Nat → Option Bytes
  | 0 => some c
  | pos + 1 =>
    if pos ≥ lim then
      match c[pos]? with
      | none => none
      | some b =>
        let i := 1 + b.toNat
        let c := c.set pos (BitVec.ofNat 8 i)
        if i = 0x100 then incrementCounter c lim pos else some c
    else some c

/-- State of `ctr`: the mode state and `max_transf : int64`. src/cryptokit.ml:749-752. -/
structure CtrSt (σ : Type) where
  m : ModeSt σ
  maxTransf : BitVec 64

/-- Number of counter bytes, `nincr`, src/cryptokit.ml:744-747. -/
def ctrNincr (blocksize : Nat) : Option Int → Except Exn Nat
  | none => .ok blocksize
  | some n => if n > 0 ∧ n ≤ blocksize then .ok n.toNat else .error .assertFailure

/-- Initial value of `max_transf`, src/cryptokit.ml:751-752. -/
def ctrMaxTransf (nincr : Nat) : BitVec 64 :=
  if nincr < 8 then 1#64 <<< (nincr * 8) else 0#64

/-- Construction of `ctr`, src/cryptokit.ml:742-752. -/
def ctrInit (env : Env) (c : BlockCipher σ) (s : σ) (iv : Option Bytes) (inc : Option Int) :
    Except Exn (Nat × CtrSt σ) :=
  match ctrNincr c.blocksize inc with
  | .error e => .error e
  | .ok nincr =>
    match modeInit env c s iv with
    | .error e => .error e
    | .ok m => .ok (nincr, { m := m, maxTransf := ctrMaxTransf nincr })

/-- Class `ctr`, src/cryptokit.ml:742-766. -/
def ctr (nincr : Nat) (c : BlockCipher σ) : BlockCipher (CtrSt σ) where
  blocksize := c.blocksize
  transform src so dofs := do
    M.zoom (fun p => (p.1.m, p.2)) (fun r p => ({ p.1 with m := r.1 }, r.2))
      (do
        let (st, _) ← M.get
        callAux c (.other st.iv) 0 0
        let (st, dst) ← M.get
        let dst ← M.orRaise .invalidArg (bytesBlit (src.read dst) so dst dofs c.blocksize)
        setDst dst
        let dst ← M.orUB (xorC (.other st.aux) 0 dst dofs c.blocksize)
        setDst dst
        let iv ← M.orRaise .invalidArg
          (incrementCounter st.iv (c.blocksize - nincr) c.blocksize)
        setIv iv)
    let (st, _) ← M.get
    let m := st.maxTransf - 1#64
    if m = 0#64 then M.raise (.error .messageTooLong)
    M.modify fun p => ({ p.1 with maxTransf := m }, p.2)
  wipe st :=
    { st with m := { c := c.wipe st.m.c, iv := wipeBytes st.m.iv, aux := wipeBytes st.m.aux } }

end Verif
