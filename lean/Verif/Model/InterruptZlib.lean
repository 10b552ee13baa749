import Verif.Model.Interrupt
import Verif.Model.Zlib
/-
Asynchronous exceptions in module `Zlib`.
-/
namespace Verif

/-- The stream is where the interruptions to come are found. A modelling device. src/cryptokit.ml:2517. -/
instance [Ticking ζ] : Ticking (ZSt ζ) where
  tick t := ((Ticking.tick t.zs).1, { t with zs := (Ticking.tick t.zs).2 })

/-- zlib beside the interruptions to come, of which it takes none: C code is not interrupted.
src/stubs-zlib.c. -/
def ZLib.atomic (L : ZLib ζ) : ZLib (Sched × ζ) where
  deflateInit level header := (L.deflateInit level header).map fun z => ([], z)
  deflate f d n z := let r := L.deflate f d n z.2; ⟨r.code, r.usedIn, r.out, (z.1, r.st)⟩
  deflateEnd z := let r := L.deflateEnd z.2; (r.1, (z.1, r.2))
  inflateInit header := (L.inflateInit header).map fun z => ([], z)
  inflate f d n z := let r := L.inflate f d n z.2; ⟨r.code, r.usedIn, r.out, (z.1, r.st)⟩
  inflateEnd z := let r := L.inflateEnd z.2; (r.1, (z.1, r.2))

section

variable {ζ : Type} [Ticking ζ]

/-- A method of `buffered_output`. src/cryptokit.ml:2520-2565. -/
def ZSt.outI (m : M (ζ × OBuf) α) : M (ZSt ζ) α :=
  M.zoom (fun t : ZSt ζ => (t.zs, t.ob)) (fun r _ => ⟨r.1, r.2⟩) m

/-- `zStep`, e.g. src/cryptokit.ml:2526-2532, with interruption points. -/
def zStepI (env : Env) (fn : ZCall ζ) (fails : ZCode → Bool) (src : Bytes) (ofs len : Int) (flush : ZFlush) :
    M (ZSt ζ) (Bool × Int) := do
  poll
  ZSt.outI (OBuf.ensureCapacityI env 256)
  poll
  let st ← M.get
  let r ← M.zoom (fun t : ZSt ζ => (t.zs, t.ob.obuf)) (fun r t => { zs := r.1, ob := { t.ob with obuf := r.2 } })
    (zlibStub fn fails src ofs len st.ob.oend ((st.ob.obuf.length : Int) - st.ob.oend) flush)
  poll
  M.modify fun t => { t with ob := { t.ob with oend := t.ob.oend + r.2.2.toNat } }
  poll
  pure (r.1, r.2.1)

/-- `deflate_end zs`, `inflate_end zs`, with interruption points. src/cryptokit.ml:2562, 2616. -/
def zEndI (f : ζ → Bool × ζ) : M (ZSt ζ) Unit := do
  poll
  zEnd f
  poll

namespace Zlib
variable (env : Env) (L : ZLib ζ)

/-- `compress#put_substring`, src/cryptokit.ml:2524-2535, with interruption points. -/
def compressPutI : Nat → Bytes → Int → Int → M (ZSt ζ) Unit
  | 0, _, _, len => if len > 0 then M.diverge else pure ()
  | fuel + 1, src, ofs, len => do
    if len > 0 then
      let r ← zStepI env L.deflate deflateFails src ofs len .noFlush
      if r.2 < len then compressPutI fuel src (ofs + r.2) (len - r.2) else pure ()
    else pure ()

/-- `compress#flush`, src/cryptokit.ml:2544-2552, with interruption points. -/
def compressFlushI : Nat → M (ZSt ζ) Unit
  | 0 => M.diverge
  | fuel + 1 => do
    let _ ← zStepI env L.deflate deflateFails [] 0 0 .syncFlush
    let st ← M.get
    if st.ob.oend = st.ob.obuf.length then compressFlushI fuel else pure ()

/-- `compress#finish`, src/cryptokit.ml:2554-2562, with interruption points. -/
def compressFinishI : Nat → M (ZSt ζ) Unit
  | 0 => M.diverge
  | fuel + 1 => do
    let r ← zStepI env L.deflate deflateFails [] 0 0 .finish
    if r.1 then zEndI L.deflateEnd else compressFinishI fuel

/-- `uncompress#put_substring`, src/cryptokit.ml:2579-2594, with interruption points. -/
def uncompressPutI : Nat → Bytes → Int → Int → M (ZSt ζ) Unit
  | 0, _, _, len => if len > 0 then M.diverge else pure ()
  | fuel + 1, src, ofs, len => do
    if len > 0 then
      let r ← zStepI env L.inflate inflateFails src ofs len .syncFlush
      if r.2 < len then
        if r.1 then M.raise (.error .compressionError)
        else uncompressPutI fuel src (ofs + r.2) (len - r.2)
      else pure ()
    else pure ()

/-- `do_finish first_finish`, src/cryptokit.ml:2606-2614, with interruption points. -/
def doFinishI : Nat → Bool → M (ZSt ζ) Unit
  | 0, _ => M.diverge
  | fuel + 1, first => do
    let r ← zStepI env L.inflate inflateFails [0x20] 0 (if first then 1 else 0) .syncFlush
    if ¬ r.1 then doFinishI fuel false else pure ()

/-- The methods that `compress` and `uncompress` inherit from `buffered_output`, with interruption points.
src/cryptokit.ml:2519, 2574. -/
def inheritBufI (p : PutMethods (ZSt ζ)) : Transform (ZSt ζ) where
  putSubstring := p.putSubstring
  putString := p.putString
  putChar := p.putChar
  putByte := p.putByte
  flush := p.flush
  finish := p.finish
  wipe := p.wipe
  availableOutput := ZSt.outI OBuf.availableOutputI
  getString := ZSt.outI OBuf.getStringI
  getSubstring := ZSt.outI OBuf.getSubstringI
  getChar := ZSt.outI OBuf.getCharI
  getByte := ZSt.outI OBuf.getByteI

/-- Class `compress`, src/cryptokit.ml:2515-2566, with interruption points. -/
def compressI (fuel : Nat) : Transform (ZSt ζ) :=
  inheritBufI
    { putSubstring := compressPutI env L fuel
      putString := fun s => compressPutI env L fuel s 0 s.length
      putChar := fun c => compressPutI env L fuel [c] 0 1
      putByte := putByteChr (fun c => compressPutI env L fuel [c] 0 1)
      flush := compressFlushI env L fuel
      finish := compressFinishI env L fuel
      wipe := ZSt.outI OBuf.wipeI }

/-- Class `uncompress`, src/cryptokit.ml:2570-2619, with interruption points. -/
def uncompressI (fuel : Nat) : Transform (ZSt ζ) :=
  inheritBufI
    { putSubstring := uncompressPutI env L fuel
      putString := fun s => uncompressPutI env L fuel s 0 s.length
      putChar := fun c => uncompressPutI env L fuel [c] 0 1
      putByte := putByteChr (fun c => uncompressPutI env L fuel [c] 0 1)
      flush := pure ()
      finish := do
        doFinishI env L fuel true
        zEndI L.inflateEnd
      wipe := ZSt.outI OBuf.wipeI }

end Zlib

end

end Verif
