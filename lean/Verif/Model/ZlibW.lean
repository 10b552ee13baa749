import Verif.Model.Zlib
import Verif.Model.MachineInt
/-
Module `Zlib`, src/cryptokit.ml:2491-2623, with the integers of the machine: `w` bits, wrapping around.
-/
namespace Verif

/-- `zStep` (e.g. src/cryptokit.ml:2526-2532) with `w`-bit integers: `ensure_capacity 256`,
`Bytes.length obuf - oend`, `oend + used_out`. -/
def zStepW (w : Nat) (env : Env) (fn : ZCall ζ) (fails : ZCode → Bool) (src : Bytes) (ofs len : Int)
    (flush : ZFlush) : M (ZSt ζ) (Bool × Int) := do
  ZSt.out (OBuf.ensureCapacityW w env 256)
  let st ← M.get
  let r ← M.zoom (fun t : ZSt ζ => (t.zs, t.ob.obuf)) (fun r t => { zs := r.1, ob := { t.ob with obuf := r.2 } })
    (zlibStub fn fails src ofs len st.ob.oend (wrapInt w ((st.ob.obuf.length : Int) - st.ob.oend)) flush)
  M.modify fun t => { t with ob := { t.ob with oend := (wrapInt w ((t.ob.oend : Int) + r.2.2)).toNat } }
  pure (r.1, r.2.1)

namespace Zlib
variable (w : Nat) (env : Env) (L : ZLib ζ)

/-- `compress#put_substring`, src/cryptokit.ml:2524-2535. -/
def compressPutW : Nat → Bytes → Int → Int → M (ZSt ζ) Unit
  | 0, _, _, len => if len > 0 then M.diverge else pure ()
  | fuel + 1, src, ofs, len => do
    if len > 0 then
      let r ← zStepW w env L.deflate deflateFails src ofs len .noFlush
      if r.2 < len then compressPutW fuel src (wrapInt w (ofs + r.2)) (wrapInt w (len - r.2)) else pure ()
    else pure ()

/-- `compress#flush`, src/cryptokit.ml:2544-2552. -/
def compressFlushW : Nat → M (ZSt ζ) Unit
  | 0 => M.diverge
  | fuel + 1 => do
    let _ ← zStepW w env L.deflate deflateFails [] 0 0 .syncFlush
    let st ← M.get
    if st.ob.oend = st.ob.obuf.length then compressFlushW fuel else pure ()

/-- `compress#finish`, src/cryptokit.ml:2554-2562. -/
def compressFinishW : Nat → M (ZSt ζ) Unit
  | 0 => M.diverge
  | fuel + 1 => do
    let r ← zStepW w env L.deflate deflateFails [] 0 0 .finish
    if r.1 then zEnd L.deflateEnd else compressFinishW fuel

/-- Class `compress`, src/cryptokit.ml:2515-2566. -/
def compressW (fuel : Nat) : Transform (ZSt ζ) :=
  inheritBuf (·.ob) (fun o t => { t with ob := o })
    { putSubstring := compressPutW w env L fuel
      putString := fun s => compressPutW w env L fuel s 0 s.length
      putChar := fun c => compressPutW w env L fuel [c] 0 1
      putByte := putByteChr (fun c => compressPutW w env L fuel [c] 0 1)
      flush := compressFlushW w env L fuel
      finish := compressFinishW w env L fuel
      wipe := ZSt.out OBuf.wipe }

/-- `uncompress#put_substring`, src/cryptokit.ml:2579-2594. -/
def uncompressPutW : Nat → Bytes → Int → Int → M (ZSt ζ) Unit
  | 0, _, _, len => if len > 0 then M.diverge else pure ()
  | fuel + 1, src, ofs, len => do
    if len > 0 then
      let r ← zStepW w env L.inflate inflateFails src ofs len .syncFlush
      if r.2 < len then
        if r.1 then M.raise (.error .compressionError)
        else uncompressPutW fuel src (wrapInt w (ofs + r.2)) (wrapInt w (len - r.2))
      else pure ()
    else pure ()

/-- `do_finish first_finish`, src/cryptokit.ml:2606-2614. -/
def doFinishW : Nat → Bool → M (ZSt ζ) Unit
  | 0, _ => M.diverge
  | fuel + 1, first => do
    let r ← zStepW w env L.inflate inflateFails [0x20] 0 (if first then 1 else 0) .syncFlush
    if ¬ r.1 then doFinishW fuel false else pure ()

/-- Class `uncompress`, src/cryptokit.ml:2570-2619. -/
def uncompressW (fuel : Nat) : Transform (ZSt ζ) :=
  inheritBuf (·.ob) (fun o t => { t with ob := o })
    { putSubstring := uncompressPutW w env L fuel
      putString := fun s => uncompressPutW w env L fuel s 0 s.length
      putChar := fun c => uncompressPutW w env L fuel [c] 0 1
      putByte := putByteChr (fun c => uncompressPutW w env L fuel [c] 0 1)
      flush := pure ()
      finish := do
        doFinishW w env L fuel true
        zEnd L.inflateEnd
      wipe := ZSt.out OBuf.wipe }

end Zlib
end Verif
