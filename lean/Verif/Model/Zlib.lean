import Verif.Model.Codec
/-
Module `Zlib`, src/cryptokit.ml:2491-2623, and src/stubs-zlib.c. The library zlib itself is a
parameter: two functions, `deflate` and `inflate`, on an abstract state.
-/
namespace Verif

/-- `flush_command`, src/cryptokit.ml:2495-2499. -/
inductive ZFlush where
  | noFlush | syncFlush | fullFlush | finish
  deriving DecidableEq

/-- The code that zlib's functions return: `Z_OK`, `Z_STREAM_END`, `Z_NEED_DICT` or a negative number.
Tested at src/stubs-zlib.c:88-95, 114, 122. -/
inductive ZCode where
  | ok | streamEnd | needDict | error
  deriving DecidableEq

/-- What one call of `deflate` or `inflate` does: how many of the `avail_in` bytes at `next_in` it uses,
which bytes it stores at `next_out`, the code that it returns, the new state of the stream.
src/stubs-zlib.c:109-122. -/
structure ZRes (ζ : Type) where
  code : ZCode
  usedIn : Nat
  out : Bytes
  st : ζ

/-- `deflate` or `inflate` of zlib: the flush command, the bytes at `next_in`, `avail_out`, the stream.
src/stubs-zlib.c:109-113. -/
abbrev ZCall (ζ : Type) := ZFlush → Bytes → Nat → ζ → ZRes ζ

/-- zlib. Initialization can fail (the level, for instance, can be out of range); `deflateEnd` and
`inflateEnd` return whether all is well (`Z_OK`). Called at src/stubs-zlib.c:83-97, 113, 130. -/
structure ZLib (ζ : Type) where
  deflateInit : Int → Bool → Option ζ
  deflate : ZCall ζ
  deflateEnd : ζ → Bool × ζ
  inflateInit : Bool → Option ζ
  inflate : ZCall ζ
  inflateEnd : ζ → Bool × ζ

/-- The fields `avail_in` and `avail_out` are 32-bit unsigned integers. src/stubs-zlib.c:110-112. -/
def zAvail (n : Int) : Nat := (n % 2 ^ 32).toNat

/-- `caml_zlib_deflate` and `caml_zlib_inflate`, src/stubs-zlib.c:98-123, 143-169. `fails` tells which codes
are errors. It is undefined behaviour if the bytes that zlib may read or write are not within the
buffers. The result is `(retcode == Z_STREAM_END, used_in, used_out)`. -/
def zlibStub (fn : ZCall ζ) (fails : ZCode → Bool) (src : Bytes) (srcpos srclen dstpos dstlen : Int)
    (flush : ZFlush) : M (ζ × Bytes) (Bool × Int × Int) := fun (z, dst) =>
  let availIn := zAvail srclen
  let availOut := zAvail dstlen
  if ¬ (availIn = 0 ∨ InRange src srcpos availIn) ∨ ¬ (availOut = 0 ∨ InRange dst dstpos availOut) then .ub
  else
    let r := fn flush (slice src srcpos.toNat availIn) availOut z
    let dst := splice dst dstpos.toNat r.out
    if fails r.code then .exn (.error .compressionError) (r.st, dst)
    else .ok (r.code = .streamEnd, srclen - (availIn - r.usedIn : Nat), dstlen - (availOut - r.out.length : Nat))
      (r.st, dst)

/-- The state of classes `compress` and `uncompress`, src/cryptokit.ml:2517-2519, 2572-2574. -/
structure ZSt (ζ : Type) where
  zs : ζ
  ob : OBuf

/-- A method of `buffered_output`. src/cryptokit.ml:2520-2565. -/
def ZSt.out (m : M OBuf α) : M (ZSt ζ) α := M.zoom (·.ob) (fun o t => { t with ob := o }) m

/-- The code shared by all methods, e.g. src/cryptokit.ml:2526-2532:
`self#ensure_capacity 256; let (finished, used_in, used_out) = fn zs src ofs len obuf oend
(Bytes.length obuf - oend) flush in oend <- oend + used_out`. The result is `(finished, used_in)`. -/
def zStep (env : Env) (fn : ZCall ζ) (fails : ZCode → Bool) (src : Bytes) (ofs len : Int) (flush : ZFlush) :
    M (ZSt ζ) (Bool × Int) := do
  ZSt.out (OBuf.ensureCapacity env 256)
  let st ← M.get
  let r ← M.zoom (fun t : ZSt ζ => (t.zs, t.ob.obuf)) (fun r t => { zs := r.1, ob := { t.ob with obuf := r.2 } })
    (zlibStub fn fails src ofs len st.ob.oend ((st.ob.obuf.length : Int) - st.ob.oend) flush)
  M.modify fun t => { t with ob := { t.ob with oend := t.ob.oend + r.2.2.toNat } }
  pure (r.1, r.2.1)

/-- `retcode < 0`, src/stubs-zlib.c:113. -/
def deflateFails (c : ZCode) : Bool := c = .error
/-- `retcode < 0 || retcode == Z_NEED_DICT`, src/stubs-zlib.c:158. -/
def inflateFails (c : ZCode) : Bool := c = .error ∨ c = .needDict

/-- `deflate_end zs`, `inflate_end zs`: src/stubs-zlib.c:125-131, 171-177. -/
def zEnd (f : ζ → Bool × ζ) : M (ZSt ζ) Unit := fun t =>
  let r := f t.zs
  if r.1 then .ok () { t with zs := r.2 } else .exn (.error .compressionError) { t with zs := r.2 }

namespace Zlib
variable (env : Env) (L : ZLib ζ)

/-- `compress#put_substring`, src/cryptokit.ml:2524-2535. Here and below, the first argument bounds the
number of recursive calls. -/
def compressPut : Nat → Bytes → Int → Int → M (ZSt ζ) Unit
  | 0, _, _, len => if len > 0 then M.diverge else pure ()
  | fuel + 1, src, ofs, len => do
    if len > 0 then
      let r ← zStep env L.deflate deflateFails src ofs len .noFlush
      if r.2 < len then compressPut fuel src (ofs + r.2) (len - r.2) else pure ()
    else pure ()

/-- `compress#flush`, src/cryptokit.ml:2544-2552. -/
def compressFlush : Nat → M (ZSt ζ) Unit
  | 0 => M.diverge
  | fuel + 1 => do
    let _ ← zStep env L.deflate deflateFails [] 0 0 .syncFlush
    let st ← M.get
    if st.ob.oend = st.ob.obuf.length then compressFlush fuel else pure ()

/-- `compress#finish`, src/cryptokit.ml:2554-2562. -/
def compressFinish : Nat → M (ZSt ζ) Unit
  | 0 => M.diverge
  | fuel + 1 => do
    let r ← zStep env L.deflate deflateFails [] 0 0 .finish
    if r.1 then zEnd L.deflateEnd else compressFinish fuel

/-- `new compress level write_zlib_header`, src/cryptokit.ml:2515-2519, 2568; src/stubs-zlib.c:81-93. -/
def compressNew (level : Int) (header : Bool) : Except Exn (ZSt ζ) :=
  match L.deflateInit level header with
  | some z => .ok ⟨z, OBuf.init env 512⟩
  | none => .error (.error .compressionError)

/-- Class `compress`, src/cryptokit.ml:2515-2566. -/
def compress (fuel : Nat) : Transform (ZSt ζ) :=
  inheritBuf (·.ob) (fun o t => { t with ob := o })
    { putSubstring := compressPut env L fuel
      putString := fun s => compressPut env L fuel s 0 s.length
      putChar := fun c => compressPut env L fuel [c] 0 1
      putByte := putByteChr (fun c => compressPut env L fuel [c] 0 1)
      flush := compressFlush env L fuel
      finish := compressFinish env L fuel
      wipe := ZSt.out OBuf.wipe }

/-- `uncompress#put_substring`, src/cryptokit.ml:2579-2594. -/
def uncompressPut : Nat → Bytes → Int → Int → M (ZSt ζ) Unit
  | 0, _, _, len => if len > 0 then M.diverge else pure ()
  | fuel + 1, src, ofs, len => do
    if len > 0 then
      let r ← zStep env L.inflate inflateFails src ofs len .syncFlush
      if r.2 < len then
        if r.1 then M.raise (.error .compressionError)
        else uncompressPut fuel src (ofs + r.2) (len - r.2)
      else pure ()
    else pure ()

/-- `do_finish first_finish`, src/cryptokit.ml:2606-2614. -/
def doFinish : Nat → Bool → M (ZSt ζ) Unit
  | 0, _ => M.diverge
  | fuel + 1, first => do
    let r ← zStep env L.inflate inflateFails [0x20] 0 (if first then 1 else 0) .syncFlush
    if ¬ r.1 then doFinish fuel false else pure ()

/-- `new uncompress expect_zlib_header`, src/cryptokit.ml:2570-2574, 2621; src/stubs-zlib.c:133-141. -/
def uncompressNew (header : Bool) : Except Exn (ZSt ζ) :=
  match L.inflateInit header with
  | some z => .ok ⟨z, OBuf.init env 512⟩
  | none => .error (.error .compressionError)

/-- Class `uncompress`, src/cryptokit.ml:2570-2619. -/
def uncompress (fuel : Nat) : Transform (ZSt ζ) :=
  inheritBuf (·.ob) (fun o t => { t with ob := o })
    { putSubstring := uncompressPut env L fuel
      putString := fun s => uncompressPut env L fuel s 0 s.length
      putChar := fun c => uncompressPut env L fuel [c] 0 1
      putByte := putByteChr (fun c => uncompressPut env L fuel [c] 0 1)
      flush := pure ()
      finish := do
        doFinish env L fuel true
        zEnd L.inflateEnd
      wipe := ZSt.out OBuf.wipe }

end Zlib
end Verif
