import Verif.Proof.InterruptAeadQuiet
import Verif.Model.InterruptZlib
/-
Where nothing happens at the interruption points, the interruptible classes of Model/InterruptZlib are those
of Model/Zlib.
-/
namespace Verif.Quiet

open Spec

attribute [local instance low] quiet
variable {ζ : Type}

theorem zout_zoom (m : M OBuf α) :
    ZSt.outI (M.zoom (·.2) (fun o (p : ζ × OBuf) => (p.1, o)) m) = ZSt.out m := by
  funext t
  simp only [ZSt.outI, ZSt.out, M.zoom]
  cases m t.ob <;> rfl

theorem zStep_eq (env : Env) (fn : ZCall ζ) (fails : ZCode → Bool) (src : Bytes) (ofs len : Int) (f : ZFlush) :
    @zStepI ζ (quiet ζ) env fn fails src ofs len f = zStep env fn fails src ofs len f := by
  funext t
  unfold zStepI zStep
  rw [qpoll (fun _ => rfl), ensure_eq, zout_zoom]
  refine mcongr fun _ t => ?_
  rw [qpoll (fun _ => rfl), qget, qget]
  refine mcongr fun r t => ?_
  rw [qpoll (fun _ => rfl), qmodify, qpoll (fun _ => rfl), qmodify]

theorem zEnd_eq (f : ζ → Bool × ζ) : @zEndI ζ (quiet ζ) f = zEnd f := by
  funext t
  unfold zEndI
  rw [qpoll (fun _ => rfl), M.bind_def]
  cases zEnd f t with
  | ok _ s => exact qend (fun _ => rfl)
  | _ => rfl

variable (env : Env) (L : ZLib ζ)

theorem compressPut_eq : ∀ (fuel : Nat) (src : Bytes) (ofs len : Int),
    @Zlib.compressPutI ζ (quiet ζ) env L fuel src ofs len = Zlib.compressPut env L fuel src ofs len
  | 0, src, ofs, len => rfl
  | fuel + 1, src, ofs, len => by
    unfold Zlib.compressPutI Zlib.compressPut
    simp only [zStep_eq, compressPut_eq fuel]

theorem uncompressPut_eq : ∀ (fuel : Nat) (src : Bytes) (ofs len : Int),
    @Zlib.uncompressPutI ζ (quiet ζ) env L fuel src ofs len = Zlib.uncompressPut env L fuel src ofs len
  | 0, src, ofs, len => rfl
  | fuel + 1, src, ofs, len => by
    unfold Zlib.uncompressPutI Zlib.uncompressPut
    simp only [zStep_eq, uncompressPut_eq fuel]

theorem compressFlush_eq : ∀ (fuel : Nat),
    @Zlib.compressFlushI ζ (quiet ζ) env L fuel = Zlib.compressFlush env L fuel
  | 0 => rfl
  | fuel + 1 => by
    unfold Zlib.compressFlushI Zlib.compressFlush
    simp only [zStep_eq, compressFlush_eq fuel]

theorem compressFinish_eq : ∀ (fuel : Nat),
    @Zlib.compressFinishI ζ (quiet ζ) env L fuel = Zlib.compressFinish env L fuel
  | 0 => rfl
  | fuel + 1 => by
    unfold Zlib.compressFinishI Zlib.compressFinish
    simp only [zStep_eq, zEnd_eq, compressFinish_eq fuel]

theorem doFinish_eq : ∀ (fuel : Nat) (first : Bool),
    @Zlib.doFinishI ζ (quiet ζ) env L fuel first = Zlib.doFinish env L fuel first
  | 0, _ => rfl
  | fuel + 1, first => by
    unfold Zlib.doFinishI Zlib.doFinish
    simp only [zStep_eq, doFinish_eq fuel]

theorem inheritBuf_eq (p : PutMethods (ZSt ζ)) :
    @Zlib.inheritBufI ζ (quiet ζ) p = inheritBuf (·.ob) (fun o t => { t with ob := o }) p := by
  unfold Zlib.inheritBufI inheritBuf
  rw [available_eq, getString_eq, getSubstring_eq, getChar_eq, getByte_eq]
  simp only [zout_zoom]
  rfl

theorem compress_eq (fuel : Nat) : @Zlib.compressI ζ (quiet ζ) env L fuel = Zlib.compress env L fuel := by
  unfold Zlib.compressI Zlib.compress
  rw [inheritBuf_eq, bufWipe_eq, zout_zoom, compressFlush_eq, compressFinish_eq]
  have h : @Zlib.compressPutI ζ (quiet ζ) env L fuel = Zlib.compressPut env L fuel := by
    funext s o l
    exact compressPut_eq env L fuel s o l
  rw [h]

theorem uncompress_eq (fuel : Nat) : @Zlib.uncompressI ζ (quiet ζ) env L fuel = Zlib.uncompress env L fuel := by
  unfold Zlib.uncompressI Zlib.uncompress
  rw [inheritBuf_eq, bufWipe_eq, zout_zoom, doFinish_eq, zEnd_eq]
  have h : @Zlib.uncompressPutI ζ (quiet ζ) env L fuel = Zlib.uncompressPut env L fuel := by
    funext s o l
    exact uncompressPut_eq env L fuel s o l
  rw [h]

end Verif.Quiet
