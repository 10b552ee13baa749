import Verif.Props.C86_InertCompose
import Verif.Props.C64_Zlib
/-!
C86, `Zlib.uncompress`: the exception for garbage at the end of the compressed data comes after the data.
-/
namespace Verif
open Spec Example

/-- C86 is false of `put_string` of `Zlib.uncompress`. (zlib is here the toy engine of C64, which meets the
documented behaviour: `01 61 00` is the compressed form of `a`.) If the string is compressed data followed by
another character, `Compression_error` is raised; the data is nevertheless available, and the end of the
stream has been passed: adding the compressed data alone, afterwards, raises as well. -/
theorem C86_zlib_garbage {t0 : ZSt ToyZ} (h0 : Zlib.uncompressNew Example.env64 toyZlib false = .ok t0) :
    (trace (Zlib.uncompress Example.env64 toyZlib 10) [.op (.putString [1, 0x61, 0, 7]), .op .getString,
        .op (.putString [1, 0x61, 0])] t0
      = [some (.error (.error .compressionError)), some (.ok [0x61]), some (.error (.error .compressionError))])
    ∧ (trace (Zlib.uncompress Example.env64 toyZlib 10) [.op .getString, .op (.putString [1, 0x61, 0])] t0
      = [some (.ok []), some (.ok [])])
    ∧ ¬ NoEffectIfRaises (Zlib.uncompress Example.env64 toyZlib 10) t0 (.op (.putString [1, 0x61, 0, 7])) := by
  have e0 : t0 = ⟨{}, OBuf.init Example.env64 512⟩ := (Except.ok.inj h0).symm
  subst e0
  have h1 : trace (Zlib.uncompress Example.env64 toyZlib 10) [.op (.putString [1, 0x61, 0, 7]), .op .getString,
        .op (.putString [1, 0x61, 0])] ⟨{}, OBuf.init Example.env64 512⟩
      = [some (.error (.error .compressionError)), some (.ok [0x61]), some (.error (.error .compressionError))] := by
    decide +kernel
  have h2 : trace (Zlib.uncompress Example.env64 toyZlib 10) [.op .getString, .op (.putString [1, 0x61, 0])]
      ⟨{}, OBuf.init Example.env64 512⟩ = [some (.ok []), some (.ok [])] := by decide +kernel
  refine ⟨h1, h2, fun hn => ?_⟩
  obtain ⟨t1, e1, r1⟩ := trace_exn_inv h1
  have := hn _ .start _ t1 e1 [.op .getString, .op (.putString [1, 0x61, 0])]
  rw [h2, r1] at this
  simp at this

/-- The calls that do not reach zlib: those that read the output, and `put_byte` outside of 0..255. -/
def notForZlib : Call → Prop
  | .op .getString | .op .getChar | .op .getByte | .op .available => True
  | .op (.putByte b) => b < 0 ∨ 255 < b
  | _ => False

theorem inheritBuf_exn_same {ζ : Type} {p : PutMethods (ZSt ζ)} {put : Byte → M (ZSt ζ) Unit}
    (hb : p.putByte = putByteChr put) {c : Call} (hc : notForZlib c) {t t' : ZSt ζ} {e : Exn}
    (h : perform (inheritBuf (·.ob) (fun o t => { t with ob := o }) p) c t = .exn e t') : t' = t := by
  obtain ⟨z, o⟩ := t
  have hchar : ∀ e o', OBuf.getChar o = .exn e o' → o' = o := by
    intro e o' h
    unfold OBuf.getChar at h
    split at h
    · cases h; rfl
    · split at h <;> cases h; rfl
  have hstr : ∀ e o', OBuf.getString o = .exn e o' → o' = o := by
    intro e o' h
    unfold OBuf.getString at h
    split at h <;> cases h; rfl
  cases c with
  | flush => exact hc.elim
  | finish => exact hc.elim
  | op c =>
    cases c with
    | putSubstring => exact hc.elim
    | putString => exact hc.elim
    | putChar => exact hc.elim
    | getSubstring => exact hc.elim
    | putByte b =>
      simp only [perform, Transform.call, inheritBuf, hb, M.bind_def] at h
      have hn : charChr b = none := by
        unfold charChr
        rcases hc with hc | hc
        · exact if_neg (by omega)
        · exact if_neg (by omega)
      simp only [putByteChr, hn, M.orRaise, M.bind_def, M.raise] at h
      cases h; rfl
    | available => simp [perform, Transform.call, inheritBuf, M.bind_def, M.zoom, OBuf.availableOutput, M.pure_def] at h
    | getString =>
      simp only [perform, Transform.call, inheritBuf, M.zoom] at h
      split at h <;> cases h
      rename_i h1
      rw [hstr _ _ h1]
    | getChar =>
      simp only [perform, Transform.call, inheritBuf, M.zoom] at h
      cases h1 : OBuf.getChar o with
      | ok a o' => rw [h1] at h; cases h
      | ub => rw [h1] at h; cases h
      | loop => rw [h1] at h; cases h
      | exn e' o' =>
        rw [h1] at h
        have := hchar _ _ h1
        subst this
        cases e' <;> cases h <;> rfl
    | getByte =>
      simp only [perform, Transform.call, inheritBuf, M.zoom, OBuf.getByte, M.bind_def] at h
      cases h1 : OBuf.getChar o with
      | ok a o' => rw [h1] at h; cases h
      | ub => rw [h1] at h; cases h
      | loop => rw [h1] at h; cases h
      | exn e' o' =>
        rw [h1] at h
        have := hchar _ _ h1
        subst this
        cases e' <;> cases h <;> rfl

/-- C86, `Zlib`: the calls that do not reach zlib, whatever library and whatever history. -/
theorem C86_zlib_partial {ζ : Type} (env : Env) (L : ZLib ζ) (fuel : Nat) {c : Call} (hc : notForZlib c)
    (t0 : ZSt ζ) :
    NoEffectIfRaises (Zlib.compress env L fuel) t0 c ∧ NoEffectIfRaises (Zlib.uncompress env L fuel) t0 c := by
  constructor
  · intro t _ e t' h cs
    rw [inheritBuf_exn_same rfl hc h]
  · intro t _ e t' h cs
    rw [inheritBuf_exn_same rfl hc h]

/-- Such a call does raise. -/
example : ∃ t0 t', Zlib.uncompressNew Example.env64 toyZlib false = .ok t0
    ∧ perform (Zlib.uncompress Example.env64 toyZlib 10) (.op (.putByte 256)) t0 = .exn .invalidArg t'
    ∧ notForZlib (.op (.putByte 256)) := ⟨_, _, rfl, rfl, .inr (by decide)⟩

end Verif
