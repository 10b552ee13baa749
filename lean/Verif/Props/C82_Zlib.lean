import Verif.Model.ZlibW
import Verif.Props.C82_MachineInt
import Verif.Props.C65_Zlib
/-
C82, `Zlib`: on the arguments that put_substring accepts, wrap-around has no effect.
-/
namespace Verif
open Spec

/-- Calls whose strings are not longer than the longest string, and whose ranges are legal. -/
def Spec.legalZ (env : Env) : TCall → Prop
  | .buf (.putSubstring b ofs len) => b.length ≤ env.maxLen ∧ InRange b ofs len
  | .buf (.putString s) => s.length ≤ env.maxLen
  | _ => True

def ZFits (env : Env) (t : ZSt ζ) : Prop := t.ob.Safe ∧ Fits env t.ob

theorem wrapInt_small {w : Nat} (hw : 3 ≤ w) {x : Int} (h0 : 0 ≤ x) (h1 : x ≤ 2 ^ (w - 3)) : wrapInt w x = x := by
  obtain ⟨k, rfl⟩ : ∃ k, w = k + 3 := ⟨w - 3, by omega⟩
  unfold wrapInt
  have e1 : (2 : Int) ^ (k + 3 - 1) = 4 * 2 ^ k := by
    rw [show k + 3 - 1 = k + 2 by omega, Int.pow_succ, Int.pow_succ]; omega
  have e2 : (2 : Int) ^ (k + 3) = 8 * 2 ^ k := by
    rw [Int.pow_succ, Int.pow_succ, Int.pow_succ]; omega
  rw [show k + 3 - 3 = k by omega] at h1
  have hp : (0 : Int) < 2 ^ k := Int.pow_pos (by decide)
  rw [e1, e2, Int.emod_eq_of_lt (by omega) (by omega)]
  omega

/-- What one call of zlib may do. -/
theorem zlibStub_bounds {fn : ZCall ζ} (hb : ZBounded fn) (fails : ZCode → Bool) {src dst : Bytes}
    {ofs len : Int} {oend : Nat} (hr : InRange src ofs len) (he : oend ≤ dst.length) (f : ZFlush) (z : ζ) :
    (zlibStub fn fails src ofs len oend ((dst.length : Int) - oend) f (z, dst)).PostL
      (fun r p => p.2.length = dst.length ∧ 0 ≤ r.2.1 ∧ r.2.1 ≤ len ∧ 0 ≤ r.2.2 ∧ r.2.2 ≤ (dst.length : Int) - oend)
      (fun p => p.2.length = dst.length) := by
  obtain ⟨r1, r2, r3⟩ := hr
  have ha : (zAvail len : Int) ≤ len := by unfold zAvail; omega
  have hb' : (zAvail ((dst.length : Int) - oend) : Int) ≤ (dst.length : Int) - oend := by unfold zAvail; omega
  unfold zlibStub
  simp only
  generalize zAvail len = ai at ha ⊢
  generalize zAvail ((dst.length : Int) - oend) = ao at hb' ⊢
  have hsl : (slice src ofs.toNat ai).length = ai := slice_length_of_le (by omega)
  have hin := hb.usedIn f (slice src ofs.toNat ai) ao z
  have hout := hb.out f (slice src ofs.toNat ai) ao z
  rw [hsl] at hin
  rw [if_neg (by unfold InRange; omega)]
  simp only [Int.toNat_natCast]
  generalize fn f (slice src ofs.toNat ai) ao z = r at hin hout
  have hspl : (splice dst oend r.out).length = dst.length := splice_length (by omega)
  cases fails r.code with
  | true => exact hspl
  | false =>
    refine ⟨hspl, ?_, ?_, ?_, ?_⟩
    · show 0 ≤ len - ((ai - r.usedIn : Nat) : Int); omega
    · show len - ((ai - r.usedIn : Nat) : Int) ≤ len; omega
    · show 0 ≤ (dst.length : Int) - oend - ((ao - r.out.length : Nat) : Int); omega
    · show (dst.length : Int) - oend - ((ao - r.out.length : Nat) : Int) ≤ (dst.length : Int) - oend; omega

section
variable {ζ : Type} {w : Nat} {env : Env}

set_option maxRecDepth 8000 in
theorem zStepW_eq (hp : Platform w env) (h512 : Moderate w 256) {fn : ZCall ζ} (hb : ZBounded fn)
    (fails : ZCode → Bool) {src : Bytes} {ofs len : Int} (hr : InRange src ofs len) (f : ZFlush) {t : ZSt ζ}
    (ht : ZFits env t) :
    zStepW w env fn fails src ofs len f t = zStep env fn fails src ofs len f t ∧
    (zStep env fn fails src ofs len f t).PostL (fun r t' => ZFits env t' ∧ 0 ≤ r.2 ∧ r.2 ≤ len)
      (fun t' => ZFits env t') := by
  have hec := ensureCapacityW_eq hp.1 hp.2.2 h512 ht.1 ht.2
  have hef := ensureCapacity_fits (env := env) (n := (256 : Int)) ht.1 ht.2
  unfold zStepW zStep
  rw [M.bind_def, M.bind_def]
  unfold ZSt.out
  rw [M.zoom_congr hec, M.zoom]
  cases he : OBuf.ensureCapacity env 256 t.ob with
  | ub => rw [he] at hef; exact hef.elim
  | loop => rw [he] at hef; exact hef.elim
  | exn e o =>
    rw [he] at hef
    obtain ⟨_, rfl⟩ := hef
    exact ⟨rfl, ht⟩
  | ok a o =>
    rw [he] at hef
    obtain ⟨⟨⟨s1, s2, s3⟩, s4⟩, s5⟩ := hef
    simp only [M.bind_def, M.get_def, M.zoom]
    have s5' : (o.obuf.length : Int) ≤ env.maxLen := Int.ofNat_le.2 s5
    have hm := hp.2.2
    rw [wrapInt_small hp.1 (x := (o.obuf.length : Int) - o.oend) (by omega) (by omega)]
    have hz := zlibStub_bounds hb fails hr s3 f t.zs
    cases hc : zlibStub fn fails src ofs len o.oend ((o.obuf.length : Int) - o.oend) f (t.zs, o.obuf) with
    | ub => rw [hc] at hz; exact hz.elim
    | loop => exact ⟨rfl, trivial⟩
    | exn e p =>
      rw [hc] at hz
      have hz : p.2.length = o.obuf.length := hz
      refine ⟨rfl, ⟨⟨?_, s2, ?_⟩, ?_⟩⟩
      · show 0 < p.2.length; omega
      · show o.oend ≤ p.2.length; omega
      · show p.2.length ≤ _; rw [hz]; exact s5
    | ok r p =>
      rw [hc] at hz
      obtain ⟨z1, z2, z3, z4, z5⟩ := hz
      simp only [M.modify_def, M.pure_def]
      rw [wrapInt_small hp.1 (x := (o.oend : Int) + r.2.2) (by omega) (by omega)]
      have e : ((o.oend : Int) + r.2.2).toNat = o.oend + r.2.2.toNat := by omega
      rw [e]
      refine ⟨rfl, ⟨⟨?_, ?_, ?_⟩, ?_⟩, z2, z3⟩
      · show 0 < p.2.length; omega
      · show o.obeg ≤ o.oend + r.2.2.toNat; omega
      · show o.oend + r.2.2.toNat ≤ p.2.length; omega
      · show p.2.length ≤ _; rw [z1]; exact s5

/-- Two computations that do the same in this state and keep the invariant. -/
def SameZ (env : Env) (m m' : M (ZSt ζ) Unit) (t : ZSt ζ) : Prop :=
  m t = m' t ∧ (m' t).PostL (fun _ => ZFits env) (ZFits env)

theorem bind_same {α : Type} {m m' : M (ZSt ζ) α} {k k' : α → M (ZSt ζ) Unit} {t : ZSt ζ}
    {Q : α → ZSt ζ → Prop} (h : m t = m' t ∧ (m' t).PostL Q (ZFits env))
    (hk : ∀ a t', Q a t' → SameZ env (k a) (k' a) t') : SameZ env (m >>= k) (m' >>= k') t := by
  refine ⟨?_, PostL.bind h.2 fun a t' q => (hk a t' q).2⟩
  rw [M.bind_def, M.bind_def, h.1]
  have h2 := h.2
  cases hm : m' t with
  | ok a t' => rw [hm] at h2; exact (hk a t' h2).1
  | exn e t' => rfl
  | ub => rfl
  | loop => rfl

variable {L : ZLib ζ} (hp : Platform w env) (h512 : Moderate w 256)
include hp h512

theorem compressPutW_same (hb : ZBounded L.deflate) : ∀ (fuel : Nat) (src : Bytes) (ofs len : Int) (t : ZSt ζ),
    src.length ≤ env.maxLen → InRange src ofs len → ZFits env t →
    SameZ env (Zlib.compressPutW w env L fuel src ofs len) (Zlib.compressPut env L fuel src ofs len) t := by
  intro fuel
  induction fuel with
  | zero =>
    intro src ofs len t _ _ ht
    refine ⟨rfl, ?_⟩
    unfold Zlib.compressPut
    split <;> trivial
  | succ fuel ih =>
    intro src ofs len t hl hr ht
    unfold Zlib.compressPutW Zlib.compressPut
    split
    · refine bind_same (zStepW_eq hp h512 hb _ hr _ ht) ?_
      rintro ⟨b, u⟩ t1 ⟨h1, h2, h3⟩
      simp only at h2 h3 ⊢
      obtain ⟨r1, r2, r3⟩ := hr
      have hm := hp.2.2
      split
      · rw [wrapInt_small hp.1 (by omega) (by omega), wrapInt_small hp.1 (by omega) (by omega)]
        exact ih _ _ _ _ hl ⟨by omega, by omega, by omega⟩ h1
      · exact ⟨rfl, h1⟩
    · exact ⟨rfl, ht⟩

theorem uncompressPutW_same (hb : ZBounded L.inflate) : ∀ (fuel : Nat) (src : Bytes) (ofs len : Int) (t : ZSt ζ),
    src.length ≤ env.maxLen → InRange src ofs len → ZFits env t →
    SameZ env (Zlib.uncompressPutW w env L fuel src ofs len) (Zlib.uncompressPut env L fuel src ofs len) t := by
  intro fuel
  induction fuel with
  | zero =>
    intro src ofs len t _ _ ht
    refine ⟨rfl, ?_⟩
    unfold Zlib.uncompressPut
    split <;> trivial
  | succ fuel ih =>
    intro src ofs len t hl hr ht
    unfold Zlib.uncompressPutW Zlib.uncompressPut
    split
    · refine bind_same (zStepW_eq hp h512 hb _ hr _ ht) ?_
      rintro ⟨b, u⟩ t1 ⟨h1, h2, h3⟩
      simp only at h2 h3 ⊢
      obtain ⟨r1, r2, r3⟩ := hr
      have hm := hp.2.2
      split
      · cases b with
        | true => exact ⟨rfl, h1⟩
        | false =>
          rw [wrapInt_small hp.1 (by omega) (by omega), wrapInt_small hp.1 (by omega) (by omega)]
          exact ih _ _ _ _ hl ⟨by omega, by omega, by omega⟩ h1
      · exact ⟨rfl, h1⟩
    · exact ⟨rfl, ht⟩

theorem compressFlushW_same (hb : ZBounded L.deflate) : ∀ (fuel : Nat) (t : ZSt ζ), ZFits env t →
    SameZ env (Zlib.compressFlushW w env L fuel) (Zlib.compressFlush env L fuel) t := by
  intro fuel
  induction fuel with
  | zero => intro t _; exact ⟨rfl, trivial⟩
  | succ fuel ih =>
    intro t ht
    unfold Zlib.compressFlushW Zlib.compressFlush
    refine bind_same (zStepW_eq hp h512 hb _ ⟨by omega, by omega, by simp⟩ _ ht) ?_
    rintro - t1 ⟨h1, -, -⟩
    refine bind_same (Q := fun a t' => ZFits env t') ⟨rfl, h1⟩ ?_
    intro st t2 h2
    split
    · exact ih _ h2
    · exact ⟨rfl, h2⟩

theorem compressFinishW_same (hb : ZBounded L.deflate) : ∀ (fuel : Nat) (t : ZSt ζ), ZFits env t →
    SameZ env (Zlib.compressFinishW w env L fuel) (Zlib.compressFinish env L fuel) t := by
  intro fuel
  induction fuel with
  | zero => intro t _; exact ⟨rfl, trivial⟩
  | succ fuel ih =>
    intro t ht
    unfold Zlib.compressFinishW Zlib.compressFinish
    refine bind_same (zStepW_eq hp h512 hb _ ⟨by omega, by omega, by simp⟩ _ ht) ?_
    rintro ⟨b, u⟩ t1 ⟨h1, -, -⟩
    cases b with
    | true =>
      refine ⟨rfl, ?_⟩
      simp only [if_true]
      unfold zEnd
      simp only
      split <;> exact h1
    | false => exact ih _ h1

theorem doFinishW_same (hb : ZBounded L.inflate) : ∀ (fuel : Nat) (first : Bool) (t : ZSt ζ), ZFits env t →
    SameZ env (Zlib.doFinishW w env L fuel first) (Zlib.doFinish env L fuel first) t := by
  intro fuel
  induction fuel with
  | zero => intro _ t _; exact ⟨rfl, trivial⟩
  | succ fuel ih =>
    intro first t ht
    unfold Zlib.doFinishW Zlib.doFinish
    refine bind_same (zStepW_eq hp h512 hb _ (by cases first <;> exact ⟨by decide, by decide, by decide⟩) _ ht) ?_
    rintro ⟨b, u⟩ t1 ⟨h1, -, -⟩
    cases b with
    | true => exact ⟨rfl, h1⟩
    | false => exact ih _ _ h1

omit hp h512 in
theorem zInvoke_same {p p' : PutMethods (ZSt ζ)} (hm1 : 1 ≤ env.maxLen)
    (h1 : ∀ b ofs len t, b.length ≤ env.maxLen → InRange b ofs len → ZFits env t →
      SameZ env (p.putSubstring b ofs len) (p'.putSubstring b ofs len) t)
    (h2 : ∀ s, p.putString s = p.putSubstring s 0 s.length) (h2' : ∀ s, p'.putString s = p'.putSubstring s 0 s.length)
    (h3 : ∀ c, p.putChar c = p.putSubstring [c] 0 1) (h3' : ∀ c, p'.putChar c = p'.putSubstring [c] 0 1)
    (h4 : ∀ b, p.putByte b = putByteChr p.putChar b) (h4' : ∀ b, p'.putByte b = putByteChr p'.putChar b)
    (h5 : ∀ t, ZFits env t → SameZ env p.flush p'.flush t)
    (h6 : ∀ t, ZFits env t → SameZ env p.finish p'.finish t)
    (h7 : p.wipe = ZSt.out OBuf.wipe) (h7' : p'.wipe = ZSt.out OBuf.wipe) {t0 : ZSt ζ} (h0 : ZFits env t0) :
    Agree (invoke (inheritBuf (·.ob) (fun o t => { t with ob := o }) p))
      (invoke (inheritBuf (·.ob) (fun o t => { t with ob := o }) p')) (Spec.legalZ env) t0 := by
  have hc : ∀ c t, ZFits env t → SameZ env (p.putChar c) (p'.putChar c) t := fun c t ht => by
    rw [h3, h3']; exact h1 _ _ _ _ hm1 ⟨by decide, by decide, by simp⟩ ht
  have key : ∀ c, Spec.legalZ env c → ∀ t : ZSt ζ, ZFits env t →
      SameZ env (invoke (inheritBuf (·.ob) (fun o t => { t with ob := o }) p) c)
        (invoke (inheritBuf (·.ob) (fun o t => { t with ob := o }) p') c) t := by
    intro c hr t ht
    obtain ⟨q1, q2, q3, q4, q5, q6⟩ := obuf_ops_fit (env := env) ht.1 ht.2
    have lift : ∀ {α : Type} {m : M OBuf α}, (m t.ob).Post (fun _ o' => o'.Safe ∧ Fits env o')
        (fun _ o' => o'.Safe ∧ Fits env o') →
        (M.zoom (fun t : ZSt ζ => t.ob) (fun o (t : ZSt ζ) => { t with ob := o }) m t).PostL (fun _ => ZFits env)
          (ZFits env) := fun hm => PostL.of_post (Post.zoom hm (Q' := fun _ => ZFits env) (E' := fun _ => ZFits env)
      (fun _ _ x => x) (fun _ _ x => x)) (fun _ _ h => h) fun _ _ h => h
    have drop : ∀ {α : Type} {m : M (ZSt ζ) α}, (m t).PostL (fun _ => ZFits env) (ZFits env) →
        (Spec.discard m t).PostL (fun _ => ZFits env) (ZFits env) := fun h => PostL.bind h fun _ _ hs => hs
    cases c with
    | flush => exact h5 t ht
    | finish => exact h6 t ht
    | buf c =>
      cases c with
      | putSubstring b ofs len => exact h1 b ofs len t hr.1 hr.2 ht
      | putString s =>
        show SameZ env (p.putString s) (p'.putString s) t
        rw [h2, h2']; exact h1 _ _ _ _ hr ⟨by omega, by omega, by omega⟩ ht
      | putChar c => exact hc c t ht
      | putByte b =>
        show SameZ env (p.putByte b) (p'.putByte b) t
        rw [h4, h4']
        unfold putByteChr
        cases charChr b with
        | none => exact ⟨rfl, ht⟩
        | some c => exact hc c t ht
      | availableOutput => exact ⟨rfl, drop (lift q1)⟩
      | getString => exact ⟨rfl, drop (lift q2)⟩
      | getSubstring => exact ⟨rfl, drop (lift q3)⟩
      | getChar => exact ⟨rfl, drop (lift q4)⟩
      | getByte => exact ⟨rfl, drop (lift q5)⟩
      | wipe =>
        show SameZ env p.wipe p'.wipe t
        rw [h7, h7']
        exact ⟨rfl, lift q6⟩
  have hI : ∀ t, Reachable (invoke (inheritBuf (·.ob) (fun o t => { t with ob := o }) p)) (Spec.legalZ env) t0 t →
      ZFits env t := by
    intro t hr
    induction hr with
    | start => exact h0
    | @returned t t' c _ ha hc ih =>
      have := key c ha t ih
      rw [this.1] at hc
      have h2 := this.2
      rw [hc] at h2; exact h2
    | @raised t t' c e _ ha hc ih =>
      have := key c ha t ih
      rw [this.1] at hc
      have h2 := this.2
      rw [hc] at h2; exact h2
  exact fun t hr c ha => (key c ha t (hI t hr)).1

end

/-- C82, `Zlib`: after every history of calls with legal ranges, every such call has the same effect as with
mathematical integers, with any library zlib that stays within the input and the room that it is given.
(On illegal ranges, zlib is made to read outside the string: see C65.) -/
theorem C82_zlib_partial {ζ : Type} {w : Nat} {env : Env} (hp : Platform w env) (h512 : 512 ≤ env.maxLen)
    {L : ZLib ζ} (hd : ZBounded L.deflate) (hi : ZBounded L.inflate) (fuel : Nat) :
    (∀ level header t0, Zlib.compressNew env L level header = .ok t0 →
      Agree (invoke (Zlib.compressW w env L fuel)) (invoke (Zlib.compress env L fuel)) (Spec.legalZ env) t0) ∧
    (∀ header t0, Zlib.uncompressNew env L header = .ok t0 →
      Agree (invoke (Zlib.uncompressW w env L fuel)) (invoke (Zlib.uncompress env L fuel)) (Spec.legalZ env) t0) := by
  have hmod : Moderate w 256 := by
    have := hp.2.1
    have := hp.2.2
    exact ⟨by omega, by omega⟩
  have fits0 : ∀ z : ζ, ZFits env ⟨z, OBuf.init env 512⟩ := fun z =>
    ⟨OBuf.safe_init env (by decide), by unfold Fits OBuf.init; rw [Env.create_length]; exact h512⟩
  constructor
  · intro level header t0 h0
    have hs : ZFits env t0 := by
      unfold Zlib.compressNew at h0
      split at h0
      · cases h0; exact fits0 _
      · cases h0
    exact zInvoke_same (by omega) (compressPutW_same hp hmod hd fuel) (fun _ => rfl) (fun _ => rfl) (fun _ => rfl)
      (fun _ => rfl) (fun _ => rfl) (fun _ => rfl) (compressFlushW_same hp hmod hd fuel)
      (compressFinishW_same hp hmod hd fuel) rfl rfl hs
  · intro header t0 h0
    have hs : ZFits env t0 := by
      unfold Zlib.uncompressNew at h0
      split at h0
      · cases h0; exact fits0 _
      · cases h0
    refine zInvoke_same (by omega) (uncompressPutW_same hp hmod hi fuel) (fun _ => rfl) (fun _ => rfl) (fun _ => rfl)
      (fun _ => rfl) (fun _ => rfl) (fun _ => rfl) (fun t ht => show SameZ env (pure ()) (pure ()) t from ⟨rfl, ht⟩)
      (fun t ht => bind_same (Q := fun _ => ZFits env) (doFinishW_same hp hmod hi fuel true t ht) ?_) rfl rfl hs
    intro _ t1 h1
    refine ⟨rfl, ?_⟩
    unfold zEnd
    simp only
    split <;> exact h1

end Verif

namespace Verif.Example
open Spec

/-- The hypotheses of `C82_zlib_partial` hold of the toy library, with 63-bit integers. -/
example : ∃ t0, Zlib.compressNew Example.env64 toyZlib 6 false = .ok t0 ∧
    Agree (invoke (Zlib.compressW 63 Example.env64 toyZlib 1000)) (invoke (Zlib.compress Example.env64 toyZlib 1000))
      (legalZ Example.env64) t0 :=
  ⟨_, rfl, (C82_zlib_partial ⟨by decide, by decide, by decide⟩ (by decide) zToyD.bounded zToyI.bounded 1000).1 6 false _ rfl⟩

end Verif.Example
