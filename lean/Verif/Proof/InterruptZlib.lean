import Verif.Props.C65_Zlib
import Verif.Proof.Interrupt
import Verif.Model.InterruptZlib
/-
Safety of the interruptible `Zlib`.
-/
namespace Verif

open Spec

theorem PostL.bind_poll {σ : Type} [Ticking σ] {β : Type} {k : Unit → M σ β} {s : σ} {R : β → σ → Prop}
    {I : σ → Prop} (hI : TickStable I) (hs : I s) (hk : ∀ t, I t → (k () t).PostL R I) :
    ((poll >>= k) s).PostL R I := by
  rw [M.bind_def, poll]
  cases (Ticking.tick s).1 with
  | none => exact hk _ (hI _ hs)
  | some e => exact hI _ hs

theorem PostL.poll {σ : Type} [Ticking σ] {s : σ} {I : σ → Prop} (hI : TickStable I) (hs : I s) :
    ((Verif.poll : M σ Unit) s).PostL (fun _ => I) I := by
  rw [Verif.poll]
  cases (Ticking.tick s).1 with
  | none => exact hI _ hs
  | some e => exact hI _ hs

variable {ζ : Type} [Ticking ζ]

/-- The output buffer is weakly well-formed. -/
def ZWeak (t : ZSt ζ) : Prop := t.ob.Weak

theorem ZWeak.stable : TickStable (ZWeak : ZSt ζ → Prop) := fun _ h => h

theorem true_stable : TickStable (fun _ : ζ => True) := fun _ _ => trivial

theorem zout_safe {m : M (ζ × OBuf) α} {t : ZSt ζ} {Q : α → ζ × OBuf → Prop}
    (h : (m (t.zs, t.ob)).Post Q (fun _ => OBuf.WeakI fun _ => True))
    (hq : ∀ a p, Q a p → p.2.Weak) : (ZSt.outI m t).PostL (fun _ => ZWeak) ZWeak :=
  PostL.of_post (Post.zoom (get := fun t : ZSt ζ => (t.zs, t.ob)) (set := fun r _ => ⟨r.1, r.2⟩) h
    (Q' := fun _ => ZWeak) (E' := fun _ => ZWeak) (fun a p h => hq a p h) fun _ _ h => h.2) (fun _ _ h => h)
    fun _ _ h => h

/-- One call of zlib on a legal range. -/
theorem zStepI_safe (env : Env) {fn : ZCall ζ} (hb : ZBounded fn) (fails : ZCode → Bool) {src : Bytes}
    {ofs len : Int} (hr : InRange src ofs len) (f : ZFlush) {t : ZSt ζ} (ht : ZWeak t) :
    (zStepI env fn fails src ofs len f t).PostL (fun r t' => ZWeak t' ∧ 0 ≤ r.2 ∧ r.2 ≤ len) ZWeak := by
  unfold zStepI
  refine PostL.bind_poll ZWeak.stable ht ?_
  intro t ht
  refine PostL.bind (zout_safe (OBuf.ensureCapacityI_safe true_stable env 256 (t.zs, t.ob) ⟨trivial, ht⟩)
    fun _ _ h => h.1.2) ?_
  rintro - t1 h1
  refine PostL.bind_poll ZWeak.stable h1 ?_
  intro t1 h1
  obtain ⟨hp, hle⟩ := h1
  obtain ⟨r1, r2, r3⟩ := hr
  show Out.PostL ((M.get >>= fun st => _) t1) _ _
  rw [M.bind_def, M.get_def]
  simp only
  have ha : (zAvail len : Int) ≤ len := by unfold zAvail; omega
  have hb' : (zAvail ((t1.ob.obuf.length : Int) - t1.ob.oend) : Int) ≤ (t1.ob.obuf.length : Int) - t1.ob.oend := by
    unfold zAvail; omega
  generalize hai : zAvail len = ai at ha
  generalize hao : zAvail ((t1.ob.obuf.length : Int) - t1.ob.oend) = ao at hb'
  have hsl : (slice src ofs.toNat ai).length = ai := slice_length_of_le (by omega)
  have hin := hb.usedIn f (slice src ofs.toNat ai) ao t1.zs
  have hout := hb.out f (slice src ofs.toNat ai) ao t1.zs
  rw [hsl] at hin
  refine PostL.bind (Q := fun r t' => t'.ob.obuf.length = t1.ob.obuf.length ∧ t'.ob.oend = t1.ob.oend ∧
      t1.ob.oend + r.2.2.toNat ≤ t1.ob.obuf.length ∧ 0 ≤ r.2.1 ∧ r.2.1 ≤ len) ?_ ?_
  · rw [M.zoom, zlibStub]
    simp only [hai, hao]
    rw [if_neg (by unfold InRange; omega)]
    simp only [Int.toNat_natCast]
    generalize fn f (slice src ofs.toNat ai) ao t1.zs = r at hin hout
    have hspl : (splice t1.ob.obuf t1.ob.oend r.out).length = t1.ob.obuf.length := splice_length (by omega)
    cases fails r.code with
    | true =>
      show OBuf.Weak _
      exact ⟨by simp only [hspl]; omega, by simp only [hspl]; omega⟩
    | false =>
      refine ⟨hspl, rfl, ?_, ?_, ?_⟩
      · show t1.ob.oend + ((t1.ob.obuf.length : Int) - t1.ob.oend - ((ao - r.out.length : Nat) : Int)).toNat
          ≤ t1.ob.obuf.length
        omega
      · show 0 ≤ len - ((ai - r.usedIn : Nat) : Int); omega
      · show len - ((ai - r.usedIn : Nat) : Int) ≤ len; omega
  · rintro ⟨b, u, w⟩ t2 ⟨g1, g2, g3, g4, g5⟩
    simp only at g3 g4 g5 ⊢
    have hw : ZWeak t2 := ⟨by omega, by omega⟩
    rw [M.bind_def, Verif.poll]
    have htick : (Ticking.tick t2).2.ob = t2.ob := rfl
    cases (Ticking.tick t2).1 with
    | some e => exact hw
    | none =>
      simp only
      rw [M.bind_def]
      simp only [M.modify]
      refine PostL.bind_poll ZWeak.stable (s := ZSt.mk _ _) ?_ ?_
      · refine ⟨?_, ?_⟩
        · show 0 < t2.ob.obuf.length; omega
        · show t2.ob.oend + w.toNat ≤ t2.ob.obuf.length; omega
      · intro t3 h3
        exact ⟨h3, g4, g5⟩

variable (env : Env) {L : ZLib ζ}

theorem compressPutI_safe (hb : ZBounded L.deflate) : ∀ (fuel : Nat) (src : Bytes) (ofs len : Int) (t : ZSt ζ),
    InRange src ofs len → ZWeak t →
    (Zlib.compressPutI env L fuel src ofs len t).PostL (fun _ => ZWeak) ZWeak := by
  intro fuel
  induction fuel with
  | zero => intro src ofs len t _ ht; unfold Zlib.compressPutI; split <;> first | trivial | exact ht
  | succ fuel ih =>
    intro src ofs len t hr ht
    unfold Zlib.compressPutI
    split
    · refine PostL.bind (zStepI_safe env hb _ hr _ ht) ?_
      rintro ⟨b, u⟩ t1 ⟨h1, h2, h3⟩
      simp only
      simp only at h2 h3
      split
      · exact ih _ _ _ _ (by obtain ⟨r1, r2, r3⟩ := hr; exact ⟨by omega, by omega, by omega⟩) h1
      · exact h1
    · exact ht

theorem uncompressPutI_safe (hb : ZBounded L.inflate) : ∀ (fuel : Nat) (src : Bytes) (ofs len : Int) (t : ZSt ζ),
    InRange src ofs len → ZWeak t →
    (Zlib.uncompressPutI env L fuel src ofs len t).PostL (fun _ => ZWeak) ZWeak := by
  intro fuel
  induction fuel with
  | zero => intro src ofs len t _ ht; unfold Zlib.uncompressPutI; split <;> first | trivial | exact ht
  | succ fuel ih =>
    intro src ofs len t hr ht
    unfold Zlib.uncompressPutI
    split
    · refine PostL.bind (zStepI_safe env hb _ hr _ ht) ?_
      rintro ⟨b, u⟩ t1 ⟨h1, h2, h3⟩
      simp only at h2 h3
      simp only
      split
      · cases b with
        | true => exact h1
        | false => exact ih _ _ _ _ (by obtain ⟨r1, r2, r3⟩ := hr; exact ⟨by omega, by omega, by omega⟩) h1
      · exact h1
    · exact ht

theorem compressFlushI_safe (hb : ZBounded L.deflate) : ∀ (fuel : Nat) (t : ZSt ζ), ZWeak t →
    (Zlib.compressFlushI env L fuel t).PostL (fun _ => ZWeak) ZWeak := by
  intro fuel
  induction fuel with
  | zero => intro t ht; trivial
  | succ fuel ih =>
    intro t ht
    unfold Zlib.compressFlushI
    refine PostL.bind (zStepI_safe env hb _ ⟨by omega, by omega, by simp⟩ _ ht) ?_
    rintro - t1 ⟨h1, -, -⟩
    rw [M.bind_def, M.get_def]
    simp only
    split
    · exact ih _ h1
    · exact h1

theorem zEndI_safe (f : ζ → Bool × ζ) (t : ZSt ζ) (ht : ZWeak t) :
    (zEndI f t).PostL (fun _ => ZWeak) ZWeak := by
  refine PostL.bind_poll ZWeak.stable ht ?_
  intro t ht
  refine PostL.bind (Q := fun _ => ZWeak) ?_ ?_
  · unfold zEnd
    simp only
    split <;> exact ht
  · intro _ t ht
    exact PostL.poll ZWeak.stable ht

theorem compressFinishI_safe (hb : ZBounded L.deflate) : ∀ (fuel : Nat) (t : ZSt ζ), ZWeak t →
    (Zlib.compressFinishI env L fuel t).PostL (fun _ => ZWeak) ZWeak := by
  intro fuel
  induction fuel with
  | zero => intro t ht; trivial
  | succ fuel ih =>
    intro t ht
    unfold Zlib.compressFinishI
    refine PostL.bind (zStepI_safe env hb _ ⟨by omega, by omega, by simp⟩ _ ht) ?_
    rintro ⟨b, u⟩ t1 ⟨h1, -, -⟩
    cases b with
    | true => exact zEndI_safe _ _ h1
    | false => exact ih _ h1

theorem doFinishI_safe (hb : ZBounded L.inflate) : ∀ (fuel : Nat) (first : Bool) (t : ZSt ζ), ZWeak t →
    (Zlib.doFinishI env L fuel first t).PostL (fun _ => ZWeak) ZWeak := by
  intro fuel
  induction fuel with
  | zero => intro _ t ht; trivial
  | succ fuel ih =>
    intro first t ht
    unfold Zlib.doFinishI
    refine PostL.bind (zStepI_safe env hb _ (by cases first <;> exact ⟨by decide, by decide, by decide⟩) _ ht) ?_
    rintro ⟨b, u⟩ t1 ⟨h1, -, -⟩
    cases b with
    | true => exact h1
    | false => exact ih _ _ h1

/-- A transform that inherits `buffered_output`, whose own methods keep the buffer well-formed. -/
theorem zInvokeI_safe {p : PutMethods (ZSt ζ)}
    (h1 : ∀ b ofs len t, InRange b ofs len → ZWeak t → (p.putSubstring b ofs len t).PostL (fun _ => ZWeak) ZWeak)
    (h2 : ∀ s, p.putString s = p.putSubstring s 0 s.length) (h3 : ∀ c, p.putChar c = p.putSubstring [c] 0 1)
    (h4 : ∀ b, p.putByte b = putByteChr p.putChar b)
    (h5 : ∀ t, ZWeak t → (p.flush t).PostL (fun _ => ZWeak) ZWeak)
    (h6 : ∀ t, ZWeak t → (p.finish t).PostL (fun _ => ZWeak) ZWeak)
    (h7 : p.wipe = ZSt.outI OBuf.wipeI) {t0 : ZSt ζ} (h0 : ZWeak t0) :
    NoUndefined (invoke (Zlib.inheritBufI p)) inRangeT t0 := by
  have key : ∀ c, inRangeT c → ∀ t : ZSt ζ, ZWeak t →
      (invoke (Zlib.inheritBufI p) c t).PostL (fun _ => ZWeak) ZWeak := by
    have hc : ∀ c t, ZWeak t → (p.putChar c t).PostL (fun _ => ZWeak) ZWeak := by
      intro c t ht; rw [h3]; exact h1 _ _ _ _ ⟨by decide, by decide, by simp⟩ ht
    have hd : ∀ {α : Type} {m : M (ZSt ζ) α} {t : ZSt ζ}, (m t).PostL (fun _ => ZWeak) ZWeak →
        (Spec.discard m t).PostL (fun _ => ZWeak) ZWeak :=
      fun h => PostL.bind h fun _ _ hs => hs
    intro c hr t ht
    have hw : OBuf.WeakI (fun _ : ζ => True) (t.zs, t.ob) := ⟨trivial, ht⟩
    cases c with
    | flush => exact h5 t ht
    | finish => exact h6 t ht
    | buf c =>
      cases c with
      | putSubstring b ofs len => exact h1 b ofs len t hr ht
      | putString s =>
        show Out.PostL (p.putString s t) _ _
        rw [h2]; exact h1 _ _ _ _ ⟨by omega, by omega, by omega⟩ ht
      | putChar c => exact hc c t ht
      | putByte b =>
        show Out.PostL (p.putByte b t) _ _
        rw [h4]
        unfold putByteChr
        rw [M.bind_def]
        cases charChr b with
        | none => exact ht
        | some c => exact hc c t ht
      | availableOutput => exact hd (zout_safe (OBuf.availableOutputI_safe true_stable _ hw) fun _ _ h => h.2)
      | getString => exact hd (zout_safe (OBuf.getStringI_safe true_stable _ hw) fun _ _ h => h.2)
      | getSubstring => exact hd (zout_safe (OBuf.getSubstringI_safe true_stable _ hw) fun _ _ h => h.2)
      | getChar => exact hd (zout_safe (OBuf.getCharI_safe true_stable _ hw) fun _ _ h => h.2)
      | getByte => exact hd (zout_safe (OBuf.getByteI_safe true_stable _ hw) fun _ _ h => h.2)
      | wipe =>
        show Out.PostL (p.wipe t) _ _
        rw [h7]; exact zout_safe (OBuf.wipeI_safe true_stable _ hw) fun _ _ h => h.2
  intro t hr
  have hs : ZWeak t := by
    induction hr with
    | start => exact h0
    | @returned t t' c _ ha hc ih => have := key c ha t ih; rw [hc] at this; exact this
    | @raised t t' c e _ ha hc ih => have := key c ha t ih; rw [hc] at this; exact this
  intro c ha hu
  have := key c ha t hs
  rw [hu] at this
  exact this

end Verif
