import Verif.Proof.SafeMac
/-
Safety of the stream ciphers, and of the transforms made from them.
-/
namespace Verif

open Spec

variable {σ : Type}

/-- Ranges of the source and of the destination of `transform`. -/
def StreamArgs (src : Src) (dst : Bytes) (so dofs len : Int) : Prop :=
  0 ≤ len ∧ 0 ≤ so ∧ so ≤ ((src.read dst).length : Int) - len ∧ 0 ≤ dofs ∧ dofs ≤ (dst.length : Int) - len

/-- From every state satisfying `I`, on arguments satisfying `ok`, the cipher returns (the arguments
being legal), or raises `Invalid_argument` or `Message_too_long`. -/
structure SafeStream (c : StreamCipher σ) (I : σ → Prop)
    (ok : Src → Bytes → Int → Int → Int → Prop) : Prop where
  run : ∀ {s} {src : Src} {so dofs len : Int} {dst : Bytes}, I s → ok src dst so dofs len →
    (c.transform src so dofs len (s, dst)).Post
      (fun _ p => I p.1 ∧ p.2.length = dst.length ∧ StreamArgs src dst so dofs len)
      (fun e p => (e = .invalidArg ∨ e = .error .messageTooLong) ∧ I p.1 ∧ p.2.length = dst.length)

def anyArgs : Src → Bytes → Int → Int → Int → Prop := fun _ _ _ _ _ => True

theorem streamLoop_safe {next : σ → Option (Byte × σ)} {I : σ → Prop}
    (hn : ∀ s, I s → ∃ b s', next s = some (b, s') ∧ I s') (src : Src) {E : Exn → σ × Bytes → Prop} :
    ∀ (len : Nat) (so dofs : Nat) (s : σ) (dst : Bytes), I s → so + len ≤ (src.read dst).length →
      dofs + len ≤ dst.length →
      (streamLoop next src so dofs len (s, dst)).Post (fun _ p => I p.1 ∧ p.2.length = dst.length) E
  | 0, so, dofs, s, dst, hi, _, _ => ⟨hi, rfl⟩
  | len + 1, so, dofs, s, dst, hi, hs, hd => by
    rw [streamLoop]
    refine Post.bind_get (s := (s, dst)) ?_
    obtain ⟨kb, s', h1, h2⟩ := hn s hi
    refine Post.bind_orUB h1 ?_
    refine Post.bind_orUB (cRead_ok (n := 1) (by omega)) ?_
    have hl : (slice (src.read dst) so 1).length = 1 := slice_length_of_le (by omega)
    refine Post.bind_orUB (cWrite_ok (by rw [List.length_map]; omega)) ?_
    refine Post.bind_modify (s := (s, dst)) ?_
    have hsl : (splice dst dofs ((slice (src.read dst) so 1).map (· ^^^ kb))).length = dst.length :=
      splice_length (by rw [List.length_map]; omega)
    have hsr : (src.read (splice dst dofs ((slice (src.read dst) so 1).map (· ^^^ kb)))).length
        = (src.read dst).length := by
      cases src with
      | other b => rfl
      | self => exact hsl
    exact Post.mono (streamLoop_safe hn src len (so + 1) (dofs + 1) s' _ h2
      (by rw [hsr]; omega) (by rw [hsl]; omega)) (fun _ _ x => ⟨x.1, x.2.trans hsl⟩) fun _ _ x => x

theorem checkedStream_safe {next : σ → Option (Byte × σ)} {wipe : σ → σ} {I : σ → Prop}
    (hn : ∀ s, I s → ∃ b s', next s = some (b, s') ∧ I s') :
    SafeStream (checkedStream next wipe) I anyArgs := by
  refine ⟨?_⟩
  intro s src so dofs len dst hi _
  refine Post.bind_get (s := (s, dst)) ?_
  simp only []
  split
  · exact ⟨.inl rfl, hi, rfl⟩
  · next h =>
    have := streamLoop_safe hn src (E := fun e p => (e = .invalidArg ∨ e = .error .messageTooLong)
        ∧ I p.1 ∧ p.2.length = dst.length) len.toNat so.toNat dofs.toNat s dst hi
      (by omega) (by omega)
    rw [Int.toNat_of_nonneg (by omega), Int.toNat_of_nonneg (by omega)] at this
    exact Post.mono this (fun _ _ x => ⟨x.1, x.2, by omega, by omega, by omega, by omega, by omega⟩)
      fun _ _ x => x

def SWipeSafe (c : StreamCipher σ) (I : σ → Prop) : Prop := ∀ s, I s → I (c.wipe s)

theorem arcfourNext_some (s : Arcfour) (h : s.state.length = 256) :
    ∃ b s', arcfourNext s = some (b, s') ∧ s'.state.length = 256 := by
  have lt : ∀ x : Byte, x.toNat < s.state.length := fun x => by have := x.isLt; omega
  unfold arcfourNext
  simp only []
  rw [List.getElem?_eq_getElem (lt _)]
  simp only []
  rw [List.getElem?_eq_getElem (lt _)]
  simp only []
  rw [List.getElem?_eq_getElem (by simp only [List.length_set]; exact lt _)]
  exact ⟨_, _, rfl, by simp [h]⟩

theorem arcfour_safe : SafeStream arcfour (fun s => s.state.length = 256) anyArgs :=
  checkedStream_safe arcfourNext_some

theorem arcfour_wipeSafe : SWipeSafe arcfour (fun s => s.state.length = 256) :=
  fun s h => by simpa [arcfour, checkedStream, Arcfour.wipe] using h

theorem arcfourMix_length (key : Bytes) : ∀ (n i : Nat) (a b : Byte) (s : Bytes),
    (arcfourMix key n i a b s).length = s.length
  | 0, _, _, _, _ => rfl
  | n + 1, i, a, b, s => by
    rw [arcfourMix, arcfourMix_length key n]
    simp [swapAt]

theorem arcfourInit_safe {key : Bytes} {s : Arcfour} (h : arcfourInit key = .ok s) :
    s.state.length = 256 := by
  unfold arcfourInit at h
  split at h
  · have := Except.ok.inj h
    rw [← this, arcfourCookKey]
    simp only []
    rw [arcfourMix_length, List.length_map, List.length_range]
  · cases h

theorem chachaBlock_output64 (c : ChaCha) : (chachaBlock c).output.length = 64 := by
  simp [chachaBlock, toLE32]

theorem chachaNext_some (s : ChaCha) (h : s.output.length = 64) :
    ∃ b s', chachaNext s = some (b, s') ∧ s'.output.length = 64 := by
  unfold chachaNext
  by_cases hn : s.next ≥ 64
  · simp only [if_pos hn]
    rw [List.getElem?_eq_getElem (by rw [chachaBlock_output64]; decide)]
    exact ⟨_, _, rfl, chachaBlock_output64 s⟩
  · simp only [if_neg hn]
    rw [List.getElem?_eq_getElem (by omega)]
    exact ⟨_, _, rfl, h⟩

theorem chacha20_safe : SafeStream chacha20 (fun s => s.output.length = 64) anyArgs :=
  checkedStream_safe chachaNext_some

theorem chacha20_wipeSafe : SWipeSafe chacha20 (fun s => s.output.length = 64) :=
  fun s h => by simpa [chacha20, checkedStream, ChaCha.wipe] using h

theorem chacha20Init_safe {env : Env} {key : Bytes} {iv : Option Bytes} {ctr : Option W64} {s : ChaCha}
    (h : chacha20Init env key iv ctr = .ok s) : s.output.length = 64 := by
  unfold chacha20Init at h
  simp only [] at h
  split at h
  · cases h
  · have key : ∀ iv c, (chachaInit env key iv c).output.length = 64 := fun _ _ => Env.create_length _ _
    split at h
    · rw [← Except.ok.inj h]; exact key _ _
    · split at h
      · rw [← Except.ok.inj h]; exact key _ _
      · cases h

/-! ### `Stream.cipher` -/

/-- Weak invariant of `Stream.cipher`. -/
structure StreamSafe (I : σ → Prop) (t : StreamSt σ) : Prop where
  cst : I t.c
  charbuf : t.charbuf.length = 1
  ob : t.ob.Safe

variable {c : StreamCipher σ} {I : σ → Prop} {ok : Src → Bytes → Int → Int → Int → Prop}

theorem streamPut_safe (h : SafeStream c I ok) (env : Env) (src : Bytes) (ofs len : Int) (t : StreamSt σ)
    (ht : StreamSafe I t)
    (hok : ∀ o : OBuf, o.Safe → (o.oend : Int) + len ≤ o.obuf.length → ok (.other src) o.obuf ofs o.oend len) :
    (streamPut env c src ofs len t).Post (fun _ t' => StreamSafe I t' ∧ InRange src ofs len)
      (fun e t' => StreamSafe I t' ∧ RangeExn e) := by
  unfold streamPut
  refine Post.bind (Q := fun _ t' => StreamSafe I t' ∧ (t'.ob.oend : Int) + len ≤ t'.ob.obuf.length)
    (Post.zoom (OBuf.ensureCapacity_safe env len t.ob ht.ob)
      (fun _ o x => ⟨⟨ht.cst, ht.charbuf, x.1⟩, x.2⟩)
      fun e o x => ⟨⟨ht.cst, ht.charbuf, x.2 ▸ ht.ob⟩, .inr (.inr (.inl x.1))⟩) ?_
  rintro - t1 ⟨h1, hcap⟩
  have hr := h.run (src := .other src) (so := ofs) (dofs := t1.ob.oend) (len := len) (dst := t1.ob.obuf)
    h1.cst (hok _ h1.ob hcap)
  refine Post.bind (Q := fun _ t' => StreamSafe I t' ∧ (t'.ob.oend : Int) + len ≤ t'.ob.obuf.length
    ∧ InRange src ofs len) ?_ ?_
  · cases hc : c.transform (.other src) ofs t1.ob.oend len (t1.c, t1.ob.obuf) with
    | ok a p =>
      rw [hc] at hr
      obtain ⟨r1, r2, r3, r4, r5, -⟩ := hr
      refine ⟨⟨r1, h1.charbuf, h1.ob.set r2 (Nat.le_refl _) h1.ob.le⟩, ?_, r3, r4, r5⟩
      show (t1.ob.oend : Int) + len ≤ p.2.length
      rw [r2]; exact hcap
    | exn e p =>
      rw [hc] at hr
      refine ⟨⟨hr.2.1, h1.charbuf, h1.ob.set hr.2.2 (Nat.le_refl _) h1.ob.le⟩, ?_⟩
      rcases hr.1 with h | h
      · exact .inl h
      · exact .inr (.inl h)
    | ub => rw [hc] at hr; exact hr.elim
    | loop => rw [hc] at hr; exact hr.elim
  · rintro - t2 ⟨h2, hcap2, hin⟩
    have := hin.1
    exact ⟨⟨h2.cst, h2.charbuf, h2.ob.set rfl (Nat.le_add_right _ _) (by omega)⟩, hin⟩

theorem streamPutChar_safe (h : SafeStream c I ok) (env : Env) (ch : Byte) (t : StreamSt σ)
    (ht : StreamSafe I t)
    (hok : ∀ (b : Bytes) (o : OBuf), b.length = 1 → o.Safe → (o.oend : Int) + 1 ≤ o.obuf.length →
      ok (.other b) o.obuf 0 o.oend 1) :
    (streamPutChar env c ch t).Post (fun _ => StreamSafe I) (fun _ => StreamSafe I) := by
  unfold streamPutChar
  refine Post.bind_get ?_
  refine Post.bind_orRaise ht ?_
  intro cb hb
  have hl := (bytesSet_length hb).trans ht.charbuf
  refine Post.bind_modify ?_
  exact Post.mono (streamPut_safe h env cb 0 1 _ ⟨ht.cst, hl, ht.ob⟩ (fun o ho hc => hok cb o hl ho hc))
    (fun _ _ x => x.1) fun _ _ x => x.1

theorem inheritBuf_safe {τ : Type} {get : τ → OBuf} {set : OBuf → τ → τ} {p : PutMethods τ} {I : τ → Prop}
    (hg : ∀ t, I t → (get t).Safe) (hs : ∀ t o, I t → o.Safe → I (set o t))
    (h1 : ∀ b ofs len t, I t → (p.putSubstring b ofs len t).Post (fun _ => I) (fun _ => I))
    (h2 : ∀ s t, I t → (p.putString s t).Post (fun _ => I) (fun _ => I))
    (h3 : ∀ c t, I t → (p.putChar c t).Post (fun _ => I) (fun _ => I))
    (h4 : ∀ b t, I t → (p.putByte b t).Post (fun _ => I) (fun _ => I)) :
    TSafe (inheritBuf get set p) I where
  putSubstring := h1
  putString := h2
  putChar := h3
  putByte := h4
  availableOutput t ht := Post.zoom (OBuf.availableOutput_safe _ (hg t ht)) (fun _ _ x => hs _ _ ht x)
    fun _ _ x => hs _ _ ht x
  getString t ht := Post.zoom (OBuf.getString_safe _ (hg t ht)) (fun _ _ x => hs _ _ ht x)
    fun _ _ x => hs _ _ ht x
  getSubstring t ht := Post.zoom (OBuf.getSubstring_safe _ (hg t ht)) (fun _ _ x => hs _ _ ht x.1)
    fun _ _ x => hs _ _ ht x
  getChar t ht := Post.zoom (OBuf.getChar_safe _ (hg t ht)) (fun _ _ x => hs _ _ ht x)
    fun _ _ x => hs _ _ ht x
  getByte t ht := Post.zoom (OBuf.getByte_safe _ (hg t ht)) (fun _ _ x => hs _ _ ht x)
    fun _ _ x => hs _ _ ht x

theorem streamTransform_safe (h : SafeStream c I anyArgs) (env : Env) :
    TSafe (streamTransform env c) (StreamSafe I) :=
  inheritBuf_safe (fun _ ht => ht.ob) (fun _ _ ht ho => ⟨ht.cst, ht.charbuf, ho⟩)
    (fun b ofs len t ht => Post.mono (streamPut_safe h env b ofs len t ht (fun _ _ _ => trivial))
      (fun _ _ x => x.1) fun _ _ x => x.1)
    (fun b t ht => Post.mono (streamPut_safe h env b 0 b.length t ht (fun _ _ _ => trivial))
      (fun _ _ x => x.1) fun _ _ x => x.1)
    (fun ch t ht => streamPutChar_safe h env ch t ht (fun _ _ _ _ _ => trivial))
    (fun b t ht => streamPutChar_safe h env (BitVec.ofInt 8 b) t ht (fun _ _ _ _ _ => trivial))

theorem streamTransform_fin (env : Env) (c : StreamCipher σ) :
    TFinSafe (streamTransform env c) (StreamSafe I) := ⟨fun _ ht => ht, fun _ ht => ht⟩

theorem streamTransform_wipe (hw : SWipeSafe c I) (env : Env) :
    TWipeSafe (streamTransform env c) (StreamSafe I) := by
  intro t ht
  exact ⟨hw _ ht.cst, by simpa using ht.charbuf, OBuf.wipe_safe _ ht.ob⟩

theorem streamInit_safe (env : Env) {s : σ} (hs : I s) : StreamSafe I (streamInit env s) :=
  ⟨hs, by simp [streamInit], OBuf.safe_init env (by decide)⟩

theorem streamPut_range (h : SafeStream c I anyArgs) (env : Env) (t : StreamSt σ) (ht : StreamSafe I t)
    (b : Bytes) (ofs len : Int) (hr : ¬ InRange b ofs len) :
    (∃ e t', streamPut env c b ofs len t = .exn e t' ∧ RangeExn e) := by
  have := streamPut_safe h env b ofs len t ht (fun _ _ _ => trivial)
  cases hc : streamPut env c b ofs len t with
  | ok a t' => rw [hc] at this; exact absurd this.2 hr
  | exn e t' => rw [hc] at this; exact ⟨e, t', rfl, this.2⟩
  | ub => rw [hc] at this; exact this.elim
  | loop => rw [hc] at this; exact this.elim

namespace Cipher

theorem stream_ok (h : SafeStream c I anyArgs) (hw : SWipeSafe c I) {s : σ} (hs : I s) (env : Env) :
    TransformOk True ⟨streamTransform env c, streamInit env s⟩ :=
  ⟨_, streamTransform_safe h env, streamTransform_fin env c, streamInit_safe env hs,
    fun _ => streamTransform_wipe hw env, fun t ht b ofs len hr => .inl (streamPut_range h env t ht b ofs len hr)⟩

theorem arcfour_ok {env : Env} {key : Bytes} {dir : Dir} {A : AnyTransform}
    (h : Cipher.arcfour env key dir = .ok A) : TransformOk True A := by
  obtain ⟨s, hs, rfl⟩ := Except.eq_ok_of_map h
  exact stream_ok arcfour_safe arcfour_wipeSafe (arcfourInit_safe hs) env

theorem chacha20_ok {env : Env} {iv : Option Bytes} {ctr : Option W64} {key : Bytes} {dir : Dir}
    {A : AnyTransform} (h : Cipher.chacha20 env iv ctr key dir = .ok A) : TransformOk True A := by
  obtain ⟨s, hs, rfl⟩ := Except.eq_ok_of_map h
  exact stream_ok chacha20_safe chacha20_wipeSafe (chacha20Init_safe hs) env

end Cipher
end Verif
