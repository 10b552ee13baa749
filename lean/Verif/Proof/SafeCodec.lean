import Verif.Proof.SafeStream
import Verif.Model.Codec
/-
Safety of the Base64 and hexadecimal transforms.
-/
namespace Verif

open Spec

/-- Exceptions of `put_char`. -/
def CharExn (e : Exn) : Prop := RangeExn e

theorem OBuf.emit_safe (env : Env) (cs : Bytes) (o : OBuf) (h : o.Safe) :
    (OBuf.emit env cs o).Post (fun _ => OBuf.Safe) (fun e o' => o'.Safe ∧ RangeExn e) := by
  unfold OBuf.emit
  refine Post.bind (Post.mono (OBuf.ensureCapacity_safe env cs.length o h) (fun _ _ x => x)
    fun _ _ x => ⟨x.2 ▸ h, x.1 ▸ .inr (.inr (.inl rfl))⟩) ?_
  rintro - o1 ⟨h1, c1⟩
  have key : ∀ (l : Bytes) (i : Nat) (o2 : OBuf), o2.Safe → o2.obuf.length = o1.obuf.length →
      o2.oend = o1.oend →
      (OBuf.emit.sets i l o2).Post (fun _ o' => o'.Safe ∧ o'.obuf.length = o1.obuf.length ∧ o'.oend = o1.oend)
        (fun e o' => o'.Safe ∧ RangeExn e) := by
    intro l
    induction l with
    | nil => intro i o2 h2 l2 e2; exact ⟨h2, l2, e2⟩
    | cons c l ih =>
      intro i o2 h2 l2 e2
      rw [OBuf.emit.sets]
      refine Post.bind_get ?_
      refine Post.bind_orRaise ⟨h2, .inl rfl⟩ ?_
      intro b hb
      have hl := bytesSet_length hb
      refine Post.bind_modify ?_
      exact ih _ _ (h2.set hl (Nat.le_refl _) h2.le) (hl.trans l2) e2
  refine Post.bind (key cs 0 o1 h1 rfl rfl) ?_
  rintro - o2 ⟨h2, l2, e2⟩
  exact h2.set rfl (Nat.le_add_right _ _) (by omega)

/-- `put_char` of a codec preserves an invariant that contains that of the output buffer. -/
abbrev CharSafe (put : Byte → M τ Unit) (I : τ → Prop) : Prop :=
  ∀ c t, I t → (put c t).Post (fun _ => I) (fun e t' => I t' ∧ RangeExn e)

variable {put : Byte → M τ Unit} {I : τ → Prop}

theorem putLoop_safe (h : CharSafe put I) (s : Bytes) : ∀ (n : Nat) (i : Int) (t : τ), I t →
    (putLoop put s i n t).Post (fun _ t' => I t' ∧ (n = 0 ∧ t' = t ∨ (0 ≤ i ∧ i + n ≤ s.length)))
      (fun e t' => I t' ∧ RangeExn e) := by
  intro n
  induction n with
  | zero => intro i t ht; exact ⟨ht, .inl ⟨rfl, rfl⟩⟩
  | succ n ih =>
    intro i t ht
    rw [putLoop]
    refine Post.bind_orRaise ⟨ht, .inl rfl⟩ ?_
    intro c hc
    have hi : 0 ≤ i ∧ i < s.length := by
      unfold bytesGet at hc
      split at hc
      · next h0 =>
        obtain ⟨h1, -⟩ := List.getElem?_eq_some_iff.mp hc
        omega
      · cases hc
    refine Post.bind (h c t ht) ?_
    intro _ t1 h1
    refine Post.mono (ih (i + 1) t1 h1) ?_ (fun _ _ x => x)
    rintro - t2 ⟨x1, x2⟩
    refine ⟨x1, .inr ⟨hi.1, ?_⟩⟩
    rcases x2 with ⟨rfl, -⟩ | ⟨-, x2⟩ <;> push_cast <;> omega

theorem iterChars_safe (h : CharSafe put I) : ∀ (s : Bytes) (t : τ), I t →
    (iterChars put s t).Post (fun _ => I) (fun e t' => I t' ∧ RangeExn e) := by
  intro s
  induction s with
  | nil => intro t ht; exact ht
  | cons c s ih =>
    intro t ht
    rw [iterChars]
    exact Post.bind (h c t ht) fun _ t1 h1 => ih t1 h1

/-- The objects considered here can be used at will. -/
def CodecOk (T : Transform τ) (t0 : τ) : Prop :=
  ∃ I : τ → Prop, TSafe T I ∧ TFinSafe T I ∧ TWipeSafe T I ∧ I t0 ∧
    ∀ t, I t → ∀ b ofs len, ¬ InRange b ofs len →
      (∃ e t', T.putSubstring b ofs len t = .exn e t' ∧ RangeExn e)
        ∨ (len ≤ 0 ∧ T.putSubstring b ofs len t = .ok () t)

theorem CodecOk.any {T : Transform τ} {t0 : τ} (h : CodecOk T t0) :
    MemorySafe (invoke T) anyCall t0 ∧ RangeChecked (invoke T) anyCall t0 T.putSubstring := by
  obtain ⟨I, h1, h2, h3, h4, h5⟩ := h
  have hp := h1.any h2 h3
  exact ⟨hp.safe h4, fun t hr => h5 t (hp.reachable h4 hr)⟩

theorem charMethods_ok {get : τ → OBuf} {set : OBuf → τ → τ} {putByte : Int → M τ Unit}
    {flush finish wipe : M τ Unit} {t0 : τ} (hg : ∀ t, I t → (get t).Safe)
    (hs : ∀ t o, I t → o.Safe → I (set o t)) (h : CharSafe put I)
    (hb : ∀ b t, I t → (putByte b t).Post (fun _ => I) (fun _ => I))
    (hf : ∀ t, I t → (flush t).Post (fun _ => I) (fun _ => I))
    (hfi : ∀ t, I t → (finish t).Post (fun _ => I) (fun _ => I))
    (hw : ∀ t, I t → (wipe t).Post (fun _ => I) (fun _ => I)) (h0 : I t0) :
    CodecOk (inheritBuf get set (charMethods put putByte flush finish wipe)) t0 := by
  refine ⟨I, inheritBuf_safe hg hs
    (fun b ofs len t ht => Post.mono (putLoop_safe h b len.toNat ofs t ht) (fun _ _ x => x.1) fun _ _ x => x.1)
    (fun s t ht => Post.mono (iterChars_safe h s t ht) (fun _ _ x => x) fun _ _ x => x.1)
    (fun c t ht => Post.mono (h c t ht) (fun _ _ x => x) fun _ _ x => x.1) hb, ⟨hf, hfi⟩, hw, h0, ?_⟩
  intro t ht b ofs len hr
  have := putLoop_safe h b len.toNat ofs t ht
  change (∃ e t', putLoop put b ofs len.toNat t = .exn e t' ∧ _) ∨ (_ ∧ putLoop put b ofs len.toNat t = .ok () t)
  cases hc : putLoop put b ofs len.toNat t with
  | ok a t' =>
    rw [hc] at this
    rcases this.2 with ⟨h1, rfl⟩ | ⟨h1, h2⟩
    · exact .inr ⟨by omega, rfl⟩
    · by_cases hl : len ≤ 0
      · have : len.toNat = 0 := by omega
        rw [this] at hc
        cases hc
        exact .inr ⟨hl, rfl⟩
      · exact absurd ⟨by omega, h1, by omega⟩ hr
  | exn e t' => rw [hc] at this; exact .inl ⟨e, t', rfl, this.2⟩
  | ub => rw [hc] at this; exact this.elim
  | loop => rw [hc] at this; exact this.elim

theorem putByteChr_safe (h : CharSafe put I) (b : Int) (t : τ) (ht : I t) :
    (putByteChr put b t).Post (fun _ => I) (fun _ => I) := by
  unfold putByteChr
  exact Post.bind_orRaise ht fun c _ => Post.mono (h c t ht) (fun _ _ x => x) fun _ _ x => x.1

namespace B64

theorem Enc.out_safe {m : M OBuf Unit} {t : Enc}
    (hm : (m t.ob).Post (fun _ => OBuf.Safe) (fun e o => o.Safe ∧ RangeExn e)) :
    (Enc.out m t).Post (fun _ t' => t'.ob.Safe) (fun e t' => t'.ob.Safe ∧ RangeExn e) :=
  Post.zoom hm (fun _ _ x => x) fun _ _ x => x

theorem encPutChar_safe (env : Env) (multiline : Bool) :
    CharSafe (encPutChar env multiline) (fun t => t.ob.Safe) := by
  intro c t ht
  unfold encPutChar
  refine Post.bind_get ?_
  refine Post.bind_orRaise ⟨ht, .inl rfl⟩ ?_
  intro ib _
  refine Post.bind_modify ?_
  refine Post.bind_get ?_
  split
  · generalize ht' : ({ t with ibuf := ib, ipos := t.ipos + 1 } : Enc) = t1
    have h1 : t1.ob.Safe := by subst ht'; exact ht
    unfold encGroup
    refine Post.bind_get ?_
    refine Post.bind_orRaise ⟨h1, .inl rfl⟩ fun b0 _ => ?_
    refine Post.bind_orRaise ⟨h1, .inl rfl⟩ fun b1 _ => ?_
    refine Post.bind_orRaise ⟨h1, .inl rfl⟩ fun b2 _ => ?_
    refine Post.bind_orRaise ⟨h1, .inl rfl⟩ fun cs _ => ?_
    refine Post.bind (Enc.out_safe (OBuf.emit_safe env cs _ h1)) ?_
    rintro - t2 h2
    refine Post.bind_modify ?_
    refine Post.bind_get ?_
    split
    · refine Post.bind (Enc.out_safe (t := { t2 with ipos := 0, ocolumn := t2.ocolumn + 4 })
        (OBuf.emit_safe env _ _ h2)) ?_
      rintro - t3 h3
      exact h3
    · exact h2
  · exact ht

theorem encFinish_safe (env : Env) (multiline padding : Bool) (t : Enc) (ht : t.ob.Safe) :
    (encFinish env multiline padding t).Post (fun _ t => t.ob.Safe) (fun _ t => t.ob.Safe) := by
  have out : ∀ (cs : Bytes) (t : Enc), t.ob.Safe →
      (Enc.out (OBuf.emit env cs) t).Post (fun _ t => t.ob.Safe) (fun _ t => t.ob.Safe) := fun cs t ht =>
    Post.mono (Enc.out_safe (OBuf.emit_safe env cs _ ht)) (fun _ _ x => x) fun _ _ x => x.1
  unfold encFinish
  refine Post.bind (Q := fun _ (t : Enc) => t.ob.Safe) ?_ ?_
  · unfold encRest
    refine Post.bind_get ?_
    match t.ipos with
    | 0 => exact ht
    | 1 => exact Post.bind_orRaise ht fun b0 _ => Post.orRaise ht fun _ _ => ht
    | 2 => exact Post.bind_orRaise ht fun b0 _ => Post.bind_orRaise ht fun b1 _ => Post.orRaise ht fun _ _ => ht
    | _ + 3 => exact ht
  rintro cs t1 h1
  refine Post.bind (out cs t1 h1) ?_
  rintro - t2 h2
  refine Post.bind (Q := fun _ (t : Enc) => t.ob.Safe) ?_ ?_
  · unfold encPad
    refine Post.bind_get ?_
    split
    · exact out _ _ h2
    · exact h2
  rintro - t3 h3
  refine Post.bind (Q := fun _ (t : Enc) => t.ob.Safe) ?_ ?_
  · unfold encNewline
    refine Post.bind_get ?_
    split
    · exact out _ _ h3
    · exact h3
  rintro - t4 h4
  exact h4

theorem encode_ok (env : Env) (multiline padding : Bool) : CodecOk (encode env multiline padding) (encInit env) :=
  charMethods_ok (I := fun t : Enc => t.ob.Safe) (fun _ h => h) (fun _ _ _ h => h) (encPutChar_safe env multiline)
    (putByteChr_safe (encPutChar_safe env multiline)) (fun _ h => h) (encFinish_safe env multiline padding)
    (fun _ h => OBuf.wipe_safe _ h) (OBuf.safe_init env (by decide))

theorem Dec.out_safe {m : M OBuf Unit} {t : Dec}
    (hm : (m t.ob).Post (fun _ => OBuf.Safe) (fun e o => o.Safe ∧ RangeExn e)) :
    (Dec.out m t).Post (fun _ t' => t'.ob.Safe) (fun e t' => t'.ob.Safe ∧ RangeExn e) :=
  Post.zoom hm (fun _ _ x => x) fun _ _ x => x

theorem decodeChar_error {c : Byte} {e : Exn} (h : decodeChar c = .error e) : e = .error .badEncoding := by
  unfold decodeChar at h
  simp only [] at h
  split at h
  · cases h
  split at h
  · cases h
  split at h
  · cases h
  split at h
  · cases h
  split at h
  · cases h
  split at h
  · cases h
  exact (Except.error.inj h).symm

theorem decPutChar_safe (env : Env) : CharSafe (decPutChar env) (fun t => t.ob.Safe) := by
  intro c t ht
  unfold decPutChar
  split
  · exact ht
  · refine Post.bind_ofExcept ?_ ?_
    · intro e he
      refine ⟨ht, .inr (.inr (.inr ?_))⟩
      exact decodeChar_error he
    · intro n _
      split
      · unfold decDigit
        refine Post.bind_get ?_
        split
        · exact ⟨ht, .inr (.inr (.inr rfl))⟩
        · split
          · exact ⟨ht, .inl rfl⟩
          · refine Post.bind_modify ?_
            refine Post.bind_get ?_
            split
            · generalize ht' : ({ t with ibuf := t.ibuf.set t.ipos n.toNat, ipos := t.ipos + 1 } : Dec) = t1
              have h1 : t1.ob.Safe := by subst ht'; exact ht
              unfold decGroup
              refine Post.bind_get ?_
              refine Post.bind_orRaise ⟨h1, .inl rfl⟩ fun a0 _ => ?_
              refine Post.bind_orRaise ⟨h1, .inl rfl⟩ fun a1 _ => ?_
              refine Post.bind_orRaise ⟨h1, .inl rfl⟩ fun a2 _ => ?_
              refine Post.bind_orRaise ⟨h1, .inl rfl⟩ fun a3 _ => ?_
              refine Post.bind_orRaise ⟨h1, .inl rfl⟩ fun c0 _ => ?_
              refine Post.bind_orRaise ⟨h1, .inl rfl⟩ fun c1 _ => ?_
              refine Post.bind_orRaise ⟨h1, .inl rfl⟩ fun c2 _ => ?_
              refine Post.bind (Dec.out_safe (OBuf.emit_safe env _ _ h1)) ?_
              rintro - t2 h2
              exact h2
            · exact ht
      · exact ht

theorem decFinish_safe (env : Env) (t : Dec) (ht : t.ob.Safe) :
    (decFinish env t).Post (fun _ t => t.ob.Safe) (fun _ t => t.ob.Safe) := by
  unfold decFinish
  refine Post.bind_modify ?_
  refine Post.bind (Q := fun _ (t : Dec) => t.ob.Safe) ?_ ?_
  · unfold decRest
    refine Post.bind_get ?_
    simp only []
    match t.ipos with
    | 0 => exact ht
    | 1 => exact ht
    | 2 => exact Post.bind_orRaise ht fun _ _ => Post.bind_orRaise ht fun _ _ => Post.bind_orRaise ht fun _ _ => ht
    | 3 => exact Post.bind_orRaise ht fun _ _ => Post.bind_orRaise ht fun _ _ => Post.bind_orRaise ht fun _ _ =>
        Post.bind_orRaise ht fun _ _ => Post.bind_orRaise ht fun _ _ => ht
    | _ + 4 => exact ht
  · rintro cs t1 h1
    exact Post.mono (Dec.out_safe (OBuf.emit_safe env cs _ h1)) (fun _ _ x => x) fun _ _ x => x.1

theorem decode_ok (env : Env) : CodecOk (decode env) (decInit env) :=
  charMethods_ok (I := fun t : Dec => t.ob.Safe) (fun _ h => h) (fun _ _ _ h => h) (decPutChar_safe env)
    (putByteChr_safe (decPutChar_safe env)) (fun _ h => h) (decFinish_safe env)
    (fun _ h => OBuf.wipe_safe _ h) (OBuf.safe_init env (by decide))

end B64

namespace Hex

theorem encPutByte_safe (env : Env) (b : Int) (t : OBuf) (ht : t.Safe) :
    (encPutByte env b t).Post (fun _ => OBuf.Safe) (fun e t' => t'.Safe ∧ RangeExn e) := by
  unfold encPutByte
  refine Post.bind (Post.mono (OBuf.ensureCapacity_safe env 2 t ht) (fun _ _ x => x)
    fun _ _ x => ⟨x.2 ▸ ht, x.1 ▸ .inr (.inr (.inl rfl))⟩) ?_
  rintro - t1 ⟨h1, _⟩
  exact Post.bind_orRaise ⟨h1, .inl rfl⟩ fun cs _ => OBuf.emit_safe env cs t1 h1

theorem encode_ok (env : Env) : CodecOk (encode env) (encInit env) :=
  charMethods_ok (I := OBuf.Safe) (fun _ h => h) (fun _ _ _ h => h)
    (fun c => encPutByte_safe env c.toNat)
    (fun b t ht => Post.mono (encPutByte_safe env b t ht) (fun _ _ x => x) fun _ _ x => x.1)
    (fun _ h => h) (fun _ h => h) (fun _ h => OBuf.wipe_safe _ h) (OBuf.safe_init env (by decide))

theorem Dec.out_safe {m : M OBuf Unit} {t : Dec}
    (hm : (m t.ob).Post (fun _ => OBuf.Safe) (fun e o => o.Safe ∧ RangeExn e)) :
    (Dec.out m t).Post (fun _ t' => t'.ob.Safe) (fun e t' => t'.ob.Safe ∧ RangeExn e) :=
  Post.zoom hm (fun _ _ x => x) fun _ _ x => x

theorem decodeChar_error {c : Byte} {e : Exn} (h : decodeChar c = .error e) : e = .error .badEncoding := by
  unfold decodeChar at h
  simp only [] at h
  split at h
  · cases h
  split at h
  · cases h
  split at h
  · cases h
  split at h
  · cases h
  exact (Except.error.inj h).symm

theorem decPutChar_safe (env : Env) : CharSafe (decPutChar env) (fun t => t.ob.Safe) := by
  intro c t ht
  unfold decPutChar
  refine Post.bind_ofExcept ?_ ?_
  · intro e he
    refine ⟨ht, .inr (.inr (.inr ?_))⟩
    exact decodeChar_error he
  · intro n _
    split
    · unfold decDigit
      refine Post.bind_get ?_
      split
      · exact ⟨ht, .inl rfl⟩
      · refine Post.bind_modify ?_
        refine Post.bind_get ?_
        split
        · generalize ht' : ({ t with ibuf := t.ibuf.set t.ipos n.toNat, ipos := t.ipos + 1 } : Dec) = t1
          have h1 : t1.ob.Safe := by subst ht'; exact ht
          unfold decGroup
          refine Post.bind_get ?_
          refine Post.bind_orRaise ⟨h1, .inl rfl⟩ fun a0 _ => ?_
          refine Post.bind_orRaise ⟨h1, .inl rfl⟩ fun a1 _ => ?_
          generalize charChr ((a0 * 16 ||| a1 : Nat) : Int) = oc
          refine Post.bind_orRaise ⟨h1, .inl rfl⟩ fun c _ => ?_
          refine Post.bind (Dec.out_safe (OBuf.emit_safe env _ _ h1)) ?_
          rintro - t2 h2
          exact h2
        · exact ht
    · exact ht

theorem decode_ok (env : Env) : CodecOk (decode env) (decInit env) := by
  have hf : ∀ e : Exn, ∀ t : Dec, t.ob.Safe →
      ((do let t ← M.get; if t.ipos ≠ 0 then M.raise e : M Dec Unit) t).Post (fun _ t => t.ob.Safe)
        (fun _ t => t.ob.Safe) := by
    intro e t ht
    refine Post.bind_get ?_
    split
    · exact ht
    · exact ht
  exact charMethods_ok (I := fun t : Dec => t.ob.Safe) (fun _ h => h) (fun _ _ _ h => h) (decPutChar_safe env)
    (putByteChr_safe (decPutChar_safe env)) (hf _) (hf _)
    (fun _ h => OBuf.wipe_safe _ h) (OBuf.safe_init env (by decide))

end Hex
end Verif
