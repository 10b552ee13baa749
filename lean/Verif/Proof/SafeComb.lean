import Verif.Proof.SafeHash
import Verif.Model.Combinators
import Verif.Props.C29_Blake3
/-
Safety of combinations of objects, and of BLAKE3.
-/
namespace Verif

open Spec

theorem MemorySafe.mono {run : μ → M τ Unit} {p q : μ → Prop} {t0 : τ} (hpq : ∀ c, p c → q c)
    (h : MemorySafe run q t0) : MemorySafe run p t0 := by
  have hr : ∀ t, Reachable run p t0 t → Reachable run q t0 t := by
    intro t ht
    induction ht with
    | start => exact .start
    | returned _ hc hk ih => exact .returned ih (hpq _ hc) hk
    | raised _ hc hk ih => exact .raised ih (hpq _ hc) hk
  exact fun t ht c hc => h t (hr t ht) c (hpq c hc)

/-- `MemorySafe` as preservation of reachability. -/
theorem MemorySafe.preserves {run : μ → M τ Unit} {p : μ → Prop} {t0 : τ} (h : MemorySafe run p t0) :
    Preserves run p (Reachable run p t0) := by
  intro c hc t ht
  rcases h t ht c hc with ⟨t', h'⟩ | ⟨e, t', h'⟩
  · rw [h']; exact .returned ht hc h'
  · rw [h']; exact .raised ht hc h'

theorem Post.of_discard {m : M σ α} {s : σ} {I : σ → Prop} {E : Exn → σ → Prop}
    (h : ((Spec.discard m) s).Post (fun _ => I) E) : (m s).Post (fun _ => I) E := by
  unfold Spec.discard at h
  rw [M.bind_def] at h
  cases hm : m s with
  | ok a s' => rw [hm] at h; exact h
  | exn e s' => rw [hm] at h; exact h
  | ub => rw [hm] at h; exact h.elim
  | loop => rw [hm] at h; exact h.elim

/-- The predicates on calls considered here. -/
def wipeOr (w : Bool) : TCall → Prop := fun c => c ≠ .buf .wipe ∨ w = true
def wipeOrH (w : Bool) : HCall → Prop := fun c => c ≠ .wipe ∨ w = true

theorem TSafe.of_preserves {T : Transform τ} {I : τ → Prop} {w : Bool} (h : Preserves (invoke T) (wipeOr w) I) :
    TSafe T I ∧ TFinSafe T I ∧ (w = true → TWipeSafe T I) := by
  have c : ∀ c, c ≠ .wipe → ∀ t, I t → (invokeBuf T c t).Post (fun _ => I) (fun _ => I) := fun c hc t ht =>
    h (.buf c) (.inl (fun e => hc (TCall.buf.inj e))) t ht
  refine ⟨⟨fun b o l => c (.putSubstring b o l) (by simp), fun s => c (.putString s) (by simp),
    fun x => c (.putChar x) (by simp), fun x => c (.putByte x) (by simp),
    fun t ht => Post.of_discard (c .availableOutput (by simp) t ht),
    fun t ht => Post.of_discard (c .getString (by simp) t ht),
    fun t ht => Post.of_discard (c .getSubstring (by simp) t ht),
    fun t ht => Post.of_discard (c .getChar (by simp) t ht),
    fun t ht => Post.of_discard (c .getByte (by simp) t ht)⟩,
    ⟨fun t ht => h .flush (.inl (by simp)) t ht, fun t ht => h .finish (.inl (by simp)) t ht⟩,
    fun hw t ht => h (.buf .wipe) (.inr hw) t ht⟩

theorem HSafe.of_preserves {H : HashObj τ} {I : τ → Prop} {w : Bool} (h : Preserves (invokeH H) (wipeOrH w) I) :
    HSafe H I (fun _ => True) ∧ (w = true → HWipeSafe H I) :=
  ⟨⟨fun b o l => h (.addSubstring b o l) (.inl (by simp)), fun s => h (.addString s) (.inl (by simp)),
    fun x => h (.addChar x) (.inl (by simp)), fun x => h (.addByte x) (.inl (by simp)),
    fun t ht => Post.mono (Post.of_discard (h .result (.inl (by simp)) t ht)) (fun _ _ x => ⟨x, trivial⟩)
      fun _ _ x => x⟩,
    fun hw t ht => h .wipe (.inr hw) t ht⟩

theorem TSafe.wipeOr {T : Transform τ} {I : τ → Prop} {w : Bool} (h : TSafe T I) (hf : TFinSafe T I)
    (hw : w = true → TWipeSafe T I) : Preserves (invoke T) (wipeOr w) I := by
  intro c hc t ht
  cases c with
  | buf c =>
    rcases hc with hc | hc
    · exact h.buf (.inl fun e => hc (e ▸ rfl)) t ht
    · exact h.buf (.inr (hw hc)) t ht
  | flush => exact hf.flush t ht
  | finish => exact hf.finish t ht

variable {τ1 τ2 η : Type}

theorem Post.onFst {m : M σ α} {p : σ × ρ} {I : σ → Prop} {J : ρ → Prop}
    (h : (m p.1).Post (fun _ => I) (fun _ => I)) (hj : J p.2) :
    (M.onFst m p).Post (fun _ q => I q.1 ∧ J q.2) (fun _ q => I q.1 ∧ J q.2) :=
  Post.zoom h (fun _ _ x => ⟨x, hj⟩) fun _ _ x => ⟨x, hj⟩

theorem Post.onSnd {m : M ρ α} {p : σ × ρ} {I : σ → Prop} {J : ρ → Prop}
    (h : (m p.2).Post (fun _ => J) (fun _ => J)) (hi : I p.1) :
    (M.onSnd m p).Post (fun _ q => I q.1 ∧ J q.2) (fun _ q => I q.1 ∧ J q.2) :=
  Post.zoom h (fun _ _ x => ⟨hi, x⟩) fun _ _ x => ⟨hi, x⟩

theorem compose_safe {T1 : Transform τ1} {T2 : Transform τ2} {I : τ1 → Prop} {J : τ2 → Prop} {w : Bool}
    (h1 : TSafe T1 I) (f1 : TFinSafe T1 I) (w1 : w = true → TWipeSafe T1 I)
    (h2 : TSafe T2 J) (f2 : TFinSafe T2 J) (w2 : w = true → TWipeSafe T2 J) :
    Preserves (invoke (compose T1 T2)) (wipeOr w) (fun p => I p.1 ∧ J p.2) := by
  have tr : ∀ p : τ1 × τ2, I p.1 ∧ J p.2 → (composeTransfer T1 T2 p).Post (fun _ p => I p.1 ∧ J p.2)
      (fun _ p => I p.1 ∧ J p.2) := by
    intro p hp
    unfold composeTransfer
    refine Post.bind (Post.onFst (h1.getSubstring _ hp.1) hp.2) ?_
    rintro ⟨buf, ofs, len⟩ q hq
    exact Post.onSnd (h2.putSubstring buf ofs len _ hq.2) hq.1
  have put : ∀ (m : M τ1 Unit), (∀ t, I t → (m t).Post (fun _ => I) (fun _ => I)) → ∀ p : τ1 × τ2, I p.1 ∧ J p.2 →
      ((do M.onFst m; composeTransfer T1 T2 : M (τ1 × τ2) Unit) p).Post (fun _ p => I p.1 ∧ J p.2)
        (fun _ p => I p.1 ∧ J p.2) := fun m hm p hp =>
    Post.bind (Post.onFst (hm _ hp.1) hp.2) fun _ q hq => tr q hq
  refine TSafe.wipeOr ⟨fun b o l => put _ (h1.putSubstring b o l), fun s => put _ (h1.putString s),
    fun c => put _ (h1.putChar c), fun b => put _ (h1.putByte b),
    fun p hp => Post.onSnd (h2.availableOutput _ hp.2) hp.1, fun p hp => Post.onSnd (h2.getString _ hp.2) hp.1,
    fun p hp => Post.onSnd (h2.getSubstring _ hp.2) hp.1, fun p hp => Post.onSnd (h2.getChar _ hp.2) hp.1,
    fun p hp => Post.onSnd (h2.getByte _ hp.2) hp.1⟩ ⟨?_, ?_⟩ ?_
  · intro p hp
    refine Post.bind (Post.onFst (f1.flush _ hp.1) hp.2) fun _ q hq => ?_
    exact Post.bind (tr q hq) fun _ q hq => Post.onSnd (f2.flush _ hq.2) hq.1
  · intro p hp
    refine Post.bind (Post.onFst (f1.finish _ hp.1) hp.2) fun _ q hq => ?_
    exact Post.bind (tr q hq) fun _ q hq => Post.onSnd (f2.finish _ hq.2) hq.1
  · intro hw p hp
    exact Post.bind (Post.onFst (w1 hw _ hp.1) hp.2) fun _ q hq => Post.onSnd (w2 hw _ hq.2) hq.1

/-- The same for authenticated transforms. -/
def wipeOrA (w : Bool) : ACall → Prop := fun c => c ≠ .buf .wipe ∨ w = true

theorem TSafe.wipeOrA {A : AuthTransform τ} {I : τ → Prop} {w : Bool} (h : TSafe A.base I)
    (hf : ∀ t, I t → (A.finishAndGetTag t).Post (fun _ => I) (fun _ => I))
    (hw : w = true → TWipeSafe A.base I) : Preserves (invokeA A) (wipeOrA w) I := by
  intro c hc t ht
  cases c with
  | buf c =>
    rcases hc with hc | hc
    · exact h.buf (.inl fun e => hc (e ▸ rfl)) t ht
    · exact h.buf (.inr (hw hc)) t ht
  | finishAndGetTag => exact Post.discard (hf t ht)

theorem andHash_safe {T : Transform τ1} {H : HashObj η} {I : τ1 → Prop} {J : η → Prop} {L : Bytes → Prop}
    {w : Bool} (h1 : TSafe T I) (f1 : TFinSafe T I) (w1 : w = true → TWipeSafe T I)
    (h2 : HSafe H J L) (w2 : w = true → HWipeSafe H J) :
    Preserves (invokeA (transformAndHash T H)) (wipeOrA w) (fun p => I p.1 ∧ J p.2) := by
  have put : ∀ (m : M τ1 Unit) (k : M η Unit), (∀ t, I t → (m t).Post (fun _ => I) (fun _ => I)) →
      (∀ t, J t → (k t).Post (fun _ => J) (fun _ => J)) → ∀ p : τ1 × η, I p.1 ∧ J p.2 →
      ((do M.onFst m; M.onSnd k : M (τ1 × η) Unit) p).Post (fun _ p => I p.1 ∧ J p.2)
        (fun _ p => I p.1 ∧ J p.2) := fun m k hm hk p hp =>
    Post.bind (Post.onFst (hm _ hp.1) hp.2) fun _ q hq => Post.onSnd (hk _ hq.2) hq.1
  refine TSafe.wipeOrA ⟨fun b o l => put _ _ (h1.putSubstring b o l) (h2.addSubstring b o l),
    fun s => put _ _ (h1.putString s) (h2.addString s),
    fun c => put _ _ (h1.putChar c) (h2.addChar c), fun b => put _ _ (h1.putByte b) (h2.addByte b),
    fun p hp => Post.onFst (h1.availableOutput _ hp.1) hp.2, fun p hp => Post.onFst (h1.getString _ hp.1) hp.2,
    fun p hp => Post.onFst (h1.getSubstring _ hp.1) hp.2, fun p hp => Post.onFst (h1.getChar _ hp.1) hp.2,
    fun p hp => Post.onFst (h1.getByte _ hp.1) hp.2⟩ ?_ ?_
  · intro p hp
    exact Post.bind (Post.onFst (f1.finish _ hp.1) hp.2) fun _ q hq =>
      Post.onSnd (Post.mono (h2.result _ hq.2) (fun _ _ x => x.1) fun _ _ x => x) hq.1
  · exact fun hw => put _ _ (w1 hw) (w2 hw)

/-- Invariant of `transform_then_hash`. -/
def ThenSafe (I : τ1 → Prop) (J : η → Prop) (st : ThenHashSt τ1 η) : Prop := I st.tr ∧ J st.h ∧ st.ob.Safe

theorem thenHash_safe {T : Transform τ1} {H : HashObj η} {I : τ1 → Prop} {J : η → Prop} {L : Bytes → Prop}
    {w : Bool} (env : Env) (h1 : TSafe T I) (f1 : TFinSafe T I) (w1 : w = true → TWipeSafe T I)
    (h2 : HSafe H J L) (w2 : w = true → HWipeSafe H J) :
    Preserves (invokeA (transformThenHash env T H)) (wipeOrA w) (ThenSafe I J) := by
  have onTr : ∀ {α : Type} (m : M τ1 α), (∀ t, I t → (m t).Post (fun _ => I) (fun _ => I)) →
      ∀ st : ThenHashSt τ1 η, ThenSafe I J st →
      (ThenHashSt.onTr m st).Post (fun _ => ThenSafe I J) (fun _ => ThenSafe I J) := fun m hm st hs =>
    Post.zoom (hm _ hs.1) (fun _ _ x => ⟨x, hs.2⟩) fun _ _ x => ⟨x, hs.2⟩
  have onHash : ∀ {α : Type} (m : M η α), (∀ t, J t → (m t).Post (fun _ => J) (fun _ => J)) →
      ∀ st : ThenHashSt τ1 η, ThenSafe I J st →
      (ThenHashSt.onHash m st).Post (fun _ => ThenSafe I J) (fun _ => ThenSafe I J) := fun m hm st hs =>
    Post.zoom (hm _ hs.2.1) (fun _ _ x => ⟨hs.1, x, hs.2.2⟩) fun _ _ x => ⟨hs.1, x, hs.2.2⟩
  have onBuf : ∀ {α : Type} (m : M OBuf α), (∀ t, OBuf.Safe t → (m t).Post (fun _ => OBuf.Safe) (fun _ => OBuf.Safe)) →
      ∀ st : ThenHashSt τ1 η, ThenSafe I J st →
      (ThenHashSt.onBuf m st).Post (fun _ => ThenSafe I J) (fun _ => ThenSafe I J) := fun m hm st hs =>
    Post.zoom (hm _ hs.2.2) (fun _ _ x => ⟨hs.1, hs.2.1, x⟩) fun _ _ x => ⟨hs.1, hs.2.1, x⟩
  have tr : ∀ st : ThenHashSt τ1 η, ThenSafe I J st →
      (ThenHashSt.transfer env T H st).Post (fun _ => ThenSafe I J) (fun _ => ThenSafe I J) := by
    intro st hs
    unfold ThenHashSt.transfer
    refine Post.bind (onTr _ h1.getSubstring st hs) ?_
    rintro ⟨buf, ofs, len⟩ s1 hs1
    refine Post.bind (onHash _ (h2.addSubstring buf ofs len) s1 hs1) ?_
    rintro - s2 hs2
    refine Post.bind (onBuf _ (fun o ho => Post.mono (OBuf.ensureCapacity_safe env len o ho) (fun _ _ x => x.1)
      fun _ _ x => x.2 ▸ ho) s2 hs2) ?_
    rintro - s3 hs3
    refine Post.bind_get ?_
    refine Post.bind_orRaise hs3 ?_
    intro b hb
    have hl := bytesBlit_length hb
    have hd : (s3.ob.oend : Int) + len ≤ s3.ob.obuf.length := by
      unfold bytesBlit at hb
      split at hb
      · next hc => omega
      · cases hb
    have hle := hs3.2.2.le
    exact ⟨hs3.1, hs3.2.1, hs3.2.2.set hl (Nat.le_add_right _ _) (by omega)⟩
  have put : ∀ (m : M τ1 Unit), (∀ t, I t → (m t).Post (fun _ => I) (fun _ => I)) →
      ∀ st : ThenHashSt τ1 η, ThenSafe I J st →
      ((do ThenHashSt.onTr m; ThenHashSt.transfer env T H : M (ThenHashSt τ1 η) Unit) st).Post
        (fun _ => ThenSafe I J) (fun _ => ThenSafe I J) := fun m hm st hs =>
    Post.bind (onTr m hm st hs) fun _ q hq => tr q hq
  refine TSafe.wipeOrA ⟨fun b o l => put _ (h1.putSubstring b o l), fun s => put _ (h1.putString s),
    fun c => put _ (h1.putChar c), fun b => put _ (h1.putByte b),
    onBuf _ OBuf.availableOutput_safe, onBuf _ OBuf.getString_safe,
    onBuf _ (fun o ho => Post.mono (OBuf.getSubstring_safe o ho) (fun _ _ x => x.1) fun _ _ x => x),
    onBuf _ OBuf.getChar_safe, onBuf _ OBuf.getByte_safe⟩ ?_ ?_
  · intro st hs
    refine Post.bind (onTr _ f1.finish st hs) fun _ q hq => ?_
    exact Post.bind (tr q hq) fun _ q hq =>
      onHash _ (fun t ht => Post.mono (h2.result t ht) (fun _ _ x => x.1) fun _ _ x => x) q hq
  · intro hw st hs
    refine Post.bind (onBuf _ OBuf.wipe_safe st hs) fun _ q hq => ?_
    exact Post.bind (onTr _ (w1 hw) q hq) fun _ q hq => onHash _ (w2 hw) q hq

/-! ### BLAKE3 -/

theorem blake3_safe {e : B3Env} (he : 1 ≤ e.maxSimd) {key : Bytes} {sz : Int} {stack0 : Bytes}
    (hs : stack0.length = 1760) {s : Option B3Hasher} (h : b3New key sz stack0 = .ok s) :
    MemorySafeBelow (2 ^ 64) (invokeH (b3Class e sz)) notWipeH HCall.bytes s := by
  unfold b3New at h
  split at h
  · next hk =>
    cases h
    obtain ⟨f, -, hr⟩ := b3Init_rep key stack0 hk.2.2 hs
    generalize B3.keyWords key = kw at hr
    -- the effect of a call
    have step : ∀ n t c, (∃ h m, t = some h ∧ HRep kw f m h ∧ m.length ≤ n) → notWipeH c →
        n + c.bytes < 2 ^ 64 →
        (invokeH (b3Class e sz) c t).Post (fun _ t' => ∃ h m, t' = some h ∧ HRep kw f m h ∧ m.length ≤ n + c.bytes)
          (fun _ t' => ∃ h m, t' = some h ∧ HRep kw f m h ∧ m.length ≤ n + c.bytes) := by
      rintro n t c ⟨h, m, rfl, hr, hm⟩ hc hb
      have upd : ∀ d : Bytes, d.length ≤ c.bytes → ∃ h', b3Update e h d = some h' ∧ HRep kw f (m ++ d) h' :=
        fun d hd => b3Update_rep he d hr (by rw [List.length_append]; omega)
      have add : ∀ d : Bytes, d.length ≤ c.bytes →
          ((do let x ← M.get
               let x' ← M.orUB (x.bind fun x => (b3Update e x d).map some)
               M.modify fun _ => x' : M (Option B3Hasher) Unit) (some h)).Post
            (fun _ t' => ∃ h m, t' = some h ∧ HRep kw f m h ∧ m.length ≤ n + c.bytes)
            (fun _ t' => ∃ h m, t' = some h ∧ HRep kw f m h ∧ m.length ≤ n + c.bytes) := by
        intro d hd
        obtain ⟨h', h1, h2⟩ := upd d hd
        refine Post.bind_get ?_
        refine Post.bind_orUB (a := some h') (by rw [Option.bind_some, h1, Option.map_some]) ?_
        exact ⟨h', m ++ d, rfl, h2, by rw [List.length_append]; omega⟩
      cases c with
      | addSubstring b ofs len =>
        by_cases hrng : InRange b ofs len
        · simp only [invokeH, b3Class, stubHash]
          rw [if_neg (by unfold InRange at hrng; omega)]
          exact add _ (by simp only [slice_length, HCall.bytes]; omega)
        · rw [invokeH, b3Class, stubHash_addSubstring_bad hrng]
          exact ⟨h, m, rfl, hr, by omega⟩
      | addString s => exact add s (Nat.le_refl _)
      | addChar x => exact add [x] (Nat.le_refl _)
      | addByte x => exact add [_] (Nat.le_refl _)
      | result =>
        refine Post.discard ?_
        rw [b3Class_result hr]
        exact ⟨h, m, rfl, hr, by omega⟩
      | wipe => exact absurd rfl hc
    have reach : ∀ n t, ReachableIn (invokeH (b3Class e sz)) notWipeH HCall.bytes (some (b3Init key stack0)) n t →
        n < 2 ^ 64 → ∃ h m, t = some h ∧ HRep kw f m h ∧ m.length ≤ n := by
      intro n t ht
      induction ht with
      | start => exact fun _ => ⟨_, _, rfl, hr, Nat.zero_le _⟩
      | returned _ hc hk ih =>
        intro hn
        have := step _ _ _ (ih (by omega)) hc hn
        rw [hk] at this
        exact this
      | raised _ hc hk ih =>
        intro hn
        have := step _ _ _ (ih (by omega)) hc hn
        rw [hk] at this
        exact this
    intro n t ht c hc hb
    have := step n t c (reach n t ht (by omega)) hc hb
    cases hk : invokeH (b3Class e sz) c t with
    | ok a s' => exact .inl ⟨s', rfl⟩
    | exn e s' => exact .inr ⟨e, s', rfl⟩
    | ub => rw [hk] at this; exact this.elim
    | loop => rw [hk] at this; exact this.elim
  · cases h

end Verif
