import Verif.Props.C115_InterruptCompose
import Verif.Props.C118_InterruptHash
import Verif.Model.InterruptAuth
/-
C115: `transform_then_hash` and `transform_and_hash` under asynchronous exceptions.
-/
namespace Verif

open Spec

namespace AuthI

open ComposeI ThenHashSt

variable {κ : Type} [Ticking κ] {τ η : Type} {I : τ → Prop} {J : η → Prop}

theorem and_safe {T : Transform τ} {H : HashObj η} {L : Bytes → Prop} {w : Bool}
    (h1 : TSafe T I) (f1 : TFinSafe T I) (w1 : w = true → TWipeSafe T I)
    (h2 : HSafe H J L) (w2 : w = true → HWipeSafe H J) :
    Preserves (invokeA (transformAndHashI (κ := κ) T H)) (wipeOrA w) (fun p => Both I J p.2) := by
  have both : ∀ {α : Type} (m : M τ Unit) (k : M η α), (∀ t, I t → (m t).Post (fun _ => I) (fun _ => I)) →
      (∀ t, J t → (k t).Post (fun _ => J) (fun _ => J)) → Codec.Keeps (κ := κ) (Both I J) (bothI m k) :=
    fun m k hm hk => pollThen (seq (one hm) fun _ => pollThen (two hk))
  have put : ∀ (m : M τ Unit) (k : M η Unit), (∀ t, I t → (m t).Post (fun _ => I) (fun _ => I)) →
      (∀ t, J t → (k t).Post (fun _ => J) (fun _ => J)) →
      Codec.Keeps (κ := κ) (Both I J) (bothI m k >>= fun _ => poll) :=
    fun m k hm hk => seq (both m k hm hk) fun _ => lastPoll
  refine TSafe.wipeOrA ⟨fun b o l => put _ _ (h1.putSubstring b o l) (h2.addSubstring b o l),
    fun s => put _ _ (h1.putString s) (h2.addString s),
    fun c => put _ _ (h1.putChar c) (h2.addChar c), fun b => put _ _ (h1.putByte b) (h2.addByte b),
    pollThen (one h1.availableOutput), pollThen (one h1.getString),
    pollThen (one h1.getSubstring), pollThen (one h1.getChar), pollThen (one h1.getByte)⟩ ?_ ?_
  · exact both _ _ f1.finish fun t ht => Post.mono (h2.result t ht) (fun _ _ x => x.1) fun _ _ x => x
  · exact fun hw => put _ _ (w1 hw) (w2 hw)

/-- Invariant of the interrupted `transform_then_hash`. -/
def ThenWeak (I : τ → Prop) (J : η → Prop) (st : ThenHashSt τ η) : Prop := I st.tr ∧ J st.h ∧ st.ob.Weak

theorem onTr {m : M τ α} (h : ∀ t, I t → (m t).Post (fun _ => I) (fun _ => I)) :
    Codec.Keeps (κ := κ) (ThenWeak I J) (onTrI m) :=
  fun p hp => Post.zoom (h p.2.tr hp.1) (fun _ _ x => ⟨x, hp.2⟩) fun _ _ x => ⟨x, hp.2⟩

theorem onHash {m : M η α} (h : ∀ t, J t → (m t).Post (fun _ => J) (fun _ => J)) :
    Codec.Keeps (κ := κ) (ThenWeak I J) (onHashI m) :=
  fun p hp => Post.zoom (h p.2.h hp.2.1) (fun _ _ x => ⟨hp.1, x, hp.2.2⟩) fun _ _ x => ⟨hp.1, x, hp.2.2⟩

theorem lens : Codec.Lens (fun t : ThenHashSt τ η => t.ob) (fun o t => { t with ob := o }) (ThenWeak I J) :=
  ⟨fun _ h => h.2.2, fun _ _ h ho => ⟨h.1, h.2.1, ho⟩⟩

theorem onBuf {m : M (κ × OBuf) α}
    (h : ∀ q : κ × OBuf, OBuf.WeakI (fun _ => True) q →
      (m q).Post (fun _ => OBuf.WeakI fun _ => True) (fun _ => OBuf.WeakI fun _ => True)) :
    Codec.Keeps (κ := κ) (ThenWeak I J) (onObI m) :=
  fun _ hp => Codec.outI_safe lens hp (Codec.buf_safe h)

theorem transfer {T : Transform τ} {H : HashObj η} {L : Bytes → Prop} (env : Env) (h1 : TSafe T I) (h2 : HSafe H J L) :
    Codec.Keeps (κ := κ) (ThenWeak I J) (transferI env T H) := by
  unfold transferI
  refine pollThen (seq (onTr h1.getSubstring) fun r => pollThen (seq (onHash (h2.addSubstring _ _ _)) fun _ =>
    pollThen (seq (onBuf fun q hq => ?_) fun _ => pollThen fun p hp => ?_)))
  · exact Post.mono (OBuf.ensureCapacityI_safe Codec.any_stable env r.2.2 q hq) (fun _ _ x => x.1) fun _ _ x => x
  · refine Codec.bind_self ?_
    refine Post.bind_orRaise hp ?_
    intro b hb
    have hl := bytesBlit_length hb
    have hd : (p.2.ob.oend : Int) + r.2.2 ≤ p.2.ob.obuf.length ∧ 0 ≤ r.2.2 := by
      unfold bytesBlit at hb
      split at hb
      · next hc => omega
      · cases hb
    have hw := hp.2.2
    refine Post.bind_modify ?_
    refine Codec.bind_poll (I := ThenWeak I J) ⟨hp.1, hp.2.1, ⟨by have := hw.pos; simp only; omega,
      by have := hw.le; simp only; omega⟩⟩ fun s => ?_
    refine Post.bind_modify ?_
    refine Codec.end_poll (I := ThenWeak I J) ⟨hp.1, hp.2.1, ⟨by have := hw.pos; simp only; omega,
      by have := hw.le; simp only; omega⟩⟩

theorem then_safe {T : Transform τ} {H : HashObj η} {L : Bytes → Prop} {w : Bool} (env : Env)
    (h1 : TSafe T I) (f1 : TFinSafe T I) (w1 : w = true → TWipeSafe T I)
    (h2 : HSafe H J L) (w2 : w = true → HWipeSafe H J) :
    Preserves (invokeA (transformThenHashI (κ := κ) env T H)) (wipeOrA w) (fun p => ThenWeak I J p.2) := by
  have put : ∀ m : M τ Unit, (∀ t, I t → (m t).Post (fun _ => I) (fun _ => I)) →
      Codec.Keeps (κ := κ) (ThenWeak I J) (putI env T H m) :=
    fun m hm => pollThen (seq (onTr hm) fun _ => transfer env h1 h2)
  refine TSafe.wipeOrA ⟨fun b o l => put _ (h1.putSubstring b o l), fun s => put _ (h1.putString s),
    fun c => put _ (h1.putChar c), fun b => put _ (h1.putByte b), onBuf (OBuf.availableOutputI_safe Codec.any_stable),
    onBuf (OBuf.getStringI_safe Codec.any_stable), onBuf (OBuf.getSubstringI_safe Codec.any_stable),
    onBuf (OBuf.getCharI_safe Codec.any_stable), onBuf (OBuf.getByteI_safe Codec.any_stable)⟩ ?_ ?_
  · exact seq (put _ f1.finish) fun _ =>
      onHash fun t ht => Post.mono (h2.result t ht) (fun _ _ x => x.1) fun _ _ x => x
  · exact fun hw => pollThen (seq (onBuf (OBuf.wipeI_safe Codec.any_stable)) fun _ => pollThen (seq (onTr (w1 hw)) fun _ =>
      pollThen (seq (onHash (w2 hw)) fun _ => lastPoll)))

end AuthI

/-- C115 for `transform_and_hash`: if, however the calls are interrupted, a transform and a hash access no memory
out of bounds, then neither does what is made of them, however its calls are interrupted. -/
theorem C115_transform_and_hash {T : Transform τ1} {H : HashObj η} {t : τ1} {s : η} (w : Bool) (sched : Sched)
    (h1 : MemorySafe (invoke T) (callsOf w) t) (h2 : MemorySafe (invokeH H) (callsOfH w) s) :
    MemorySafe (invokeA (transformAndHashI T H)) (callsOfA w) (sched, (t, s)) := by
  rw [callsOf_eq] at h1; rw [callsOfH_eq] at h2; rw [callsOfA_eq]
  obtain ⟨a1, b1, c1⟩ := TSafe.of_preserves (MemorySafe.preserves h1)
  obtain ⟨a2, c2⟩ := HSafe.of_preserves (MemorySafe.preserves h2)
  exact (AuthI.and_safe a1 b1 c1 a2 c2).safe ⟨Reachable.start, Reachable.start⟩

/-- C115 for `transform_then_hash`. -/
theorem C115_transform_then_hash (env : Env) {T : Transform τ1} {H : HashObj η} {t : τ1} {s : η} (w : Bool)
    (sched : Sched) (h1 : MemorySafe (invoke T) (callsOf w) t) (h2 : MemorySafe (invokeH H) (callsOfH w) s) :
    MemorySafe (invokeA (transformThenHashI env T H)) (callsOfA w) (sched, thenHashInit env t s) := by
  rw [callsOf_eq] at h1; rw [callsOfH_eq] at h2; rw [callsOfA_eq]
  obtain ⟨a1, b1, c1⟩ := TSafe.of_preserves (MemorySafe.preserves h1)
  obtain ⟨a2, c2⟩ := HSafe.of_preserves (MemorySafe.preserves h2)
  exact (AuthI.then_safe env a1 b1 c1 a2 c2).safe ⟨Reachable.start, Reachable.start, weak_init env⟩

/-- Arcfour and SHA-1, all interrupted. -/
example (env : Env) (s1 s2 s3 : Sched) (key : Bytes) (A : Cipher.AnyTransform)
    (h : Cipher.arcfourI env key .encrypt s1 = .ok A) :
    MemorySafe (invokeA (transformThenHashI env A.T sha1.interruptible)) (callsOfA true)
      (s3, thenHashInit env A.t (s2, sha1Init (List.replicate 64 0x55))) :=
  C115_transform_then_hash env true s3 (C115_arcfour h) (C118_safe (C65_sha1 (by decide)).1 s2)

/-- An interrupted call of `transform_and_hash` can leave data that is not authenticated: whatever the transform and
the hash, the transform has taken the data, which will be in the output, and the hash has not; `finish_and_get_tag`
then returns the tag of the data without it. -/
theorem C115_not_authenticated (T : Transform τ1) (H : HashObj η) (s tag : Bytes) (t t' t'' : τ1) (h h' : η) (e : Exn)
    (hput : T.putString s t = .ok () t') (hfin : T.finish t' = .ok () t'') (hres : H.result h = .ok tag h') :
    ∃ sched : Sched, (transformAndHashI T H).base.putString s (sched, (t, h)) = .exn e ([], (t', h)) ∧
      (transformAndHashI T H).finishAndGetTag (([] : Sched), (t', h)) = .ok tag ([], (t'', h')) := by
  refine ⟨[none, some e], ?_, ?_⟩
  · show (bothI (T.putString s) (H.addString s) >>= fun _ => poll) _ = _
    simp only [bothI, M.oneI, M.bind_def, M.zoom, poll, Ticking.tick, hput]
  · show bothI T.finish H.result _ = _
    simp only [bothI, M.oneI, M.twoI, M.bind_def, M.zoom, poll, Ticking.tick, hfin, hres]

/-- Hexadecimal and SHA-1: the string "A" is in the output, as "41", but not in the hash. -/
example (e : Exn) (h h' : Sha1Ctx) (tag : Bytes) (hres : sha1.result h = .ok tag h') :
    ∃ (sched : Sched) (t' t'' : OBuf),
    (transformAndHashI (Hex.encode ⟨1000, fun _ _ => 0⟩) sha1).base.putString [65]
      (sched, (Hex.encInit ⟨1000, fun _ _ => 0⟩, h)) = .exn e ([], (t', h)) ∧
    (transformAndHashI (Hex.encode ⟨1000, fun _ _ => 0⟩) sha1).finishAndGetTag (([] : Sched), (t', h)) =
      .ok tag ([], (t', h')) ∧
    (Hex.encode ⟨1000, fun _ _ => 0⟩).getString t' = .ok [0x34, 0x31] t'' := by
  have h1 : (Hex.encode ⟨1000, fun _ _ => 0⟩).putString [65] (Hex.encInit ⟨1000, fun _ _ => 0⟩) =
      .ok () ⟨[0x34, 0x31] ++ List.replicate 254 0, 0, 2⟩ := by decide +kernel
  obtain ⟨sched, h2⟩ := C115_not_authenticated (Hex.encode ⟨1000, fun _ _ => 0⟩) sha1 [65] tag
    (Hex.encInit ⟨1000, fun _ _ => 0⟩) _ _ h h' e h1 rfl hres
  exact ⟨sched, _, ⟨[0x34, 0x31] ++ List.replicate 254 0, 0, 0⟩, h2.1, h2.2, by decide +kernel⟩

namespace Quiet

attribute [local instance low] quiet
variable {κ : Type} {τ η : Type}

theorem last {τ : Type} {m : M (κ × τ) Unit} : (m >>= fun _ => poll) = m := by
  funext p; rw [M.bind_def]; cases m p <;> rfl

theorem first {τ : Type} {m : M (κ × τ) α} : (poll >>= fun _ => m) = m := rfl

theorem oneI_eq (m : M τ α) : (M.oneI m : M (κ × (τ × η)) α) = snd κ (M.onFst m) := by
  funext p; simp only [M.oneI, M.onFst, M.zoom]; cases m p.2.1 <;> rfl

theorem twoI_eq (m : M η α) : (M.twoI m : M (κ × (τ × η)) α) = snd κ (M.onSnd m) := by
  funext p; simp only [M.twoI, M.onSnd, M.zoom]; cases m p.2.2 <;> rfl

theorem both_eq (m : M τ Unit) (k : M η α) :
    (bothI m k : M (κ × (τ × η)) α) = snd κ (do M.onFst m; M.onSnd k) := by
  unfold bothI
  rw [first, snd_bind, oneI_eq]
  simp only [first, twoI_eq]

theorem andHash_eq (T : Transform τ) (H : HashObj η) :
    (transformAndHashI T H).base = beside κ (transformAndHash T H).base := by
  apply text
  · funext b o l; exact last.trans (both_eq _ _)
  · funext s; exact last.trans (both_eq _ _)
  · funext c; exact last.trans (both_eq _ _)
  · funext b; exact last.trans (both_eq _ _)
  · rfl
  · rfl
  · exact first.trans (oneI_eq _)
  · exact first.trans (oneI_eq _)
  · exact first.trans (oneI_eq _)
  · exact first.trans (oneI_eq _)
  · exact first.trans (oneI_eq _)
  · exact last.trans (both_eq _ _)

open ThenHashSt

theorem onTr_eq (m : M τ α) : (onTrI m : M (κ × ThenHashSt τ η) α) = snd κ (onTr m) := by
  funext p; simp only [onTrI, ThenHashSt.onTr, M.zoom]; cases m p.2.tr <;> rfl

theorem onHash_eq (m : M η α) : (onHashI m : M (κ × ThenHashSt τ η) α) = snd κ (onHash m) := by
  funext p; simp only [onHashI, ThenHashSt.onHash, M.zoom]; cases m p.2.h <;> rfl

theorem onOb_eq (m : M OBuf α) : (onObI (snd κ m) : M (κ × ThenHashSt τ η) α) = snd κ (onBuf m) :=
  snd_out _ _ m

theorem thenTransfer_eq (env : Env) (T : Transform τ) (H : HashObj η) :
    (transferI env T H : M (κ × ThenHashSt τ η) Unit) = snd κ (transfer env T H) := by
  unfold transferI transfer
  rw [first, snd_bind, onTr_eq]
  funext p
  refine mcongr fun r p => ?_
  rw [snd_bind, first, onHash_eq]
  refine mcongr fun _ p => ?_
  rw [snd_bind, first, ensure_eq, onOb_eq]
  refine mcongr fun _ p => ?_
  rw [snd_bind, snd_get, first, qself, qself, snd_bind, snd_orRaise]
  refine rcongr fun b => ?_
  rfl

theorem thenPut_eq (env : Env) (T : Transform τ) (H : HashObj η) (m : M τ Unit) :
    (putI env T H m : M (κ × ThenHashSt τ η) Unit) = snd κ (do onTr m; transfer env T H) := by
  unfold putI
  rw [first, snd_bind, onTr_eq, thenTransfer_eq]

theorem thenHash_eq (env : Env) (T : Transform τ) (H : HashObj η) :
    (transformThenHashI env T H).base = beside κ (transformThenHash env T H).base := by
  apply text
  · funext b o l; exact thenPut_eq env T H _
  · funext s; exact thenPut_eq env T H _
  · funext c; exact thenPut_eq env T H _
  · funext b; exact thenPut_eq env T H _
  · rfl
  · rfl
  · exact (congrArg onObI available_eq).trans (onOb_eq _)
  · exact (congrArg onObI getString_eq).trans (onOb_eq _)
  · exact (congrArg onObI getSubstring_eq).trans (onOb_eq _)
  · exact (congrArg onObI getChar_eq).trans (onOb_eq _)
  · exact (congrArg onObI getByte_eq).trans (onOb_eq _)
  · show (poll >>= fun _ => onObI OBuf.wipeI >>= fun _ => poll >>= fun _ => onTrI T.wipe >>= fun _ => poll >>= fun _ =>
      onHashI H.wipe >>= fun _ => poll) = _
    simp only [first, last, onTr_eq, onHash_eq, bufWipe_eq]
    refine (congrArg (· >>= _) (onOb_eq _)).trans ?_
    rw [← snd_bind (κ := κ) _ (fun _ => ThenHashSt.onHash H.wipe), ← snd_bind]
    rfl

end Quiet

/-- `transform_and_hash` and `transform_then_hash` with interruption points at which nothing happens are those of
C52. -/
theorem C115_quiet_auth (κ : Type) (env : Env) (T : Transform τ) (H : HashObj η) :
    (@transformAndHashI κ (quiet κ) τ η T H).base = beside κ (transformAndHash T H).base ∧
    (@transformAndHashI κ (quiet κ) τ η T H).finishAndGetTag =
      M.zoom (·.2) (fun t p => (p.1, t)) (transformAndHash T H).finishAndGetTag ∧
    (@transformThenHashI κ (quiet κ) τ η env T H).base = beside κ (transformThenHash env T H).base ∧
    (@transformThenHashI κ (quiet κ) τ η env T H).finishAndGetTag =
      M.zoom (·.2) (fun t p => (p.1, t)) (transformThenHash env T H).finishAndGetTag := by
  refine ⟨Quiet.andHash_eq T H, Quiet.both_eq _ _, Quiet.thenHash_eq env T H, ?_⟩
  letI : Ticking κ := quiet κ
  show (ThenHashSt.putI env T H T.finish >>= fun _ => ThenHashSt.onHashI H.result) = _
  rw [Quiet.thenPut_eq, Quiet.onHash_eq, ← Quiet.snd_bind (κ := κ) _ (fun _ => ThenHashSt.onHash H.result)]
  funext p; exact Quiet.zcongr (Quiet.massoc _ _ _ _)

end Verif
