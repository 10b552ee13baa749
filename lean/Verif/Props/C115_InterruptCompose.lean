import Verif.Props.C115_Interrupt
import Verif.Props.C115_InterruptCodec
import Verif.Model.InterruptCompose
import Verif.Proof.SafeComb
/-
C115: `compose` under asynchronous exceptions.
-/
namespace Verif

open Spec

namespace ComposeI

variable {κ : Type} [Ticking κ] {τ1 τ2 : Type} {I : τ1 → Prop} {J : τ2 → Prop}

/-- Both objects are as they should. -/
abbrev Both (I : τ1 → Prop) (J : τ2 → Prop) (t : τ1 × τ2) : Prop := I t.1 ∧ J t.2

theorem one {m : M τ1 α} (h : ∀ t, I t → (m t).Post (fun _ => I) (fun _ => I)) :
    Codec.Keeps (κ := κ) (Both I J) (M.oneI m) :=
  fun p hp => Post.zoom (h p.2.1 hp.1) (fun _ _ x => ⟨x, hp.2⟩) fun _ _ x => ⟨x, hp.2⟩

theorem two {m : M τ2 α} (h : ∀ t, J t → (m t).Post (fun _ => J) (fun _ => J)) :
    Codec.Keeps (κ := κ) (Both I J) (M.twoI m) :=
  fun p hp => Post.zoom (h p.2.2 hp.2) (fun _ _ x => ⟨hp.1, x⟩) fun _ _ x => ⟨hp.1, x⟩

theorem pollThen {τ : Type} {I : τ → Prop} {m : M (κ × τ) α} (h : Codec.Keeps I m) :
    Codec.Keeps I (poll >>= fun _ => m) :=
  fun p hp => Codec.bind_poll (I := I) hp fun s => h (s, p.2) hp

theorem seq {τ : Type} {I : τ → Prop} {m : M (κ × τ) α} {k : α → M (κ × τ) β} (h : Codec.Keeps I m)
    (hk : ∀ a, Codec.Keeps I (k a)) : Codec.Keeps I (m >>= k) :=
  fun p hp => Post.bind (h p hp) fun a p hp => hk a p hp

theorem lastPoll {τ : Type} {I : τ → Prop} : Codec.Keeps (κ := κ) I poll :=
  fun _ hp => Codec.end_poll (I := I) hp

theorem safe {T1 : Transform τ1} {T2 : Transform τ2} {w : Bool}
    (h1 : TSafe T1 I) (f1 : TFinSafe T1 I) (w1 : w = true → TWipeSafe T1 I)
    (h2 : TSafe T2 J) (f2 : TFinSafe T2 J) (w2 : w = true → TWipeSafe T2 J) :
    Preserves (invoke (composeI (κ := κ) T1 T2)) (wipeOr w) (fun p => Both I J p.2) := by
  have tr : Codec.Keeps (κ := κ) (Both I J) (composeTransferI T1 T2) :=
    pollThen (seq (one h1.getSubstring) fun r => pollThen (seq (two (h2.putSubstring _ _ _)) fun _ => lastPoll))
  have put : ∀ m : M τ1 Unit, (∀ t, I t → (m t).Post (fun _ => I) (fun _ => I)) →
      Codec.Keeps (κ := κ) (Both I J) (composePutI T1 T2 m) :=
    fun m hm => pollThen (seq (one hm) fun _ => tr)
  refine TSafe.wipeOr ⟨fun b o l => put _ (h1.putSubstring b o l), fun s => put _ (h1.putString s),
    fun c => put _ (h1.putChar c), fun b => put _ (h1.putByte b), pollThen (two h2.availableOutput),
    pollThen (two h2.getString), pollThen (two h2.getSubstring), pollThen (two h2.getChar),
    pollThen (two h2.getByte)⟩ ⟨?_, ?_⟩ ?_
  · exact seq (put _ f1.flush) fun _ => seq (two f2.flush) fun _ => lastPoll
  · exact seq (put _ f1.finish) fun _ => seq (two f2.finish) fun _ => lastPoll
  · intro hw
    exact pollThen (seq (one (w1 hw)) fun _ => pollThen (seq (two (w2 hw)) fun _ => lastPoll))

end ComposeI

/-- C115 for `compose`: if, however the calls are interrupted, two transforms access no memory out of bounds, then
neither does their composition, however its calls are interrupted (with `wipe` among the calls if `w`). -/
theorem C115_compose {T1 : Transform τ1} {T2 : Transform τ2} {t1 : τ1} {t2 : τ2} (w : Bool) (sched : Sched)
    (h1 : MemorySafe (invoke T1) (callsOf w) t1) (h2 : MemorySafe (invoke T2) (callsOf w) t2) :
    MemorySafe (invoke (composeI T1 T2)) (callsOf w) (sched, (t1, t2)) := by
  rw [callsOf_eq] at *
  obtain ⟨a1, b1, c1⟩ := TSafe.of_preserves (MemorySafe.preserves h1)
  obtain ⟨a2, b2, c2⟩ := TSafe.of_preserves (MemorySafe.preserves h2)
  exact (ComposeI.safe a1 b1 c1 a2 b2 c2).safe ⟨Reachable.start, Reachable.start⟩

/-- Arcfour, then hexadecimal, all interrupted. -/
example (env : Env) (s1 s2 s3 : Sched) (key : Bytes) (A : Cipher.AnyTransform)
    (h : Cipher.arcfourI env key .encrypt s1 = .ok A) :
    MemorySafe (invoke (composeI A.T (Hex.encodeI env))) anyCall (s3, (A.t, (s2, Hex.encInit env))) :=
  C115_compose true s3 (C115_arcfour h) (C115_codecs env s2).2.2.1

/-- `compose` with interruption points at which nothing happens is that of C49. -/
theorem C115_quiet_compose (κ : Type) (T1 : Transform τ1) (T2 : Transform τ2) :
    @composeI κ (quiet κ) τ1 τ2 T1 T2 = beside κ (compose T1 T2) := by
  letI : Ticking κ := quiet κ
  have one : ∀ {α : Type} (m : M τ1 α), (M.oneI m : M (κ × (τ1 × τ2)) α) = Quiet.snd κ (M.onFst m) := by
    intro α m; funext p; simp only [M.oneI, M.onFst, M.zoom]; cases m p.2.1 <;> rfl
  have two : ∀ {α : Type} (m : M τ2 α), (M.twoI m : M (κ × (τ1 × τ2)) α) = Quiet.snd κ (M.onSnd m) := by
    intro α m; funext p; simp only [M.twoI, M.onSnd, M.zoom]; cases m p.2.2 <;> rfl
  have last : ∀ {m : M (κ × (τ1 × τ2)) Unit}, (m >>= fun _ => @poll _ (@instTickingProd κ (τ1 × τ2) (quiet κ))) = m := by
    intro m; funext p; rw [M.bind_def]; cases m p <;> rfl
  have first : ∀ {α : Type} {m : M (κ × (τ1 × τ2)) α},
      (@poll _ (@instTickingProd κ (τ1 × τ2) (quiet κ)) >>= fun _ => m) = m := by
    intro α m; funext p; rfl
  have tr : @composeTransferI κ (quiet κ) τ1 τ2 T1 T2 = Quiet.snd κ (composeTransfer T1 T2) := by
    unfold composeTransferI composeTransfer
    rw [first, Quiet.snd_bind, one]
    simp only [first, two]
    funext p
    refine Quiet.mcongr fun r p => ?_
    rw [last]
  have put : ∀ m : M τ1 Unit, @composePutI κ (quiet κ) τ1 τ2 T1 T2 m =
      Quiet.snd κ (do M.onFst m; composeTransfer T1 T2) := by
    intro m
    unfold composePutI
    rw [first, Quiet.snd_bind, one, tr]
  apply Quiet.text
  · funext b o l; exact put _
  · funext s; exact put _
  · funext c; exact put _
  · funext b; exact put _
  · show (composePutI T1 T2 T1.flush >>= fun _ => M.twoI T2.flush >>= fun _ => poll) = _
    rw [last, put, two, ← Quiet.snd_bind (κ := κ) _ (fun _ => M.onSnd T2.flush)]
    funext p; exact Quiet.zcongr (Quiet.massoc _ _ _ _)
  · show (composePutI T1 T2 T1.finish >>= fun _ => M.twoI T2.finish >>= fun _ => poll) = _
    rw [last, put, two, ← Quiet.snd_bind (κ := κ) _ (fun _ => M.onSnd T2.finish)]
    funext p; exact Quiet.zcongr (Quiet.massoc _ _ _ _)
  · exact first.trans (two _)
  · exact first.trans (two _)
  · exact first.trans (two _)
  · exact first.trans (two _)
  · exact first.trans (two _)
  · show (poll >>= fun _ => M.oneI T1.wipe >>= fun _ => poll >>= fun _ => M.twoI T2.wipe >>= fun _ => poll) = _
    simp only [first, last, one, two]
    exact (Quiet.snd_bind _ _).symm

/-- An interrupted call can lose data, silently: whatever the two transforms, the output that the first one gives,
which can come from earlier calls that returned, is on the way to the second one when the call is interrupted. The
first one no longer has it, and the second one has not seen it. -/
theorem C115_compose_lost (T1 : Transform τ1) (T2 : Transform τ2) (s r : Bytes) (ofs len : Int) (t1 u1 v1 : τ1)
    (t2 : τ2) (e : Exn) (hput : T1.putString s t1 = .ok () u1) (hget : T1.getSubstring u1 = .ok (r, ofs, len) v1) :
    ∃ sched : Sched, (composeI T1 T2).putString s (sched, (t1, t2)) = .exn e ([], (v1, t2)) := by
  refine ⟨[none, none, some e], ?_⟩
  show composePutI T1 T2 (T1.putString s) _ = _
  simp only [composePutI, composeTransferI, M.oneI, M.bind_def, M.zoom, poll, Ticking.tick, hput, hget]

/-- Hexadecimal twice: of the string "A" the first has made "41", and this is lost. -/
example (e : Exn) : ∃ (sched : Sched) (v1 : OBuf),
    (composeI (Hex.encode ⟨1000, fun _ _ => 0⟩) (Hex.encode ⟨1000, fun _ _ => 0⟩)).putString [65]
      (sched, (Hex.encInit ⟨1000, fun _ _ => 0⟩, Hex.encInit ⟨1000, fun _ _ => 0⟩)) =
      .exn e ([], (v1, Hex.encInit ⟨1000, fun _ _ => 0⟩)) ∧
    (Hex.encode ⟨1000, fun _ _ => 0⟩).availableOutput v1 = .ok 0 v1 := by
  have h1 : (Hex.encode ⟨1000, fun _ _ => 0⟩).putString [65] (Hex.encInit ⟨1000, fun _ _ => 0⟩) =
      .ok () ⟨[0x34, 0x31] ++ List.replicate 254 0, 0, 2⟩ := by decide +kernel
  obtain ⟨sched, h⟩ := C115_compose_lost (Hex.encode ⟨1000, fun _ _ => 0⟩) (Hex.encode ⟨1000, fun _ _ => 0⟩) [65] _ _ _
    (Hex.encInit ⟨1000, fun _ _ => 0⟩) _ _ (Hex.encInit ⟨1000, fun _ _ => 0⟩) e h1 rfl
  exact ⟨sched, _, h, rfl⟩

end Verif
