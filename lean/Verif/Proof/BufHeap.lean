import Verif.Spec.BufHeap
import Verif.Props.C01_OutputBuffer
/-
The model of output buffers with references simulates the one without.
-/
namespace Verif
open Spec
namespace BufHeap

/-- The current buffer, as in Model/OBuf.lean. -/
def view (s : BufHeap) : OBuf := ⟨s.contents s.obuf, s.obeg, s.oend⟩

/-- What a method may change: the contents of the current buffer; it may replace it by a new one. -/
structure Frame (s s' : BufHeap) : Prop where
  wf : s'.obuf < s'.bufs.length
  grows : s.bufs.length ≤ s'.bufs.length
  cur : s'.obuf = s.obuf ∨ s.bufs.length ≤ s'.obuf
  others : ∀ r, r < s.bufs.length → r ≠ s.obuf → s'.contents r = s.contents r

theorem Frame.refl {s : BufHeap} (h : s.obuf < s.bufs.length) : Frame s s :=
  ⟨h, Nat.le_refl _, .inl rfl, fun _ _ _ => rfl⟩

theorem Frame.trans {s s' s'' : BufHeap} (h : Frame s s') (h' : Frame s' s'') : Frame s s'' := by
  refine ⟨h'.wf, Nat.le_trans h.grows h'.grows, ?_, ?_⟩
  · have := h.cur; have := h'.cur; have := h.grows
    omega
  · intro r hr hn
    rw [h'.others r (by have := h.grows; omega) (by have := h.cur; omega), h.others r hr hn]

theorem contents_set {s : BufHeap} {i : Nat} (h : i < s.bufs.length) (b : Bytes) (a e c : Nat) :
    (BufHeap.mk (s.bufs.set i b) c a e).contents i = b := by
  simp [contents, List.getD_eq_getElem?_getD, h]

theorem contents_set_ne {s : BufHeap} {i r : Nat} (h : i ≠ r) (b : Bytes) (a e c : Nat) :
    (BufHeap.mk (s.bufs.set i b) c a e).contents r = s.contents r := by
  simp [contents, List.getD_eq_getElem?_getD, h]

theorem frame_set {s : BufHeap} (h : s.obuf < s.bufs.length) (b : Bytes) (a e : Nat) :
    Frame s ⟨s.bufs.set s.obuf b, s.obuf, a, e⟩ :=
  ⟨by simpa using h, by simp, .inl rfl, fun r _ hn => contents_set_ne (Ne.symm hn) b a e _⟩

theorem frame_move {s : BufHeap} (h : s.obuf < s.bufs.length) (a e : Nat) :
    Frame s ⟨s.bufs, s.obuf, a, e⟩ :=
  ⟨h, Nat.le_refl _, .inl rfl, fun _ _ _ => rfl⟩

theorem frame_new {s : BufHeap} (b : Bytes) (a e : Nat) :
    Frame s ⟨s.bufs ++ [b], s.bufs.length, a, e⟩ :=
  ⟨by simp, by simp, .inr (Nat.le_refl _), fun r hr _ => by
    simp only [contents, List.getD_eq_getElem?_getD]
    rw [List.getElem?_append_left hr]⟩

theorem contents_new {s : BufHeap} (b : Bytes) (a e : Nat) :
    (BufHeap.mk (s.bufs ++ [b]) s.bufs.length a e).contents s.bufs.length = b := by
  simp [contents, List.getD_eq_getElem?_getD]

/-- The same outcome, and a corresponding state. -/
def Sim (s : BufHeap) : Out OBuf α → Out BufHeap α → Prop
  | .ok a o, .ok b s' => a = b ∧ view s' = o ∧ Frame s s'
  | .exn e o, .exn e' s' => e = e' ∧ view s' = o ∧ Frame s s'
  | .ub, .ub => True
  | .loop, .loop => True
  | _, _ => False

theorem ensureCapacity_sim (env : Env) (n : Int) {s : BufHeap} (h : s.obuf < s.bufs.length) :
    Sim s (OBuf.ensureCapacity env n (view s)) (ensureCapacity env n s) := by
  rw [view]
  simp only [OBuf.ensureCapacity, ensureCapacity]
  by_cases c1 : (s.oend : Int) + n > (s.contents s.obuf).length
  · rw [if_pos c1, if_pos c1]
    by_cases c2 : (s.oend : Int) - s.obeg + n < (s.contents s.obuf).length
    · rw [if_pos c2, if_pos c2]
      cases bytesBlit (s.contents s.obuf) s.obeg (s.contents s.obuf) 0 (s.oend - s.obeg) with
      | none => exact ⟨rfl, rfl, Frame.refl h⟩
      | some b =>
        refine ⟨rfl, ?_, frame_set h b _ _⟩
        simp only [view, contents_set h]
    · rw [if_neg c2, if_neg c2]
      cases OBuf.growLoop ((s.oend : Int) - s.obeg + n) (2 * (s.contents s.obuf).length) with
      | none => trivial
      | some newlen =>
        dsimp only
        by_cases c3 : newlen > env.maxLen ∧ ¬ ((s.oend : Int) - s.obeg + n ≤ env.maxLen)
        · rw [if_pos c3, if_pos c3]
          exact ⟨rfl, rfl, Frame.refl h⟩
        · rw [if_neg c3, if_neg c3]
          cases bytesBlit (s.contents s.obuf) s.obeg
              (env.create (if newlen > env.maxLen then env.maxLen else newlen)) 0
              (s.oend - s.obeg) with
          | none => exact ⟨rfl, rfl, Frame.refl h⟩
          | some b =>
            refine ⟨rfl, ?_, frame_new b _ _⟩
            simp only [view, contents_new]
  · rw [if_neg c1, if_neg c1]
    exact ⟨rfl, rfl, Frame.refl h⟩

theorem append_sim (env : Env) (x : Bytes) {s : BufHeap} (h : s.obuf < s.bufs.length) :
    Sim s (OBuf.append env x (view s)) (append env x s) := by
  have h1 := ensureCapacity_sim env x.length h
  unfold OBuf.append append
  rw [M.bind_def, M.bind_def]
  cases e1 : OBuf.ensureCapacity env x.length (view s) with
  | ok u o =>
    cases e2 : ensureCapacity env x.length s with
    | ok u' s' =>
      rw [e1, e2] at h1
      obtain ⟨_, rfl, hf⟩ := h1
      dsimp only
      rw [M.bind_ok (M.get_def _), M.bind_ok (M.get_def _)]
      simp only [view]
      cases bytesBlit x 0 (s'.contents s'.obuf) s'.oend x.length with
      | none => exact ⟨rfl, rfl, hf⟩
      | some b =>
        refine ⟨rfl, ?_, hf.trans (frame_set hf.wf b _ _)⟩
        simp only [view, contents_set hf.wf]
    | exn e s' => rw [e1, e2] at h1; exact h1.elim
    | ub => rw [e1, e2] at h1; exact h1.elim
    | loop => rw [e1, e2] at h1; exact h1.elim
  | exn e o =>
    cases e2 : ensureCapacity env x.length s with
    | exn e' s' => rw [e1, e2] at h1; exact h1
    | ok u' s' => rw [e1, e2] at h1; exact h1.elim
    | ub => rw [e1, e2] at h1; exact h1.elim
    | loop => rw [e1, e2] at h1; exact h1.elim
  | ub =>
    cases e2 : ensureCapacity env x.length s with
    | ub => trivial
    | ok u' s' => rw [e1, e2] at h1; exact h1.elim
    | exn e' s' => rw [e1, e2] at h1; exact h1.elim
    | loop => rw [e1, e2] at h1; exact h1.elim
  | loop =>
    cases e2 : ensureCapacity env x.length s with
    | loop => trivial
    | ok u' s' => rw [e1, e2] at h1; exact h1.elim
    | exn e' s' => rw [e1, e2] at h1; exact h1.elim
    | ub => rw [e1, e2] at h1; exact h1.elim

/-- The outcome is a value or an exception, and the buffers stay as they are. -/
def Keeps (s : BufHeap) : Out BufHeap α → Prop
  | .ok _ s' => s'.bufs = s.bufs ∧ s'.obuf = s.obuf
  | .exn _ s' => s'.bufs = s.bufs ∧ s'.obuf = s.obuf
  | _ => False

theorem getString_keeps (s : BufHeap) : Keeps s (getString s) := by
  unfold getString
  cases bytesSub (s.contents s.obuf) s.obeg ((s.oend : Int) - s.obeg) <;> exact ⟨rfl, rfl⟩

theorem getChar_keeps (s : BufHeap) : Keeps s (getChar s) := by
  unfold getChar
  by_cases c : s.obeg ≥ s.oend
  · rw [if_pos c]; exact ⟨rfl, rfl⟩
  · rw [if_neg c]
    cases bytesGet (s.contents s.obuf) s.obeg <;> exact ⟨rfl, rfl⟩

theorem getByte_keeps (s : BufHeap) : Keeps s (getByte s) := by
  have := getChar_keeps s
  unfold getByte
  rw [M.bind_def]
  cases h : getChar s <;> rw [h] at this <;> exact this

theorem getString_sim {s : BufHeap} (h : s.obuf < s.bufs.length) :
    Sim s (OBuf.getString (view s)) (getString s) := by
  unfold OBuf.getString getString
  simp only [view]
  cases bytesSub (s.contents s.obuf) s.obeg ((s.oend : Int) - s.obeg)
  · exact ⟨rfl, rfl, Frame.refl h⟩
  · exact ⟨rfl, rfl, frame_move h _ _⟩

theorem getChar_sim {s : BufHeap} (h : s.obuf < s.bufs.length) :
    Sim s (OBuf.getChar (view s)) (getChar s) := by
  rw [view]
  simp only [OBuf.getChar, getChar]
  by_cases c : s.obeg ≥ s.oend
  · rw [if_pos c, if_pos c]; exact ⟨rfl, rfl, Frame.refl h⟩
  · rw [if_neg c, if_neg c]
    cases bytesGet (s.contents s.obuf) s.obeg
    · exact ⟨rfl, rfl, Frame.refl h⟩
    · exact ⟨rfl, rfl, frame_move h _ _⟩

theorem getByte_sim {s : BufHeap} (h : s.obuf < s.bufs.length) :
    Sim s (OBuf.getByte (view s)) (getByte s) := by
  have := getChar_sim h
  unfold OBuf.getByte getByte
  rw [M.bind_def, M.bind_def]
  cases h1 : OBuf.getChar (view s) <;> cases h2 : getChar s <;> rw [h1, h2] at this <;>
    first
    | exact this.elim
    | (obtain ⟨rfl, h3⟩ := this; exact ⟨rfl, h3⟩)
    | trivial

theorem sim_ok {s : BufHeap} {o : OBuf} {a : α} {x : Out BufHeap α} (h : Sim s (.ok a o) x) :
    ∃ s', x = .ok a s' ∧ view s' = o ∧ Frame s s' := by
  cases x with
  | ok b s' => obtain ⟨rfl, h1, h2⟩ := h; exact ⟨s', rfl, h1, h2⟩
  | exn e s' => exact h.elim
  | ub => exact h.elim
  | loop => exact h.elim

theorem sim_exn {s : BufHeap} {o : OBuf} {e : Exn} {x : Out BufHeap α} (h : Sim s (.exn e o) x) :
    ∃ s', x = .exn e s' ∧ view s' = o ∧ Frame s s' := by
  cases x with
  | exn b s' => obtain ⟨rfl, h1, h2⟩ := h; exact ⟨s', rfl, h1, h2⟩
  | ok e s' => exact h.elim
  | ub => exact h.elim
  | loop => exact h.elim

/-- Each operation has the same observation in both models. -/
theorem step_sim {env : Env} {op : QOp} {s : BufHeap} (hw : s.obuf < s.bufs.length) {ob : QObs}
    {o' : OBuf} (h : bufStep env (view s) op = some (ob, o')) :
    ∃ s', bstep env s (.queue op) = some (ob, s') ∧ view s' = o' ∧ Frame s s' := by
  cases op with
  | produce x =>
    have hs := append_sim env x hw
    simp only [bufStep] at h
    cases he : OBuf.append env x (view s) <;> rw [he] at h hs
    · obtain ⟨rfl, rfl⟩ := Prod.mk.inj (Option.some.inj h)
      obtain ⟨s', h1, h2⟩ := sim_ok hs
      exact ⟨s', by simp [bstep, h1], h2⟩
    · obtain ⟨rfl, rfl⟩ := Prod.mk.inj (Option.some.inj h)
      obtain ⟨s', h1, h2⟩ := sim_exn hs
      exact ⟨s', by simp [bstep, h1], h2⟩
    · exact nomatch h
    · exact nomatch h
  | getString =>
    have hs := getString_sim hw
    simp only [bufStep] at h
    cases he : OBuf.getString (view s) <;> rw [he] at h hs
    · obtain ⟨rfl, rfl⟩ := Prod.mk.inj (Option.some.inj h)
      obtain ⟨s', h1, h2⟩ := sim_ok hs
      exact ⟨s', by simp [bstep, h1], h2⟩
    · obtain ⟨rfl, rfl⟩ := Prod.mk.inj (Option.some.inj h)
      obtain ⟨s', h1, h2⟩ := sim_exn hs
      exact ⟨s', by simp [bstep, h1], h2⟩
    · exact nomatch h
    · exact nomatch h
  | getSubstring =>
    simp only [bufStep, OBuf.getSubstring, view] at h
    refine ⟨{ s with obeg := 0, oend := 0 }, ?_, ?_, frame_move hw _ _⟩
    · simp only [bstep, getSubstring]
      rw [show BufHeap.contents { s with obeg := 0, oend := 0 } s.obuf = s.contents s.obuf from rfl]
      cases hb : bytesSub (s.contents s.obuf) s.obeg ((s.oend : Int) - s.obeg) <;> rw [hb] at h
      · obtain ⟨rfl, rfl⟩ := Prod.mk.inj (Option.some.inj h); rfl
      · obtain ⟨rfl, rfl⟩ := Prod.mk.inj (Option.some.inj h); rfl
    · cases hb : bytesSub (s.contents s.obuf) s.obeg ((s.oend : Int) - s.obeg) <;> rw [hb] at h
      · obtain ⟨rfl, rfl⟩ := Prod.mk.inj (Option.some.inj h); rfl
      · obtain ⟨rfl, rfl⟩ := Prod.mk.inj (Option.some.inj h); rfl
  | getChar =>
    have hs := getChar_sim hw
    simp only [bufStep] at h
    cases he : OBuf.getChar (view s) <;> rw [he] at h hs
    · obtain ⟨rfl, rfl⟩ := Prod.mk.inj (Option.some.inj h)
      obtain ⟨s', h1, h2⟩ := sim_ok hs
      exact ⟨s', by simp [bstep, h1], h2⟩
    · obtain ⟨rfl, rfl⟩ := Prod.mk.inj (Option.some.inj h)
      obtain ⟨s', h1, h2⟩ := sim_exn hs
      exact ⟨s', by simp [bstep, h1], h2⟩
    · exact nomatch h
    · exact nomatch h
  | getByte =>
    have hs := getByte_sim hw
    simp only [bufStep] at h
    cases he : OBuf.getByte (view s) <;> rw [he] at h hs
    · obtain ⟨rfl, rfl⟩ := Prod.mk.inj (Option.some.inj h)
      obtain ⟨s', h1, h2⟩ := sim_ok hs
      exact ⟨s', by simp [bstep, h1], h2⟩
    · obtain ⟨rfl, rfl⟩ := Prod.mk.inj (Option.some.inj h)
      obtain ⟨s', h1, h2⟩ := sim_exn hs
      exact ⟨s', by simp [bstep, h1], h2⟩
    · exact nomatch h
    · exact nomatch h
  | available =>
    simp only [bufStep, OBuf.availableOutput, view] at h
    obtain ⟨rfl, rfl⟩ := Prod.mk.inj (Option.some.inj h)
    exact ⟨s, rfl, rfl, Frame.refl hw⟩

/-- Consuming operations leave the buffers as they are. -/
theorem consume_step {env : Env} {op : QOp} (ho : op.Consumes) {s s' : BufHeap} {ob : QObs}
    (h : bstep env s (.queue op) = some (ob, s')) : s'.bufs = s.bufs ∧ s'.obuf = s.obuf := by
  cases op with
  | produce x => exact ho.elim
  | getString =>
    have hk := getString_keeps s
    simp only [bstep] at h
    cases he : getString s <;> rw [he] at h hk
    · obtain ⟨rfl, rfl⟩ := Prod.mk.inj (Option.some.inj h); exact hk
    · obtain ⟨rfl, rfl⟩ := Prod.mk.inj (Option.some.inj h); exact hk
    · exact nomatch h
    · exact nomatch h
  | getSubstring =>
    simp only [bstep, getSubstring] at h
    cases hb : bytesSub (BufHeap.contents { s with obeg := 0, oend := 0 } s.obuf) s.obeg
        ((s.oend : Int) - s.obeg) <;> rw [hb] at h
    · obtain ⟨rfl, rfl⟩ := Prod.mk.inj (Option.some.inj h); exact ⟨rfl, rfl⟩
    · obtain ⟨rfl, rfl⟩ := Prod.mk.inj (Option.some.inj h); exact ⟨rfl, rfl⟩
  | getChar =>
    have hk := getChar_keeps s
    simp only [bstep] at h
    cases he : getChar s <;> rw [he] at h hk
    · obtain ⟨rfl, rfl⟩ := Prod.mk.inj (Option.some.inj h); exact hk
    · obtain ⟨rfl, rfl⟩ := Prod.mk.inj (Option.some.inj h); exact hk
    · exact nomatch h
    · exact nomatch h
  | getByte =>
    have hk := getByte_keeps s
    simp only [bstep] at h
    cases he : getByte s <;> rw [he] at h hk
    · obtain ⟨rfl, rfl⟩ := Prod.mk.inj (Option.some.inj h); exact hk
    · obtain ⟨rfl, rfl⟩ := Prod.mk.inj (Option.some.inj h); exact hk
    · exact nomatch h
    · exact nomatch h
  | available =>
    simp only [bstep, availableOutput] at h
    obtain ⟨rfl, rfl⟩ := Prod.mk.inj (Option.some.inj h); exact ⟨rfl, rfl⟩

/-- Every operation of the queue respects the frame; it returns or raises. -/
theorem step_refines {env : Env} {s : BufHeap} {q : Bytes} (hw : s.obuf < s.bufs.length)
    (h : OBuf.Rep env (view s) q) (op : QOp) :
    ∃ s', bstep env s (.queue op) = some ((qstep env.maxLen q op).1, s')
      ∧ OBuf.Rep env (view s') (qstep env.maxLen q op).2 ∧ Frame s s' := by
  obtain ⟨o', h1, h2⟩ := bufStep_refines h op
  obtain ⟨s', h3, rfl, h5⟩ := step_sim hw h1
  exact ⟨s', h3, h2, h5⟩

/-- A caller's modification when nothing is pending. -/
theorem modify_refines {env : Env} {s : BufHeap} (hw : s.obuf < s.bufs.length)
    (h : OBuf.Rep env (view s) []) (r : Nat) (ofs : Int) (x : Bytes) :
    ∃ ob s', bstep env s (.modify r ofs x) = some (ob, s') ∧ OBuf.Rep env (view s') []
      ∧ s'.obuf < s'.bufs.length := by
  simp only [bstep, callerBlit]
  unfold bytesBlit
  by_cases c : InRange x 0 x.length ∧ InRange (s.contents r) ofs x.length
  · rw [if_pos c]
    refine ⟨_, _, rfl, ?_, by simpa using hw⟩
    by_cases hr : r = s.obuf
    · subst hr
      have hl : (splice (s.contents s.obuf) ofs.toNat (slice x 0 x.length)).length
          = (s.contents s.obuf).length := by
        rw [slice_full, splice_length]
        obtain ⟨_, _, c1, c2⟩ := c
        omega
      have e0 := h.length
      obtain ⟨h1, h2, h3, h4, h5⟩ := h
      refine ⟨h1, ?_, ?_, ?_, ?_⟩
      · simp only [view, contents_set hw]
        rw [Int.toNat_zero, Int.toNat_natCast, hl]; exact h2
      · simp only [view, contents_set hw]
        rw [Int.toNat_zero, Int.toNat_natCast, hl]; exact h3
      · simp only [view, contents_set hw]
        rw [Int.toNat_zero, Int.toNat_natCast, hl]; exact h4
      · simp only [view] at e0 ⊢
        rw [← e0, List.length_nil]
        simp [slice]
    · have e : ∀ b, view { s with bufs := s.bufs.set r b } = view s := fun b => by
        simp only [view, contents_set_ne hr]
      rw [e]; exact h
  · rw [if_neg c]
    exact ⟨_, _, rfl, h, hw⟩

end BufHeap
end Verif
