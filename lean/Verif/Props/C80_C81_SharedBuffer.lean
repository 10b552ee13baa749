import Verif.Proof.BufHeap
import Verif.Spec.Erase
import Verif.Props.Example
/-
C80, C81: the byte array returned by `get_substring` is the output buffer of the object; what its user
can rely on, and what `wipe` erases.
-/
namespace Verif
open Spec BufHeap

theorem brun_queue {env : Env} {s : BufHeap} {q : Bytes} (hw : s.obuf < s.bufs.length)
    (h : OBuf.Rep env (view s) q) (ops : List QOp) :
    ∃ s', brun env s (ops.map .queue) = some ((qrun env.maxLen q ops).1, s')
      ∧ OBuf.Rep env (view s') (qrun env.maxLen q ops).2 ∧ Frame s s' := by
  induction ops generalizing s q with
  | nil => exact ⟨s, rfl, h, Frame.refl hw⟩
  | cons op ops ih =>
    obtain ⟨s1, h1, h2, h3⟩ := step_refines hw h op
    obtain ⟨s2, h4, h5, h6⟩ := ih h3.wf h2
    exact ⟨s2, by simp [brun, h1, h4, qrun], by simpa [qrun] using h5, h3.trans h6⟩

theorem brun_polite {env : Env} {s : BufHeap} {q : Bytes} (hw : s.obuf < s.bufs.length)
    (h : OBuf.Rep env (view s) q) (ops : List BOp) (hp : Polite env.maxLen q ops) :
    ∃ obs s', brun env s ops = some (obs, s')
      ∧ queueObs ops obs = (qrun env.maxLen q (queueOps ops)).1
      ∧ OBuf.Rep env (view s') (qrun env.maxLen q (queueOps ops)).2 ∧ s'.obuf < s'.bufs.length := by
  induction ops generalizing s q with
  | nil => exact ⟨[], s, rfl, rfl, h, hw⟩
  | cons op ops ih =>
    cases op with
    | queue op =>
      obtain ⟨s1, h1, h2, h3⟩ := step_refines hw h op
      obtain ⟨obs, s2, h4, h5, h6, h7⟩ := ih h3.wf h2 hp
      exact ⟨_, s2, by simp [brun, h1, h4]; rfl, by simp [queueObs, queueOps, qrun, h5],
        by simpa [queueOps, qrun] using h6, h7⟩
    | modify r ofs x =>
      obtain ⟨rfl, hp⟩ := hp
      obtain ⟨ob, s1, h1, h2, h3⟩ := modify_refines hw h r ofs x
      obtain ⟨obs, s2, h4, h5, h6, h7⟩ := ih h3 h2 hp
      exact ⟨_, s2, by simp [brun, h1, h4]; rfl, by simp [queueObs, queueOps, h5],
        by simpa [queueOps] using h6, h7⟩

theorem bufheap_init_wf (env : Env) (n : Nat) : (BufHeap.init env n).obuf < (BufHeap.init env n).bufs.length := by
  simp [BufHeap.init]

/-- C80: although `get_substring` gives away the output buffer itself, the observations are those of
a FIFO queue, even if the user modifies the byte arrays received, at any position, whenever no
output is available. -/
theorem C80_fifo (env : Env) (n : Nat) (hn : 0 < n) (hmax : n ≤ env.maxLen) (ops : List BOp)
    (hp : Polite env.maxLen [] ops) :
    ∃ obs s', brun env (BufHeap.init env n) ops = some (obs, s')
      ∧ queueObs ops obs = (qrun env.maxLen [] (queueOps ops)).1 := by
  obtain ⟨obs, s', h1, h2, _⟩ := brun_polite (bufheap_init_wf env n)
    (OBuf.rep_init env n hn hmax) ops hp
  exact ⟨obs, s', h1, h2⟩

/-- C80: the substring returned by `get_substring` stays what it was, the output available at the time
of the call, as long as no output is produced; consuming operations leave it alone. -/
theorem C80_substring_stable (env : Env) (n : Nat) (hn : 0 < n) (hmax : n ≤ env.maxLen)
    (ops : List BOp) (hp : Polite env.maxLen [] ops) (ks : List QOp) (hk : ∀ k ∈ ks, k.Consumes) :
    ∃ obs s r ofs len s1 obs2 s2, brun env (BufHeap.init env n) ops = some (obs, s)
      ∧ BufHeap.getSubstring s = .ok (r, ofs, len) s1
      ∧ brun env s1 (ks.map .queue) = some (obs2, s2)
      ∧ bytesSub (s2.contents r) ofs len = some (qrun env.maxLen [] (queueOps ops)).2 := by
  obtain ⟨obs, s, h1, _, h2, hw⟩ := brun_polite (bufheap_init_wf env n)
    (OBuf.rep_init env n hn hmax) ops hp
  obtain ⟨s2, h3, _⟩ := brun_queue (s := { s with obeg := 0, oend := 0 }) hw h2.clear ks
  have keep : ∀ (ks : List QOp), (∀ k ∈ ks, k.Consumes) → ∀ (s s2 : BufHeap) (obs : List QObs),
      brun env s (ks.map .queue) = some (obs, s2) → s2.bufs = s.bufs := by
    intro ks
    induction ks with
    | nil =>
      intro _ s s2 obs h
      obtain ⟨_, rfl⟩ := Prod.mk.inj (Option.some.inj h)
      rfl
    | cons k ks ih =>
      intro hk s s2 obs h
      simp only [List.map_cons, brun] at h
      cases e1 : bstep env s (.queue k) with
      | none => rw [e1] at h; exact nomatch h
      | some p =>
        rw [e1] at h
        obtain ⟨ob, s1⟩ := p
        dsimp only at h
        cases e2 : brun env s1 (ks.map .queue) with
        | none => rw [e2] at h; exact nomatch h
        | some p =>
          rw [e2] at h
          obtain ⟨obs', s2'⟩ := p
          obtain ⟨_, rfl⟩ := Prod.mk.inj (Option.some.inj h)
          rw [ih (fun k hk' => hk k (List.mem_cons_of_mem _ hk')) _ _ _ e2]
          exact (consume_step (hk k List.mem_cons_self) e1).1
  have e := keep ks hk _ _ _ h3
  have hl := h2.length
  have hle := h2.le
  obtain ⟨_, h5, h6⟩ := OBuf.getSubstring_ok h2
  simp only [view] at hl hle
  refine ⟨obs, s, _, _, _, _, _, s2, h1, rfl, h3, ?_⟩
  have ec : s2.contents s.obuf = s.contents s.obuf := by rw [contents, e]; rfl
  rw [ec, show (s.oend : Int) - s.obeg = ((qrun env.maxLen [] (queueOps ops)).2.length : Int) by omega]
  rw [show s.contents s.obuf = (view s).obuf from rfl, show s.obeg = (view s).obeg from rfl,
    bytesSub_ok h5]
  exact congrArg some h6

/-- C80: once `get_substring` has returned another byte array, the object does not touch an earlier
one any more. -/
theorem C80_replaced_stable (env : Env) (n : Nat) (hn : 0 < n) (hmax : n ≤ env.maxLen)
    (ops : List BOp) (hp : Polite env.maxLen [] ops) {obs : List QObs} {s : BufHeap}
    (h : brun env (BufHeap.init env n) ops = some (obs, s)) {r' : Nat} {ofs len : Int} {s1 : BufHeap}
    (hg : BufHeap.getSubstring s = .ok (r', ofs, len) s1) (r : Nat) (hr : r < s.bufs.length)
    (hne : r ≠ r') (ks : List QOp) :
    ∃ obs2 s2, brun env s1 (ks.map .queue) = some (obs2, s2) ∧ s2.contents r = s.contents r := by
  obtain ⟨obs', s', h1, _, h2, hw⟩ := brun_polite (bufheap_init_wf env n)
    (OBuf.rep_init env n hn hmax) ops hp
  obtain ⟨rfl, rfl⟩ := Prod.mk.inj (Option.some.inj (h.symm.trans h1))
  simp only [BufHeap.getSubstring] at hg
  injection hg with h3 h4
  obtain ⟨rfl, _⟩ := Prod.mk.inj h3
  subst h4
  obtain ⟨s2, h5, _, h6⟩ := brun_queue (s := { s with obeg := 0, oend := 0 }) hw h2.clear ks
  exact ⟨_, s2, h5, h6.others r hr hne⟩

/-- C81, what `wipe` does: it zeroes the current buffer and leaves the replaced ones as they are. -/
theorem C81_wipe {s : BufHeap} (hw : s.obuf < s.bufs.length) :
    ∃ s', BufHeap.wipe s = .ok () s' ∧ Zeroed (s'.contents s.obuf)
      ∧ ∀ r, r ≠ s.obuf → s'.contents r = s.contents r := by
  refine ⟨_, rfl, ?_, fun r hr => contents_set_ne (Ne.symm hr) _ _ _ _⟩
  rw [contents_set hw]
  intro b hb
  exact (List.mem_replicate.1 hb).2

theorem ensureCapacity_small {env : Env} {s s' : BufHeap} {q : Bytes}
    (hw : s.obuf < s.bufs.length) (h : OBuf.Rep env (view s) q) {k : Nat}
    (hs : q.length + k < (s.contents s.obuf).length)
    (he : BufHeap.ensureCapacity env k s = .ok () s') :
    s'.bufs.length = s.bufs.length ∧ s'.obuf = s.obuf
      ∧ (s'.contents s'.obuf).length = (s.contents s.obuf).length := by
  have hl := h.length
  have hle := h.le
  have hb := h.bound
  simp only [view] at hl hle hb
  simp only [BufHeap.ensureCapacity] at he
  by_cases c1 : (s.oend : Int) + k > (s.contents s.obuf).length
  · rw [if_pos c1, if_pos (show (s.oend : Int) - s.obeg + k < (s.contents s.obuf).length by omega)] at he
    unfold bytesBlit at he
    rw [if_pos ⟨⟨by omega, by omega, by omega⟩, ⟨by omega, by omega, by omega⟩⟩] at he
    injection he with _ he
    subst he
    refine ⟨by simp, rfl, ?_⟩
    dsimp only
    rw [contents_set hw, splice_length]
    rw [slice_length]
    omega
  · rw [if_neg c1] at he
    injection he with _ he
    subst he
    exact ⟨rfl, rfl, rfl⟩

theorem append_small {env : Env} {s s' : BufHeap} {q x : Bytes} (hw : s.obuf < s.bufs.length)
    (h : OBuf.Rep env (view s) q) (hs : q.length + x.length < (s.contents s.obuf).length)
    (he : BufHeap.append env x s = .ok () s') :
    s'.bufs.length = s.bufs.length ∧ s'.obuf = s.obuf
      ∧ (s'.contents s'.obuf).length = (s.contents s.obuf).length := by
  unfold BufHeap.append at he
  have hsim := ensureCapacity_sim env x.length hw
  obtain ⟨o1, g1, g2, g3⟩ := OBuf.ensureCapacity_ok h x.length (by have := h.max; simp only [view] at this; omega)
  rw [g1] at hsim
  obtain ⟨s1, h1, rfl, h3⟩ := sim_ok hsim
  rw [M.bind_ok h1, M.bind_ok (M.get_def _)] at he
  obtain ⟨e1, e2, e3⟩ := ensureCapacity_small hw h hs h1
  simp only [view] at g3
  rw [← Int.natCast_zero, bytesBlit_ok (by omega) g3, M.bind_ok (M.orRaise_some _ _ _)] at he
  simp only [M.modify] at he
  injection he with _ he
  subst he
  refine ⟨by simpa using e1, e2, ?_⟩
  dsimp only
  rw [contents_set h3.wf, splice_length (by rw [slice_full]; exact g3), e3]

theorem small_run {env : Env} {n : Nat} (ops : List QOp) {s : BufHeap} {q : Bytes}
    (hw : s.obuf < s.bufs.length) (h : OBuf.Rep env (view s) q)
    (hl : (s.contents s.obuf).length = n) (hb : Below n env.maxLen q ops) :
    ∃ obs s', brun env s (ops.map .queue) = some (obs, s') ∧ s'.bufs.length = s.bufs.length
      ∧ s'.obuf = s.obuf := by
  induction ops generalizing s q with
  | nil => exact ⟨_, s, rfl, rfl, rfl⟩
  | cons op ops ih =>
    obtain ⟨s1, h1, h2, h3⟩ := step_refines hw h op
    obtain ⟨hb1, hb2⟩ := hb
    have key : s1.bufs.length = s.bufs.length ∧ s1.obuf = s.obuf
        ∧ (s1.contents s1.obuf).length = n := by
      cases op with
      | produce x =>
        simp only [bstep] at h1
        cases he : BufHeap.append env x s <;> rw [he] at h1
        · obtain ⟨_, rfl⟩ := Prod.mk.inj (Option.some.inj h1)
          obtain ⟨e1, e2, e3⟩ := append_small hw h (by rw [hl]; exact hb1) he
          exact ⟨e1, e2, e3.trans hl⟩
        · obtain ⟨e1, _⟩ := Prod.mk.inj (Option.some.inj h1)
          have : q.length + x.length ≤ env.maxLen := by
            have := h.max
            simp only [view] at this
            dsimp only at hb1
            omega
          rw [qstep, if_pos this] at e1
          exact nomatch e1
        · exact nomatch h1
        · exact nomatch h1
      | getString => obtain ⟨e1, e2⟩ := consume_step (by trivial) h1; rw [contents, e1, e2]; exact ⟨rfl, rfl, hl⟩
      | getSubstring => obtain ⟨e1, e2⟩ := consume_step (by trivial) h1; rw [contents, e1, e2]; exact ⟨rfl, rfl, hl⟩
      | getChar => obtain ⟨e1, e2⟩ := consume_step (by trivial) h1; rw [contents, e1, e2]; exact ⟨rfl, rfl, hl⟩
      | getByte => obtain ⟨e1, e2⟩ := consume_step (by trivial) h1; rw [contents, e1, e2]; exact ⟨rfl, rfl, hl⟩
      | available => obtain ⟨e1, e2⟩ := consume_step (by trivial) h1; rw [contents, e1, e2]; exact ⟨rfl, rfl, hl⟩
    obtain ⟨obs, s2, h4, h5, h6⟩ := ih h3.wf h2 key.2.2 hb2
    exact ⟨_, s2, by simp [brun, h1, h4]; rfl, h5.trans key.1, h6.trans key.2.1⟩

/-- C81, the part that holds: as long as the output available never reaches the initial size
of the buffer, `wipe` erases all the buffers that the object has used. Missing: objects whose buffer
has been replaced by a larger one (`C81_replaced_not_erased`). -/
theorem C81_erased_partial (env : Env) (n : Nat) (hn : 0 < n) (hmax : n ≤ env.maxLen)
    (ops : List QOp) (hb : Below n env.maxLen [] ops) :
    ∃ obs s s', brun env (BufHeap.init env n) (ops.map .queue) = some (obs, s)
      ∧ BufHeap.wipe s = .ok () s' ∧ ∀ b ∈ s'.bufs, Zeroed b := by
  obtain ⟨obs, s, h1, h2, h3⟩ := small_run ops (bufheap_init_wf env n)
    (OBuf.rep_init env n hn hmax) (by simp [BufHeap.init, contents]) hb
  refine ⟨obs, s, _, h1, rfl, ?_⟩
  have h3' : s.obuf = 0 := h3
  have h2' : s.bufs.length = 1 := h2
  obtain ⟨b, hbb⟩ := List.length_eq_one_iff.1 h2'
  intro c hc
  simp only [hbb, h3', List.set_cons_zero, List.mem_singleton] at hc
  subst hc
  intro y hy
  exact (List.mem_replicate.1 hy).2

theorem ensureCapacity_grow {env : Env} {s s' : BufHeap} {k : Int}
    (c1 : (s.oend : Int) + k > (s.contents s.obuf).length)
    (c2 : ¬ (s.oend : Int) - s.obeg + k < (s.contents s.obuf).length)
    (he : BufHeap.ensureCapacity env k s = .ok () s') :
    ∃ b, s'.bufs = s.bufs ++ [b] ∧ s'.obuf = s.bufs.length := by
  simp only [BufHeap.ensureCapacity] at he
  rw [if_pos c1, if_neg c2] at he
  cases hg : OBuf.growLoop ((s.oend : Int) - s.obeg + k) (2 * (s.contents s.obuf).length) with
  | none => rw [hg] at he; exact nomatch he
  | some newlen =>
    rw [hg] at he
    dsimp only at he
    by_cases c3 : newlen > env.maxLen ∧ ¬ ((s.oend : Int) - s.obeg + k ≤ env.maxLen)
    · rw [if_pos c3] at he; exact nomatch he
    · rw [if_neg c3] at he
      cases hb : bytesBlit (s.contents s.obuf) s.obeg
          (env.create (if newlen > env.maxLen then env.maxLen else newlen)) 0
          (s.oend - s.obeg) with
      | none => rw [hb] at he; exact nomatch he
      | some b =>
        rw [hb] at he
        injection he with _ he
        subst he
        exact ⟨b, rfl, rfl⟩

/-- C81, is false of the code in general: when some output `x` is available and more output
than the buffer can hold is produced, the buffer that held `x` is replaced, and `wipe` leaves `x` in
it. -/
theorem C81_replaced_not_erased (env : Env) (n : Nat) (hn : 0 < n) (hmax : n ≤ env.maxLen)
    (x y : Bytes) (hx : x.length ≤ n) (hxy : n < x.length + y.length)
    (hm : x.length + y.length ≤ env.maxLen) :
    ∃ s s', brun env (BufHeap.init env n) [.queue (.produce x), .queue (.produce y)]
        = some ([.done, .done], s)
      ∧ BufHeap.wipe s = .ok () s' ∧ ∃ b ∈ s'.bufs, ∃ rest, b = x ++ rest := by
  -- first call
  obtain ⟨s1, a1, a2⟩ : ∃ s1, BufHeap.append env x (BufHeap.init env n) = .ok () s1
      ∧ s1 = ⟨[splice (env.create n) 0 x], 0, 0, x.length⟩ := by
    refine ⟨_, ?_, rfl⟩
    have e : BufHeap.ensureCapacity env x.length (BufHeap.init env n)
        = .ok () (BufHeap.init env n) := by
      simp only [BufHeap.ensureCapacity, BufHeap.init, contents, List.getD_cons_zero, Env.create_length]
      rw [if_neg (by omega)]
    unfold BufHeap.append
    rw [M.bind_ok e, M.bind_ok (M.get_def _)]
    simp only [BufHeap.init, contents, List.getD_cons_zero]
    rw [← Int.natCast_zero, bytesBlit_ok (by omega) (by rw [Env.create_length]; omega),
      M.bind_ok (M.orRaise_some _ _ _), slice_full]
    simp [M.modify]
  have hlen : (splice (env.create n) 0 x).length = n := by
    rw [splice_length (by rw [Env.create_length]; omega), Env.create_length]
  have hrep : OBuf.Rep env (view s1) x := by
    subst a2
    refine ⟨Nat.zero_le _, ?_, ?_, ?_, ?_⟩
    · simp only [view, contents, List.getD_cons_zero, hlen]; exact hx
    · simp only [view, contents, List.getD_cons_zero, hlen]; exact hn
    · simp only [view, contents, List.getD_cons_zero, hlen]; exact hmax
    · simp only [view, contents, List.getD_cons_zero, Nat.sub_zero]
      exact slice_splice_same (by rw [Env.create_length]; omega)
  have hw1 : s1.obuf < s1.bufs.length := by subst a2; simp
  -- second call
  obtain ⟨s2, b1, b2, b3⟩ := step_refines hw1 hrep (.produce y)
  rw [qstep, if_pos hm] at b1
  have hsim := ensureCapacity_sim env y.length hw1
  obtain ⟨o1, g1, g2, g3⟩ := OBuf.ensureCapacity_ok hrep y.length hm
  rw [g1] at hsim
  obtain ⟨s3, h1, rfl, h3⟩ := sim_ok hsim
  obtain ⟨b, e1, e2⟩ := ensureCapacity_grow
    (by subst a2; simp only [contents, List.getD_cons_zero, hlen]; omega)
    (by subst a2; simp only [contents, List.getD_cons_zero, hlen]; omega) h1
  have hs2 : ∃ b', s2.bufs = [splice (env.create n) 0 x, b'] ∧ s2.obuf = 1 := by
    simp only [view] at g3
    simp only [bstep] at b1
    unfold BufHeap.append at b1
    rw [M.bind_ok h1, M.bind_ok (M.get_def _), ← Int.natCast_zero, bytesBlit_ok (by omega) g3,
      M.bind_ok (M.orRaise_some _ _ _)] at b1
    simp only [M.modify] at b1
    obtain ⟨_, rfl⟩ := Prod.mk.inj (Option.some.inj b1)
    subst a2
    simp only [e1, e2]
    exact ⟨_, rfl, rfl⟩
  obtain ⟨b', f1, f2⟩ := hs2
  refine ⟨s2, _, ?_, rfl, splice (env.create n) 0 x, ?_, (env.create n).drop x.length, ?_⟩
  · simp only [brun, bstep] at b1 ⊢
    rw [a1]
    dsimp only
    rw [b1]
  · simp [f1, f2]
  · simp [splice]

namespace Example

/-- A history with a modification by the user, a compaction and a growth. -/
def sharedOps : List BOp :=
  [.queue (.produce [1, 2, 3]), .queue .getChar, .queue (.produce [4]), .queue .getSubstring,
   .modify 0 1 [9, 9], .queue (.produce [5, 6, 7, 8, 9]), .queue .getSubstring, .modify 1 0 [0, 0],
   .modify 0 0 [7], .queue (.produce [1]), .queue .getString]

theorem sharedOps_polite : Polite env64.maxLen [] sharedOps := by
  refine ⟨?_, ?_, ?_, trivial⟩ <;> decide

example : ∃ obs s', brun env64 (BufHeap.init env64 4) sharedOps = some (obs, s')
    ∧ queueObs sharedOps obs = [.done, .char 1, .done, .data [2, 3, 4], .done, .data [5, 6, 7, 8, 9],
      .done, .data [1]] := by
  obtain ⟨obs, s', h1, h2⟩ := C80_fifo env64 4 (by decide) (by decide) sharedOps sharedOps_polite
  exact ⟨obs, s', h1, by rw [h2]; decide⟩

/-- Modifying the buffer while output is available changes the output: the hypothesis `Polite` is
necessary. -/
example : (brun env64 (BufHeap.init env64 4) [.queue (.produce [1, 2]), .queue .getSubstring,
    .queue (.produce [3, 4]), .modify 0 0 [9], .queue .getString]).map (·.1)
    = some [.done, .data [1, 2], .done, .done, .data [9, 4]] := by decide

/-- So is the hypothesis of `C80_substring_stable`: producing output overwrites the substring. -/
example : (brun env64 (BufHeap.init env64 4) [.queue (.produce [1, 2]), .queue .getSubstring,
    .queue (.produce [3, 4])]).map (fun p => bytesSub (p.2.contents 0) 0 2) = some (some [3, 4]) := by
  decide

example : Below 256 env64.maxLen [] [.produce (List.replicate 200 1), .getString,
    .produce (List.replicate 255 2)] :=
  ⟨by decide +kernel, trivial, by decide +kernel, trivial⟩

example : ∃ s s', brun env64 (BufHeap.init env64 4) [.queue (.produce [1, 2]), .queue (.produce [3, 4, 5])]
        = some ([.done, .done], s)
      ∧ BufHeap.wipe s = .ok () s' ∧ ∃ b ∈ s'.bufs, ∃ rest, b = [1, 2] ++ rest :=
  C81_replaced_not_erased env64 4 (by decide) (by decide) [1, 2] [3, 4, 5] (by decide) (by decide)
    (by decide)

end Example

end Verif
