import Verif.Model.BufCost
import Verif.Props.C01_OutputBuffer
/-
C87 The memory held by a transform for its output is at most twice the output held.
C88 The time spent in moving the output around is proportional to the output.
-/
namespace Verif

namespace Spec

/-- The largest length that the queue reaches during a history, the queue being `q` at first. -/
def peak (max : Nat) : Bytes → List QOp → Nat
  | q, [] => q.length
  | q, op :: ops => Nat.max q.length (peak max (qstep max q op).2 ops)

/-- Histories in which the output is retrieved as a whole: `get_string` and `get_substring` only. -/
def Whole : QOp → Prop
  | .getChar | .getByte => False
  | _ => True

/-- The number of bytes produced in a history. -/
def produced : List QOp → Nat
  | [] => 0
  | .produce x :: ops => x.length + produced ops
  | _ :: ops => produced ops

end Spec

open Spec

/-- Perform one operation on `buffered_output`, counting the bytes moved. -/
def costStep (env : Env) (s : OBuf × Nat) : QOp → Option (QObs × (OBuf × Nat))
  | .produce x =>
    match OBuf.appendC env x s with
    | .ok () s' => some (.done, s')
    | .exn e s' => some (.raised e, s')
    | _ => none
  | op => (bufStep env s.1 op).map fun r => (r.1, (r.2, s.2))

/-- Perform a history of operations. -/
def costRun (env : Env) (s : OBuf × Nat) : List QOp → Option (List QObs × (OBuf × Nat))
  | [] => some ([], s)
  | op :: ops =>
    match costStep env s op with
    | none => none
    | some (ob, s') =>
      match costRun env s' ops with
      | none => none
      | some (obs, s'') => some (ob :: obs, s'')

theorem obufGrowLoop_le (need : Int) (newlen : Nat) (h : 0 < newlen) (hn : (newlen : Int) ≤ 2 * need) :
    ∃ m, OBuf.growLoop need newlen = some m ∧ need ≤ m ∧ newlen ≤ m ∧ (m : Int) ≤ 2 * need := by
  fun_induction OBuf.growLoop need newlen with
  | case1 => omega
  | case2 newlen h1 h2 ih =>
    obtain ⟨m, h3, h4, h5, h6⟩ := ih (by omega) (by omega)
    exact ⟨m, h3, h4, by omega, h6⟩
  | case3 newlen h1 => exact ⟨newlen, rfl, by omega, by omega, hn⟩

/-- What `ensure_capacity` does to the size of the buffer and to the count. -/
theorem ensureCapacityC_cases {env : Env} {o : OBuf} {q : Bytes} (h : OBuf.Rep env o q) (n k : Nat)
    (hm : q.length + n ≤ env.maxLen) :
    ∃ o' k', OBuf.ensureCapacityC env n (o, k) = .ok () (o', k') ∧ OBuf.Rep env o' q
      ∧ o'.oend + n ≤ o'.obuf.length ∧
      ((o' = o ∧ k' = k)
       ∨ (o.obuf.length < o.oend + n ∧ 0 < o.obeg ∧ o'.obuf.length = o.obuf.length ∧ k' = k + q.length ∧ o'.obeg = 0)
       ∨ (o.obuf.length < o.oend + n ∧ o.obuf.length ≤ q.length + n ∧ o.obuf.length ≤ o'.obuf.length
          ∧ (2 * o.obuf.length ≤ o'.obuf.length ∨ o'.obuf.length = env.maxLen)
          ∧ o'.obuf.length ≤ 2 * (q.length + n) ∧ k' = k + q.length ∧ o'.obeg = 0
          ∧ q.length ≤ o.obuf.length ∧ (o.obeg = 0 → o.obuf.length < env.maxLen))) := by
  have hle := h.le; have hb := h.bound; have hp := h.pos; have hmx := h.max
  have hl := h.length
  obtain ⟨o1, e1, r1, c1⟩ := OBuf.ensureCapacity_ok h n hm
  unfold OBuf.ensureCapacity at e1
  unfold OBuf.ensureCapacityC
  simp only at e1 ⊢
  split
  · rename_i h1
    rw [if_pos h1] at e1
    split
    · rename_i h2
      rw [if_pos h2] at e1
      cases hbl : bytesBlit o.obuf o.obeg o.obuf 0 (o.oend - o.obeg) with
      | none => rw [hbl] at e1; cases e1
      | some b =>
        rw [hbl] at e1
        simp only at e1 ⊢
        cases e1
        refine ⟨_, _, rfl, r1, c1, .inr (.inl ⟨by omega, by omega, ?_, by omega, rfl⟩)⟩
        unfold bytesBlit at hbl
        split at hbl
        · cases hbl
          simp only
          rw [splice_length]
          rw [slice_length_of_le (by omega)]
          simp; omega
        · cases hbl
    · rename_i h2
      rw [if_neg h2] at e1
      obtain ⟨m, g1, g2, g3, g4⟩ := obufGrowLoop_le ((o.oend : Int) - o.obeg + n) (2 * o.obuf.length)
        (by omega) (by omega)
      rw [g1] at e1 ⊢
      simp only at e1 ⊢
      split at e1
      · cases e1
      · rename_i h3
        rw [if_neg h3]
        cases hbl : bytesBlit o.obuf o.obeg (env.create (if m > env.maxLen then env.maxLen else m)) 0
            (o.oend - o.obeg) with
        | none => rw [hbl] at e1; cases e1
        | some b =>
          rw [hbl] at e1
          simp only at e1 ⊢
          cases e1
          refine ⟨_, _, rfl, r1, c1, .inr (.inr ?_)⟩
          have hlen : b.length = if m > env.maxLen then env.maxLen else m := by
            generalize (if m > env.maxLen then env.maxLen else m) = N at hbl ⊢
            unfold bytesBlit at hbl
            split at hbl
            · rename_i hr
              cases hbl
              obtain ⟨⟨-, -, -⟩, ⟨-, -, h6⟩⟩ := hr
              rw [Env.create_length] at h6
              rw [splice_length, Env.create_length]
              rw [slice_length_of_le (by omega)]
              rw [Env.create_length]
              simp only [Int.toNat_zero]
              omega
            · cases hbl
          simp only [hlen]
          split <;> refine ⟨by omega, by omega, by omega, by omega, by omega, by omega, trivial, by omega, ?_⟩ <;>
            intro h7 <;> omega
  · rename_i h1
    rw [if_neg h1] at e1
    exact ⟨o, k, rfl, h, by omega, .inl ⟨rfl, rfl⟩⟩

/-- The count is the only difference with `ensure_capacity`. -/
theorem ensureCapacityC_fst (env : Env) (n : Int) (o : OBuf) (k : Nat) :
    (∃ o' k', OBuf.ensureCapacityC env n (o, k) = .ok () (o', k')
        ∧ OBuf.ensureCapacity env n o = .ok () o')
    ∨ (∃ e o' k', OBuf.ensureCapacityC env n (o, k) = .exn e (o', k')
        ∧ OBuf.ensureCapacity env n o = .exn e o')
    ∨ (OBuf.ensureCapacityC env n (o, k) = .loop ∧ OBuf.ensureCapacity env n o = .loop) := by
  unfold OBuf.ensureCapacityC OBuf.ensureCapacity
  simp only
  split
  · split
    · cases bytesBlit o.obuf o.obeg o.obuf 0 (o.oend - o.obeg) <;> simp
    · cases OBuf.growLoop ((o.oend : Int) - o.obeg + n) (2 * o.obuf.length) with
      | none => simp
      | some m =>
        simp only
        split
        · simp
        · cases bytesBlit o.obuf o.obeg (env.create (if m > env.maxLen then env.maxLen else m)) 0
            (o.oend - o.obeg) <;> simp
  · simp

theorem appendC_ok {env : Env} {o : OBuf} {q : Bytes} (h : OBuf.Rep env o q) (x : Bytes) (k : Nat)
    (hm : q.length + x.length ≤ env.maxLen) {o1 : OBuf} {k1 : Nat}
    (h1 : OBuf.ensureCapacityC env x.length (o, k) = .ok () (o1, k1)) :
    ∃ o2, OBuf.appendC env x (o, k) = .ok () (o2, k1) ∧ OBuf.append env x o = .ok () o2
      ∧ OBuf.Rep env o2 (q ++ x) ∧ o2.obuf.length = o1.obuf.length ∧ o2.obeg = o1.obeg
      ∧ o2.oend = o1.oend + x.length := by
  obtain ⟨o', h2, h3⟩ := OBuf.append_ok h x hm
  have h4 : OBuf.ensureCapacity env x.length o = .ok () o1 := by
    rcases ensureCapacityC_fst env x.length o k with ⟨a, b, h5, h6⟩ | ⟨e, a, b, h5, -⟩ | ⟨h5, -⟩
    · rw [h1] at h5; cases h5; exact h6
    · rw [h1] at h5; cases h5
    · rw [h1] at h5; cases h5
  have h2' := h2
  unfold OBuf.append at h2'
  rw [M.bind_ok h4, M.bind_ok (M.get_def o1)] at h2'
  cases hb : bytesBlit x 0 o1.obuf o1.oend x.length with
  | none => rw [hb] at h2'; cases h2'
  | some b =>
    rw [hb] at h2'
    cases h2'
    refine ⟨_, ?_, h2, h3, ?_, rfl, rfl⟩
    · unfold OBuf.appendC
      rw [M.bind_ok h1, M.bind_ok (M.get_def (o1, k1))]
      simp only [hb]
      rfl
    · unfold bytesBlit at hb
      split at hb
      · rename_i hr
        cases hb
        obtain ⟨⟨-, h6, h7⟩, ⟨h8, h9, h10⟩⟩ := hr
        simp only
        have : (slice x (Int.toNat 0) (Int.toNat (x.length : Int))).length = x.length := by
          rw [slice_length_of_le (by simp)]; simp
        rw [splice_length (by rw [this]; omega)]
      · cases hb

theorem appendC_overflow {env : Env} {o : OBuf} {q : Bytes} (h : OBuf.Rep env o q) (x : Bytes)
    (k : Nat) (hm : env.maxLen < q.length + x.length) :
    OBuf.appendC env x (o, k) = .exn (.error .outputBufferOverflow) (o, k) := by
  have hle := h.le; have hb := h.bound; have hmx := h.max
  have hl := h.length; have hp := h.pos
  have h1 : OBuf.ensureCapacityC env x.length (o, k)
      = .exn (.error .outputBufferOverflow) (o, k) := by
    unfold OBuf.ensureCapacityC
    simp only
    rw [if_pos (by omega), if_neg (by omega)]
    obtain ⟨m, g1, g2, -, -⟩ := obufGrowLoop_le ((o.oend : Int) - o.obeg + x.length) (2 * o.obuf.length)
        (by omega) (by omega)
    rw [g1]
    simp only
    rw [if_pos ⟨by omega, by omega⟩]
  exact M.bind_exn h1

/-- One step: the observations and the queue are those of the specification, the buffer that of the
model without count, and the sizes change as in `ensureCapacityC_cases`. -/
theorem costStep_ok {env : Env} {o : OBuf} {q : Bytes} (h : OBuf.Rep env o q) (k : Nat) (op : QOp) :
    ∃ o' k', costStep env (o, k) op = some ((qstep env.maxLen q op).1, (o', k'))
      ∧ bufStep env o op = some ((qstep env.maxLen q op).1, o')
      ∧ OBuf.Rep env o' (qstep env.maxLen q op).2
      ∧ ((o'.obuf.length = o.obuf.length ∧ k' = k ∧ (Whole op → o.obeg = 0 → o'.obeg = 0))
        ∨ (0 < o.obeg ∧ o'.obuf.length = o.obuf.length)
        ∨ (o.obuf.length ≤ o'.obuf.length
          ∧ (2 * o.obuf.length ≤ o'.obuf.length ∨ o'.obuf.length = env.maxLen)
          ∧ o'.obuf.length ≤ 2 * (qstep env.maxLen q op).2.length ∧ k' = k + q.length ∧ o'.obeg = 0
          ∧ q.length ≤ o.obuf.length ∧ (o.obeg = 0 → o.obuf.length < env.maxLen))) := by
  have other : ∀ op, (∀ x, op ≠ .produce x) → (∀ o' r, bufStep env o op = some (r, o') →
      o'.obuf.length = o.obuf.length ∧ (Whole op → o.obeg = 0 → o'.obeg = 0)) →
      costStep env (o, k) op = (bufStep env o op).map (fun r => (r.1, (r.2, k))) →
      ∃ o' k', costStep env (o, k) op = some ((qstep env.maxLen q op).1, (o', k'))
      ∧ bufStep env o op = some ((qstep env.maxLen q op).1, o')
      ∧ OBuf.Rep env o' (qstep env.maxLen q op).2
      ∧ (o'.obuf.length = o.obuf.length ∧ k' = k ∧ (Whole op → o.obeg = 0 → o'.obeg = 0)) := by
    intro op _ h2 h3
    obtain ⟨o', h4, h5⟩ := bufStep_refines h op
    refine ⟨o', k, by rw [h3, h4]; rfl, h4, h5, (h2 _ _ h4).1, rfl, (h2 _ _ h4).2⟩
  have chr : ∀ a o' , OBuf.getChar o = a → (∃ c, a = .ok c o') ∨ (∃ e, a = .exn e o') →
      o'.obuf.length = o.obuf.length := by
    intro a o' ha hd
    unfold OBuf.getChar at ha
    split at ha
    · subst ha
      rcases hd with ⟨c, hc⟩ | ⟨c, hc⟩ <;> cases hc; rfl
    · cases hg : bytesGet o.obuf o.obeg <;> rw [hg] at ha <;> simp only at ha <;> subst ha <;>
        rcases hd with ⟨c, hc⟩ | ⟨c, hc⟩ <;> cases hc <;> rfl
  cases op with
  | produce x =>
    by_cases hm : q.length + x.length ≤ env.maxLen
    · obtain ⟨o1, k1, h1, h2, h3, h4⟩ := ensureCapacityC_cases h x.length k hm
      obtain ⟨o2, h5, h6, h7, h8, h9, h10⟩ := appendC_ok h x k hm h1
      refine ⟨o2, k1, by simp [costStep, h5, qstep, hm], by simp [bufStep, h6, qstep, hm],
        by simpa [qstep, hm] using h7, ?_⟩
      have hq : (qstep env.maxLen q (.produce x)).2.length = q.length + x.length := by
        simp [qstep, hm]
      rw [hq, h8, h9]
      rcases h4 with ⟨e1, e2⟩ | ⟨e1, e2, e3, e4, e5⟩ | ⟨e1, e2, e3, e4, e5, e6, e7, e8, e9⟩
      · subst e1; exact .inl ⟨rfl, e2, fun _ h => h⟩
      · exact .inr (.inl ⟨e2, e3⟩)
      · exact .inr (.inr ⟨e3, e4, e5, e6, e7, e8, e9⟩)
    · exact ⟨o, k, by simp [costStep, appendC_overflow h x k (by omega), qstep, hm],
        by simp [bufStep, OBuf.append_overflow h x (by omega), qstep, hm],
        by simpa [qstep, hm] using h, .inl ⟨rfl, rfl, fun _ h => h⟩⟩
  | getString =>
    obtain ⟨o', k', h1, h2, h3, h4⟩ := other .getString (by simp) (by
      intro o' r hr
      simp only [bufStep, OBuf.getString_ok h] at hr
      cases hr; exact ⟨rfl, fun _ _ => rfl⟩) rfl
    exact ⟨o', k', h1, h2, h3, .inl h4⟩
  | getSubstring =>
    obtain ⟨o', k', h1, h2, h3, h4⟩ := other .getSubstring (by simp) (by
      intro o' r hr
      obtain ⟨g1, g2, g3⟩ := OBuf.getSubstring_ok h
      simp only [bufStep, g1, bytesSub_ok g2] at hr
      cases hr; exact ⟨rfl, fun _ _ => rfl⟩) rfl
    exact ⟨o', k', h1, h2, h3, .inl h4⟩
  | available =>
    obtain ⟨o', k', h1, h2, h3, h4⟩ := other .available (by simp) (by
      intro o' r hr
      simp only [bufStep, OBuf.availableOutput_ok h] at hr
      cases hr; exact ⟨rfl, fun _ h => h⟩) rfl
    exact ⟨o', k', h1, h2, h3, .inl h4⟩
  | getChar =>
    obtain ⟨o', k', h1, h2, h3, h4⟩ := other .getChar (by simp) (by
      intro o' r hr
      refine ⟨?_, fun hw => hw.elim⟩
      simp only [bufStep] at hr
      cases hc : OBuf.getChar o <;> rw [hc] at hr <;> simp at hr
      · exact chr _ _ hc (.inl ⟨_, by rw [hr.2]⟩)
      · exact chr _ _ hc (.inr ⟨_, by rw [hr.2]⟩)) rfl
    exact ⟨o', k', h1, h2, h3, .inl h4⟩
  | getByte =>
    obtain ⟨o', k', h1, h2, h3, h4⟩ := other .getByte (by simp) (by
      intro o' r hr
      refine ⟨?_, fun hw => hw.elim⟩
      simp only [bufStep, OBuf.getByte, M.bind_def] at hr
      cases hc : OBuf.getChar o <;> rw [hc] at hr <;> simp [pure, M.pure] at hr
      · exact chr _ _ hc (.inl ⟨_, by rw [hr.2]⟩)
      · exact chr _ _ hc (.inr ⟨_, by rw [hr.2]⟩)) rfl
    exact ⟨o', k', h1, h2, h3, .inl h4⟩

theorem peak_head (max : Nat) (q : Bytes) (ops : List QOp) : q.length ≤ peak max q ops := by
  cases ops with
  | nil => exact Nat.le_refl _
  | cons => exact Nat.le_max_left _ _

theorem peak_tail (max : Nat) (q : Bytes) (op : QOp) (ops : List QOp) :
    peak max (qstep max q op).2 ops ≤ peak max q (op :: ops) := Nat.le_max_right _ _

theorem memory_history {env : Env} (n P : Nat) (ops : List QOp) {o : OBuf} {q : Bytes} (k : Nat)
    (h : OBuf.Rep env o q) (hP : peak env.maxLen q ops ≤ P) (hl : o.obuf.length ≤ Nat.max n (2 * P)) :
    ∃ o' k', costRun env (o, k) ops = some ((qrun env.maxLen q ops).1, (o', k'))
      ∧ bufRun env o ops = some ((qrun env.maxLen q ops).1, o')
      ∧ o'.obuf.length ≤ Nat.max n (2 * P) := by
  induction ops generalizing o q k with
  | nil => exact ⟨o, k, rfl, rfl, hl⟩
  | cons op ops ih =>
    obtain ⟨o1, k1, h1, h2, h3, h4⟩ := costStep_ok h k op
    have hP1 := Nat.le_trans (peak_tail env.maxLen q op ops) hP
    have hP2 := Nat.le_trans (peak_head env.maxLen _ ops) hP1
    obtain ⟨o2, k2, h5, h6, h7⟩ := ih k1 h3 hP1 (by
      rcases h4 with ⟨e1, -⟩ | ⟨-, e1⟩ | ⟨-, -, e1, -⟩
      · rw [e1]; exact hl
      · rw [e1]; exact hl
      · exact Nat.le_trans (by omega) (Nat.le_max_right _ _))
    exact ⟨o2, k2, by simp [costRun, h1, h5, qrun], by simp [bufRun, h2, h6, qrun], h7⟩

/-- **C87.** After any history of operations from a new transform, whose output buffer has `n` bytes
at first, the buffer has at most `n` bytes, or at most twice as many bytes as the longest output
that was pending at some point of the history. -/
theorem C87_memory (env : Env) (n : Nat) (hn : 0 < n) (hmax : n ≤ env.maxLen) (ops : List QOp) :
    ∃ o', bufRun env (OBuf.init env n) ops = some ((qrun env.maxLen [] ops).1, o')
      ∧ o'.obuf.length ≤ Nat.max n (2 * peak env.maxLen [] ops) := by
  obtain ⟨o', -, -, h1, h2⟩ := memory_history n _ ops 0 (OBuf.rep_init env n hn hmax)
    (Nat.le_refl _) (by simp [OBuf.init, Env.create_length]; exact Nat.le_max_left _ _)
  exact ⟨o', h1, h2⟩

theorem copying_history {env : Env} (n P : Nat) (ops : List QOp) {o : OBuf} {q : Bytes} (k : Nat)
    (h : OBuf.Rep env o q) (hP : peak env.maxLen q ops ≤ P) (hw : ∀ op ∈ ops, Whole op)
    (h0 : o.obeg = 0) (hl : o.obuf.length = n ∧ k = 0 ∨ o.obuf.length ≤ 2 * P)
    (hk : k ≤ o.obuf.length ∨ o.obuf.length = env.maxLen ∧ k ≤ 2 * o.obuf.length) :
    ∃ o' k', costRun env (o, k) ops = some ((qrun env.maxLen q ops).1, (o', k'))
      ∧ k' ≤ 4 * P := by
  induction ops generalizing o q k with
  | nil => exact ⟨o, k, rfl, by omega⟩
  | cons op ops ih =>
    obtain ⟨o1, k1, h1, h2, h3, h4⟩ := costStep_ok h k op
    have hP1 := Nat.le_trans (peak_tail env.maxLen q op ops) hP
    have hP2 := Nat.le_trans (peak_head env.maxLen _ ops) hP1
    have hw1 : Whole op := hw op (by simp)
    obtain ⟨o2, k2, h5, h7⟩ := ih k1 h3 hP1 (fun x hx => hw x (by simp [hx]))
      (by rcases h4 with ⟨-, -, e1⟩ | ⟨e1, -⟩ | ⟨-, -, -, -, e1, -⟩
          · exact e1 hw1 h0
          · omega
          · exact e1)
      (by rcases h4 with ⟨e1, e2, -⟩ | ⟨e1, -⟩ | ⟨e1, e2, e3, e4, e5, e6, e7⟩
          · omega
          · omega
          · omega)
      (by rcases h4 with ⟨e1, e2, -⟩ | ⟨e1, -⟩ | ⟨e1, e2, e3, e4, e5, e6, e7⟩
          · omega
          · omega
          · have := e7 h0; omega)
    exact ⟨o2, k2, by simp [costRun, h1, h5, qrun], h7⟩

/-- **C88, with retrieval of the whole output.** In any history in which the output is retrieved by
`get_string` and `get_substring` only, the number of bytes moved by the growth of the buffer is at
most four times the longest output that was pending at some point, however long the history. -/
theorem C88_copying_partial (env : Env) (n : Nat) (hn : 0 < n) (hmax : n ≤ env.maxLen)
    (ops : List QOp) (hw : ∀ op ∈ ops, Whole op) :
    ∃ o' moved, costRun env (OBuf.init env n, 0) ops = some ((qrun env.maxLen [] ops).1, (o', moved))
      ∧ bufRun env (OBuf.init env n) ops = some ((qrun env.maxLen [] ops).1, o')
      ∧ moved ≤ 4 * peak env.maxLen [] ops := by
  obtain ⟨o', k', h1, h2⟩ := copying_history n _ ops 0 (OBuf.rep_init env n hn hmax)
    (Nat.le_refl _) hw rfl (.inl ⟨by simp [OBuf.init, Env.create_length], rfl⟩) (.inl (Nat.zero_le _))
  obtain ⟨o2, k2, h3, h4, -⟩ := memory_history n _ ops 0 (OBuf.rep_init env n hn hmax)
    (Nat.le_refl _) (by simp [OBuf.init, Env.create_length]; exact Nat.le_max_left _ _)
  rw [h1] at h3; cases h3
  exact ⟨o', k', h1, h4, h2⟩

/-- The output pending never exceeds the output produced. -/
theorem peak_le_produced (max : Nat) (q : Bytes) (ops : List QOp) :
    peak max q ops ≤ q.length + produced ops := by
  induction ops generalizing q with
  | nil => simp [peak, produced]
  | cons op ops ih =>
    refine Nat.max_le.mpr ⟨Nat.le_add_right _ _, Nat.le_trans (ih _) ?_⟩
    cases op with
    | produce x =>
      simp only [qstep, produced]
      split <;> simp <;> omega
    | getString => simp [qstep, produced]
    | getSubstring => simp [qstep, produced]
    | available => simp [qstep, produced]
    | getChar => cases q <;> simp [qstep, produced]
    | getByte => cases q <;> simp [qstep, produced]

/-- **C88, with retrieval of the whole output**, in terms of the output produced. -/
theorem C88_linear_partial (env : Env) (n : Nat) (hn : 0 < n) (hmax : n ≤ env.maxLen)
    (ops : List QOp) (hw : ∀ op ∈ ops, Whole op) :
    ∃ o' moved, costRun env (OBuf.init env n, 0) ops = some ((qrun env.maxLen [] ops).1, (o', moved))
      ∧ moved ≤ 4 * produced ops := by
  obtain ⟨o', k, h1, -, h2⟩ := C88_copying_partial env n hn hmax ops hw
  have := peak_le_produced env.maxLen [] ops
  simp at this
  exact ⟨o', k, h1, by omega⟩

theorem obufGrowLoop_exact (m j : Nat) (h : 0 < m) :
    OBuf.growLoop ((m * 2 ^ j : Nat) : Int) m = some (m * 2 ^ j) := by
  induction j generalizing m with
  | zero => unfold OBuf.growLoop; rw [if_neg (by omega)]; simp
  | succ j ih =>
    have h1 : m * 2 ^ (j + 1) = m * 2 * 2 ^ j := by rw [Nat.pow_succ, Nat.mul_comm (2 ^ j) 2, Nat.mul_assoc]
    have h2 : 0 < 2 ^ j := Nat.two_pow_pos j
    have h3 : m < m * 2 * 2 ^ j := by
      have := Nat.le_mul_of_pos_right (m * 2) h2; omega
    unfold OBuf.growLoop
    rw [h1, if_pos (by omega), if_neg (by omega), ih (m * 2) (by omega)]

/-- Retrieve two bytes one at a time, produce two bytes one at a time, `k` times over. -/
def Spec.rounds (b : Byte) : Nat → List QOp
  | 0 => []
  | k + 1 => .getChar :: .getChar :: .produce [b] :: .produce [b] :: rounds b k

theorem getChar_obeg {env : Env} {o : OBuf} {c : Byte} {q : Bytes} (h : OBuf.Rep env o (c :: q))
    (k : Nat) : costStep env (o, k) .getChar = some (.char c, ({ o with obeg := o.obeg + 1 }, k))
      ∧ OBuf.Rep env { o with obeg := o.obeg + 1 } q := by
  obtain ⟨o', h1, h2⟩ := OBuf.getChar_cons h
  have : o' = { o with obeg := o.obeg + 1 } := by
    unfold OBuf.getChar at h1
    split at h1
    · cases h1
    · cases hg : bytesGet o.obuf o.obeg <;> rw [hg] at h1 <;> cases h1; rfl
  subst this
  exact ⟨by simp [costStep, bufStep, h1], h2⟩

theorem full_round {env : Env} {o : OBuf} {q : Bytes} (h : OBuf.Rep env o q) (k : Nat) (b : Byte)
    (h0 : o.obeg = 0) (h1 : o.oend = o.obuf.length) (h2 : 2 ≤ o.obuf.length) (ops : List QOp) :
    ∃ o' q' obs, OBuf.Rep env o' q' ∧ o'.obeg = 0 ∧ o'.oend = o'.obuf.length
      ∧ o'.obuf.length = o.obuf.length
      ∧ costRun env (o, k) (.getChar :: .getChar :: .produce [b] :: .produce [b] :: ops)
        = (costRun env (o', k + (o.obuf.length - 2)) ops).map (fun r => (obs ++ r.1, r.2)) := by
  have hl := h.length
  have hmx := h.max
  match q, h, hl with
  | c :: d :: q, h, hl =>
    obtain ⟨e1, r1⟩ := getChar_obeg h k
    obtain ⟨e2, r2⟩ := getChar_obeg r1 k
    simp only [List.length_cons] at hl
    obtain ⟨o3, k3, a1, a2, a3, a4⟩ := ensureCapacityC_cases r2 ([b] : Bytes).length k
      (by simp; omega)
    obtain ⟨o4, b1, -, b3, b4, b5, b6⟩ := appendC_ok r2 [b] k (by simp; omega) a1
    have hl3 := a2.length
    have hl4 := b3.length
    simp only [List.length_cons, List.length_nil, List.length_append] at a3 a4 b6 hl4
    have f3 : o3.obuf.length = o.obuf.length ∧ k3 = k + (o.obuf.length - 2) ∧ o3.obeg = 0 := by
      rcases a4 with ⟨e, -⟩ | ⟨-, -, e3, e4, e5⟩ | ⟨-, e, -⟩
      · rw [e] at a3; simp only at a3; omega
      · exact ⟨e3, by omega, e5⟩
      · omega
    obtain ⟨o5, k5, c1, c2, c3, c4⟩ := ensureCapacityC_cases b3 ([b] : Bytes).length k3
      (by simp; omega)
    obtain ⟨o6, d1, -, d3, d4, d5, d6⟩ := appendC_ok b3 [b] k3 (by simp; omega) c1
    simp only [List.length_cons, List.length_nil, List.length_append] at c3 c4 d6
    have f5 : o5 = o4 ∧ k5 = k3 := by
      have := b3.le
      rcases c4 with e | ⟨e, -⟩ | ⟨e, -⟩
      · exact e
      · omega
      · omega
    obtain ⟨f5, f6⟩ := f5
    subst f5 f6
    refine ⟨o6, _, [.char c, .char d, .done, .done], d3, by omega, by have := b3.le; omega, by omega, ?_⟩
    have g1 : costStep env ({ o with obeg := o.obeg + 1 + 1 }, k) (.produce [b]) = some (.done, (o5, k5)) := by
      simp only [costStep]; rw [b1]
    have g2 : costStep env (o5, k5) (.produce [b]) = some (.done, (o6, k5)) := by
      simp only [costStep]; rw [d1]
    simp only [costRun, e1, e2, g1, g2, ← f3.2.1]
    cases costRun env (o6, k5) ops <;> simp
  | [], h, hl => simp at hl; omega
  | [_], h, hl => simp at hl; omega

theorem rounds_cost {env : Env} {o : OBuf} {q : Bytes} (h : OBuf.Rep env o q) (k : Nat) (b : Byte)
    (h0 : o.obeg = 0) (h1 : o.oend = o.obuf.length) (h2 : 2 ≤ o.obuf.length) (r : Nat) :
    (costRun env (o, k) (rounds b r)).map (·.2.2) = some (k + r * (o.obuf.length - 2)) := by
  induction r generalizing o q k with
  | zero => simp [rounds, costRun]
  | succ r ih =>
    obtain ⟨o', q', obs, i1, i2, i3, i4, i5⟩ := full_round h k b h0 h1 h2 (rounds b r)
    rw [rounds, i5, Option.map_map]
    have := ih i1 (k + (o.obuf.length - 2)) i2 i3 (by omega)
    rw [i4] at this
    rw [Nat.succ_mul, show k + (r * (o.obuf.length - 2) + (o.obuf.length - 2))
      = k + (o.obuf.length - 2) + r * (o.obuf.length - 2) by omega, ← this]
    rfl

/-- **C88 fails with `get_char`.** Once the buffer is full, retrieving bytes one at a time and
producing as many moves the whole buffer every second byte. Here the initial size of the buffer is
`n` (256 in the library) and its size when full is `L`, any of the sizes it takes as it grows;
`r` rounds produce `2 * r` bytes and move `r * (L - 2)` bytes. -/
theorem C88_char_quadratic (env : Env) (n j r : Nat) (b : Byte) (hn : 0 < n)
    (hmax : 2 * n * 2 ^ j ≤ env.maxLen) :
    (costRun env (OBuf.init env n, 0)
        (.produce (List.replicate (2 * n * 2 ^ j) b) :: rounds b r)).map (·.2.2)
      = some (r * (2 * n * 2 ^ j - 2))
    ∧ produced (.produce (List.replicate (2 * n * 2 ^ j) b) :: rounds b r) = 2 * n * 2 ^ j + 2 * r := by
  have hpow : 0 < 2 ^ j := Nat.two_pow_pos j
  have hge : 2 * n ≤ 2 * n * 2 ^ j := Nat.le_mul_of_pos_right _ hpow
  constructor
  · generalize hL : 2 * n * 2 ^ j = L at *
    have hrep := OBuf.rep_init env n hn (by omega)
    have h1 : OBuf.ensureCapacityC env (List.replicate L b : Bytes).length (OBuf.init env n, 0)
        = .ok () ({ obuf := splice (env.create L) 0 (slice (env.create n) 0 0), obeg := 0, oend := 0 }, 0) := by
      unfold OBuf.ensureCapacityC
      simp only [OBuf.init, Env.create_length, List.length_replicate]
      rw [if_pos (by omega), if_neg (by omega)]
      have := obufGrowLoop_exact (2 * n) j (by omega)
      rw [hL] at this
      simp only [Int.natCast_zero, Int.sub_zero, Int.zero_add]
      rw [this]
      simp only
      rw [if_neg (by omega), if_neg (by omega)]
      simp [bytesBlit, InRange, Env.create_length]
    obtain ⟨o2, c1, -, c3, c4, c5, c6⟩ := appendC_ok hrep (List.replicate L b) 0 (by simp; omega) h1
    have hlen : o2.obuf.length = L := by
      rw [c4]; simp only
      rw [splice_length (by rw [Env.create_length]; simp [slice]), Env.create_length]
    have := rounds_cost c3 0 b c5 (by rw [c6, hlen]; simp) (by omega) r
    rw [hlen] at this
    simp only [costRun, costStep, c1]
    cases hc : costRun env (o2, 0) (rounds b r) with
    | none => rw [hc] at this; cases this
    | some x => rw [hc] at this; simpa using this
  · have : ∀ r, produced (rounds b r) = 2 * r := by
      intro r
      induction r with
      | zero => rfl
      | succ r ih => simp [rounds, produced, ih]; omega
    simp [produced, this]

/-- **C88 fails with `get_char`**: no constant bounds the number of bytes moved per byte produced,
whatever the initial size of the buffer, provided strings can be long enough. -/
theorem C88_char_not_linear (n c : Nat) (hn : 0 < n) :
    ∃ L ops, ∀ env : Env, L ≤ env.maxLen → ∃ obs o' moved,
      costRun env (OBuf.init env n, 0) ops = some (obs, (o', moved)) ∧ c * produced ops < moved := by
  let L := 2 * n * 2 ^ (6 * c + 6)
  refine ⟨L, .produce (List.replicate L 0) :: rounds 0 L, fun env hm => ?_⟩
  obtain ⟨h1, h2⟩ := C88_char_quadratic env n (6 * c + 6) L 0 hn hm
  cases hc : costRun env (OBuf.init env n, 0) (.produce (List.replicate L 0) :: rounds 0 L) with
  | none => rw [hc] at h1; cases h1
  | some x =>
    rw [hc] at h1
    refine ⟨x.1, x.2.1, x.2.2, rfl, ?_⟩
    have h3 : x.2.2 = L * (L - 2) := by simpa using h1
    rw [h3, h2]
    change c * (L + 2 * L) < L * (L - 2)
    have h4 : 6 * c + 6 < 2 ^ (6 * c + 6) := Nat.lt_two_pow_self
    have h5 : 2 ^ (6 * c + 6) ≤ L := Nat.le_mul_of_pos_left _ (by omega)
    have h6 : 3 * c < L - 2 := by omega
    calc c * (L + 2 * L) = L * (3 * c) := by
          rw [show L + 2 * L = 3 * L by omega]; rw [← Nat.mul_assoc, Nat.mul_comm c 3, Nat.mul_comm]
      _ < L * (L - 2) := Nat.mul_lt_mul_of_pos_left h6 (by omega)

namespace Example
open Spec

def bufEnv : Env := { maxLen := 100, junk := fun _ _ => 0 }

/-- A history that meets the hypotheses of C87 and C88: the buffer of 2 bytes grows to 8 for 5 bytes
pending, and 2 bytes are moved. -/
example : (costRun bufEnv (OBuf.init bufEnv 2, 0)
      [.produce [1, 2], .produce [3, 4, 5], .getString, .produce [6], .available]).map
        (fun r => (r.1, r.2.1.obuf.length, r.2.2))
    = some ([.done, .done, .data [1, 2, 3, 4, 5], .done, .num 1], 8, 2) := by decide +kernel

example : peak 100 [] [.produce [1, 2], .produce [3, 4, 5], .getString, .produce [6], .available] = 5 := rfl

/-- Two rounds on a full buffer of 4 bytes. -/
example : (costRun bufEnv (OBuf.init bufEnv 2, 0)
      (.produce [1, 2, 3, 4] :: rounds 9 2)).map (fun r => (r.1, r.2.2))
    = some ([.done, .char 1, .char 2, .done, .done, .char 3, .char 4, .done, .done], 4) := by decide +kernel

end Example
end Verif
