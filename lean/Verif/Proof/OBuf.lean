import Verif.Model.OBuf
import Verif.Proof.Bytes
/-
`buffered_output` represents a queue.
-/
namespace Verif
namespace OBuf

/-- `o` holds the pending output `q`. -/
structure Rep (env : Env) (o : OBuf) (q : Bytes) : Prop where
  le : o.obeg ≤ o.oend
  bound : o.oend ≤ o.obuf.length
  pos : 0 < o.obuf.length
  max : o.obuf.length ≤ env.maxLen
  content : slice o.obuf o.obeg (o.oend - o.obeg) = q

theorem Rep.length {env : Env} {o : OBuf} {q : Bytes} (h : Rep env o q) :
    q.length = o.oend - o.obeg := by
  have := h.le; have := h.bound
  rw [← h.content]; simp; omega

theorem rep_init (env : Env) (n : Nat) (hn : 0 < n) (hm : n ≤ env.maxLen) :
    Rep env (init env n) [] := by
  constructor <;> simp [init, hn, hm]

theorem growLoop_spec (need : Int) (newlen : Nat) (h : 0 < newlen) :
    ∃ m, growLoop need newlen = some m ∧ need ≤ m ∧ newlen ≤ m := by
  fun_induction growLoop need newlen with
  | case1 => omega
  | case2 newlen h1 h2 ih =>
    obtain ⟨m, h3, h4, h5⟩ := ih (by omega)
    exact ⟨m, h3, h4, by omega⟩
  | case3 newlen h1 => exact ⟨newlen, rfl, by omega, by omega⟩

theorem ensureCapacity_ok {env : Env} {o : OBuf} {q : Bytes} (h : Rep env o q) (n : Nat)
    (hm : q.length + n ≤ env.maxLen) :
    ∃ o', ensureCapacity env n o = .ok () o' ∧ Rep env o' q ∧ o'.oend + n ≤ o'.obuf.length := by
  have hle := h.le; have hb := h.bound; have hp := h.pos; have hmx := h.max
  have hl := h.length
  have hcast : ((o.oend : Int) - o.obeg) = ((o.oend - o.obeg : Nat) : Int) := by omega
  unfold ensureCapacity
  simp only
  split
  · rename_i h1
    split
    · rename_i h2
      rw [hcast, ← Int.natCast_zero, bytesBlit_ok (by omega) (by omega)]
      have hsl : (slice o.obuf o.obeg (o.oend - o.obeg)).length = o.oend - o.obeg :=
        slice_length_of_le (by omega)
      refine ⟨_, rfl, ⟨by simp, ?_, ?_, ?_, ?_⟩, ?_⟩
      · simp only [splice_length (b := o.obuf) (o := 0) (x := slice o.obuf o.obeg (o.oend - o.obeg)) (by omega)]; omega
      · rw [splice_length (by omega)]; omega
      · rw [splice_length (by omega)]; omega
      · simp only [Nat.sub_zero]
        rw [slice_splice_same' hsl (by omega), h.content]
      · rw [splice_length (by omega)]; simp only; omega
    · rename_i h2
      obtain ⟨m, hg, hg1, hg2⟩ := growLoop_spec ((o.oend : Int) - o.obeg + n) (2 * o.obuf.length)
        (by omega)
      rw [hg]
      simp only
      rw [if_neg (by omega)]
      generalize hnl : (if m > env.maxLen then env.maxLen else m) = nl
      have hnl1 : o.oend - o.obeg + n ≤ nl := by split at hnl <;> omega
      have hnl2 : nl ≤ env.maxLen := by split at hnl <;> omega
      have hnl3 : 0 < nl := by split at hnl <;> omega
      rw [hcast, ← Int.natCast_zero, bytesBlit_ok (by omega) (by simp; omega)]
      have hsl : (slice o.obuf o.obeg (o.oend - o.obeg)).length = o.oend - o.obeg :=
        slice_length_of_le (by omega)
      have hcl : (env.create nl).length = nl := by simp
      refine ⟨_, rfl, ⟨by simp, ?_, ?_, ?_, ?_⟩, ?_⟩
      · rw [splice_length (by omega)]; simp only; omega
      · rw [splice_length (by omega)]; omega
      · rw [splice_length (by omega)]; omega
      · simp only [Nat.sub_zero]
        rw [slice_splice_same' hsl (by omega), h.content]
      · rw [splice_length (by omega)]; simp only; omega
  · exact ⟨o, rfl, h, by omega⟩

theorem ensureCapacity_overflow {env : Env} {o : OBuf} {q : Bytes} (h : Rep env o q) (n : Nat)
    (hm : env.maxLen < q.length + n) :
    ensureCapacity env n o = .exn (.error .outputBufferOverflow) o := by
  have hle := h.le; have hb := h.bound; have hp := h.pos; have hmx := h.max
  have hl := h.length
  unfold ensureCapacity
  simp only
  rw [if_pos (by omega), if_neg (by omega)]
  obtain ⟨m, hg, hg1, hg2⟩ := growLoop_spec ((o.oend : Int) - o.obeg + n) (2 * o.obuf.length)
    (by omega)
  rw [hg]
  simp only
  rw [if_pos (by omega)]

/-- Writing `x` at `oend` and advancing `oend` enqueues `x`. -/
theorem Rep.write {env : Env} {o : OBuf} {q x : Bytes} (h : Rep env o q)
    (hx : o.oend + x.length ≤ o.obuf.length) :
    Rep env { o with obuf := splice o.obuf o.oend x, oend := o.oend + x.length } (q ++ x) := by
  have hle := h.le; have hb := h.bound; have hp := h.pos; have hmx := h.max
  refine ⟨by simp; omega, ?_, ?_, ?_, ?_⟩
  · rw [splice_length hx]; simp only; omega
  · rw [splice_length hx]; omega
  · rw [splice_length hx]; omega
  · simp only
    rw [show o.oend + x.length - o.obeg = (o.oend - o.obeg) + x.length by omega,
      slice_append_right, slice_splice_disj hx (by omega), h.content,
      show o.obeg + (o.oend - o.obeg) = o.oend by omega, slice_splice_same hx]

/-- A write at `oend` that does not advance `oend` leaves the queue unchanged. -/
theorem Rep.scratch {env : Env} {o : OBuf} {q x : Bytes} (h : Rep env o q)
    (hx : o.oend + x.length ≤ o.obuf.length) :
    Rep env { o with obuf := splice o.obuf o.oend x } q := by
  have hle := h.le; have hb := h.bound; have hp := h.pos; have hmx := h.max
  refine ⟨h.le, ?_, ?_, ?_, ?_⟩
  · rw [splice_length hx]; simp only; omega
  · rw [splice_length hx]; omega
  · rw [splice_length hx]; omega
  · simp only
    rw [slice_splice_disj hx (by omega), h.content]

theorem append_ok {env : Env} {o : OBuf} {q : Bytes} (h : Rep env o q) (x : Bytes)
    (hm : q.length + x.length ≤ env.maxLen) :
    ∃ o', append env x o = .ok () o' ∧ Rep env o' (q ++ x) := by
  obtain ⟨o', h1, h2, h3⟩ := ensureCapacity_ok h x.length hm
  refine ⟨_, ?_, h2.write h3⟩
  unfold append
  rw [M.bind_ok h1, M.bind_ok (M.get_def o'), ← Int.natCast_zero,
    bytesBlit_ok (by omega) h3, M.bind_ok (M.orRaise_some _ _ _), slice_full]
  rfl

theorem append_overflow {env : Env} {o : OBuf} {q : Bytes} (h : Rep env o q) (x : Bytes)
    (hm : env.maxLen < q.length + x.length) :
    append env x o = .exn (.error .outputBufferOverflow) o := by
  unfold append
  rw [M.bind_exn (ensureCapacity_overflow h _ hm)]

theorem availableOutput_ok {env : Env} {o : OBuf} {q : Bytes} (h : Rep env o q) :
    availableOutput o = .ok (q.length : Int) o := by
  have := h.length; have := h.le
  unfold availableOutput
  rw [show ((o.oend : Int) - o.obeg) = (q.length : Int) by omega]

theorem Rep.clear {env : Env} {o : OBuf} {q : Bytes} (h : Rep env o q) :
    Rep env { o with obeg := 0, oend := 0 } [] :=
  ⟨by simp, by simp, h.pos, h.max, by simp⟩

theorem getString_ok {env : Env} {o : OBuf} {q : Bytes} (h : Rep env o q) :
    getString o = .ok q { o with obeg := 0, oend := 0 } := by
  have := h.le; have := h.bound
  unfold getString
  rw [show ((o.oend : Int) - o.obeg) = ((o.oend - o.obeg : Nat) : Int) by omega,
    bytesSub_ok (by omega), h.content]

theorem getSubstring_ok {env : Env} {o : OBuf} {q : Bytes} (h : Rep env o q) :
    getSubstring o = .ok (o.obuf, (o.obeg : Int), (q.length : Int)) { o with obeg := 0, oend := 0 }
      ∧ o.obeg + q.length ≤ o.obuf.length ∧ slice o.obuf o.obeg q.length = q := by
  have := h.length; have := h.le; have := h.bound
  refine ⟨?_, by omega, ?_⟩
  · unfold getSubstring
    rw [show ((o.oend : Int) - o.obeg) = (q.length : Int) by omega]
  · rw [h.length, h.content]

theorem getChar_nil {env : Env} {o : OBuf} (h : Rep env o []) :
    getChar o = .exn .endOfFile o := by
  have hl := h.length; have := h.le
  simp only [List.length_nil] at hl
  unfold getChar
  rw [if_pos (by omega)]

theorem getChar_cons {env : Env} {o : OBuf} {c : Byte} {q : Bytes} (h : Rep env o (c :: q)) :
    ∃ o', getChar o = .ok c o' ∧ Rep env o' q := by
  have hl := h.length; have hle := h.le; have hb := h.bound
  simp only [List.length_cons] at hl
  have hc := h.content
  rw [show o.oend - o.obeg = 1 + (o.oend - (o.obeg + 1)) by omega, slice_append_right] at hc
  have hlt : o.obeg < o.obuf.length := by omega
  have h1 : slice o.obuf o.obeg 1 = [o.obuf[o.obeg]] := by
    apply List.ext_getElem?; intro i
    rw [getElem?_slice]
    cases i with
    | zero => simp [hlt]
    | succ i => simp
  rw [h1] at hc
  simp only [List.cons_append, List.nil_append, List.cons.injEq] at hc
  refine ⟨{ o with obeg := o.obeg + 1 }, ?_, ⟨by simp; omega, by simp; omega, h.pos, h.max, ?_⟩⟩
  · unfold getChar
    rw [if_neg (by omega), bytesGet_ok hlt]
    simp [hc.1]
  · exact hc.2

end OBuf
end Verif
