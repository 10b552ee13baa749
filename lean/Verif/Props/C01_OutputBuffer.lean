import Verif.Proof.OBuf
import Verif.Spec.Queue
/-
C01: output buffering is a FIFO queue.
-/
namespace Verif
open Spec

/-- Perform one operation on the model of `buffered_output` and record what is
observed. An exception does not end the history: the next operation acts on the
state the exception left. `none`: undefined behaviour or non-termination. -/
def bufStep (env : Env) (o : OBuf) : QOp → Option (QObs × OBuf)
  | .produce x =>
    match OBuf.append env x o with
    | .ok () o' => some (.done, o')
    | .exn e o' => some (.raised e, o')
    | _ => none
  | .getString =>
    match OBuf.getString o with
    | .ok r o' => some (.data r, o')
    | .exn e o' => some (.raised e, o')
    | _ => none
  | .getSubstring =>
    match OBuf.getSubstring o with
    | .ok (b, ofs, len) o' =>
      match bytesSub b ofs len with
      | some r => some (.data r, o')
      | none => some (.raised .invalidArg, o')
    | .exn e o' => some (.raised e, o')
    | _ => none
  | .getChar =>
    match OBuf.getChar o with
    | .ok r o' => some (.char r, o')
    | .exn e o' => some (.raised e, o')
    | _ => none
  | .getByte =>
    match OBuf.getByte o with
    | .ok r o' => some (.num r, o')
    | .exn e o' => some (.raised e, o')
    | _ => none
  | .available =>
    match OBuf.availableOutput o with
    | .ok r o' => some (.num r, o')
    | .exn e o' => some (.raised e, o')
    | _ => none

/-- Perform a history of operations. -/
def bufRun (env : Env) (o : OBuf) : List QOp → Option (List QObs × OBuf)
  | [] => some ([], o)
  | op :: ops =>
    match bufStep env o op with
    | none => none
    | some (ob, o') =>
      match bufRun env o' ops with
      | none => none
      | some (obs, o'') => some (ob :: obs, o'')

theorem bufStep_refines {env : Env} {o : OBuf} {q : Bytes} (h : OBuf.Rep env o q) (op : QOp) :
    ∃ o', bufStep env o op = some ((qstep env.maxLen q op).1, o')
      ∧ OBuf.Rep env o' (qstep env.maxLen q op).2 := by
  cases op with
  | produce x =>
    by_cases hm : q.length + x.length ≤ env.maxLen
    · obtain ⟨o', h1, h2⟩ := OBuf.append_ok h x hm
      exact ⟨o', by simp [bufStep, h1, qstep, hm], by simpa [qstep, hm] using h2⟩
    · exact ⟨o, by simp [bufStep, OBuf.append_overflow h x (by omega), qstep, hm],
        by simpa [qstep, hm] using h⟩
  | getString =>
    exact ⟨_, by simp [bufStep, OBuf.getString_ok h, qstep], h.clear⟩
  | getSubstring =>
    obtain ⟨h1, h2, h3⟩ := OBuf.getSubstring_ok h
    refine ⟨_, ?_, h.clear⟩
    simp only [bufStep, h1, qstep]
    rw [bytesSub_ok h2, h3]
  | getChar =>
    cases q with
    | nil => exact ⟨o, by simp [bufStep, OBuf.getChar_nil h, qstep], by simpa [qstep] using h⟩
    | cons c q =>
      obtain ⟨o', h1, h2⟩ := OBuf.getChar_cons h
      exact ⟨o', by simp [bufStep, h1, qstep], by simpa [qstep] using h2⟩
  | getByte =>
    cases q with
    | nil =>
      have : OBuf.getByte o = .exn .endOfFile o := M.bind_exn (OBuf.getChar_nil h)
      exact ⟨o, by simp [bufStep, this, qstep], by simpa [qstep] using h⟩
    | cons c q =>
      obtain ⟨o', h1, h2⟩ := OBuf.getChar_cons h
      have : OBuf.getByte o = .ok (c.toNat : Int) o' := M.bind_ok h1
      exact ⟨o', by simp [bufStep, this, qstep], by simpa [qstep] using h2⟩
  | available =>
    exact ⟨o, by simp [bufStep, OBuf.availableOutput_ok h, qstep], by simpa [qstep] using h⟩

theorem bufRun_refines {env : Env} {o : OBuf} {q : Bytes} (h : OBuf.Rep env o q) (ops : List QOp) :
    ∃ o', bufRun env o ops = some ((qrun env.maxLen q ops).1, o')
      ∧ OBuf.Rep env o' (qrun env.maxLen q ops).2 := by
  induction ops generalizing o q with
  | nil => exact ⟨o, rfl, h⟩
  | cons op ops ih =>
    obtain ⟨o1, h1, h2⟩ := bufStep_refines h op
    obtain ⟨o2, h3, h4⟩ := ih h2
    exact ⟨o2, by simp [bufRun, h1, h3, qrun], by simpa [qrun] using h4⟩

/-- **C01.** Every history of operations on an output buffer of any initial size
produces exactly the observations of a FIFO queue bounded by the maximal string
length; in particular no byte is lost, duplicated or altered, `End_of_file` is raised
exactly on an empty queue, `Output_buffer_overflow` exactly when the bound would be
exceeded, and no history meets undefined behaviour, divergence or another exception. -/
theorem C01_output_buffer_is_fifo (env : Env) (n : Nat) (hn : 0 < n) (hmax : n ≤ env.maxLen)
    (ops : List QOp) :
    (bufRun env (OBuf.init env n) ops).map (·.1) = some (qrun env.maxLen [] ops).1 := by
  obtain ⟨o', h1, _⟩ := bufRun_refines (OBuf.rep_init env n hn hmax) ops
  rw [h1]; rfl

/-- **C01, conservation.** In every history, the bytes accepted are the bytes handed
out followed by what a final `get_string` returns. -/
theorem C01_conservation (env : Env) (n : Nat) (hn : 0 < n) (hmax : n ≤ env.maxLen)
    (ops : List QOp) :
    ∃ obs o' rest, bufRun env (OBuf.init env n) ops = some (obs, o')
      ∧ bufStep env o' .getString = some (.data rest, { o' with obeg := 0, oend := 0 })
      ∧ accepted ops obs = handedOut ops obs ++ rest := by
  obtain ⟨o', h1, h2⟩ := bufRun_refines (OBuf.rep_init env n hn hmax) ops
  refine ⟨_, o', _, h1, by simp [bufStep, OBuf.getString_ok h2]; rfl, ?_⟩
  have key : ∀ (ops : List QOp) (q : Bytes),
      q ++ accepted ops (qrun env.maxLen q ops).1
        = handedOut ops (qrun env.maxLen q ops).1 ++ (qrun env.maxLen q ops).2 := by
    intro ops
    induction ops with
    | nil => intro q; simp [accepted, handedOut, qrun]
    | cons op ops ih =>
      intro q
      cases op with
      | produce x =>
        by_cases hm : q.length + x.length ≤ env.maxLen
        · have := ih (q ++ x)
          simp [qrun, qstep, hm, accepted, handedOut] at this ⊢
          exact this
        · simp [qrun, qstep, hm, accepted, handedOut, ih q]
      | getString => simpa [qrun, qstep, accepted, handedOut] using ih []
      | getSubstring => simpa [qrun, qstep, accepted, handedOut] using ih []
      | getChar =>
        cases q with
        | nil => simpa [qrun, qstep, accepted, handedOut] using ih []
        | cons c q => simpa [qrun, qstep, accepted, handedOut] using ih q
      | getByte =>
        cases q with
        | nil => simpa [qrun, qstep, accepted, handedOut] using ih []
        | cons c q =>
          have : BitVec.ofInt 8 (c.toNat : Int) = c := by
            rw [BitVec.ofInt_natCast, BitVec.ofNat_toNat, BitVec.setWidth_eq]
          simpa [qrun, qstep, accepted, handedOut, this] using ih q
      | available => simpa [qrun, qstep, accepted, handedOut] using ih q
  simpa using key ops []

/-- The hypotheses are met by the real initial size, and the history below goes through
growth, compaction and overflow. -/
example : 0 < 256 ∧ 256 ≤ (⟨300, fun _ _ => 7⟩ : Env).maxLen := by decide

example :
    (qrun 5 [] [.produce [1, 2, 3], .getChar, .produce [4, 5, 6], .available,
      .produce [7], .getString, .getByte]).1
      = [.done, .char 1, .done, .num 5, .raised (.error .outputBufferOverflow),
         .data [2, 3, 4, 5, 6], .raised .endOfFile] := by decide

end Verif
