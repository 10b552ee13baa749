import Verif.Spec.Streaming
import Verif.Proof.Combinators
import Verif.Proof.Hash
/-
The loops of `transform_channel` and `hash_channel` as histories of calls.
-/
namespace Verif

open Spec

variable {τ η : Type}

theorem outputPending_sim (T : Transform τ) (t : τ) (ch : Chan) :
    Out.Sim (fun _ p x t' => p = (t', { ch with oc := ch.oc ++ x }))
      (outputPending T (t, ch)) (T.call .getSubstring t) := by
  rw [outputPending, Transform.call]
  refine Out.Sim.bind (M.onFst_sim _ _ _) ?_
  rintro ⟨b, o, l⟩ _ _ t' ⟨rfl, rfl⟩
  simp only [M.onSnd, M.zoom, chanOutput]
  cases hb : bytesSub b o l with
  | none => rw [M.bind_exn (M.orRaise_none _ _)]; rfl
  | some x => rw [M.bind_ok (M.orRaise_some _ _ _)]; rfl

/-- The number of bytes that a read obtains. -/
def readSize (sched : Nat → Nat) (n : Nat) (ch : Chan) : Nat :=
  min (min n ch.ic.length) (max 1 (sched ch.reads))

theorem chanInput_eq (sched : Nat → Nat) (n : Nat) (ibuf : Bytes) (ch : Chan) :
    chanInput sched n ibuf ch = .ok (readSize sched n ch,
      splice ibuf 0 (ch.ic.take (readSize sched n ch)))
      { ch with ic := ch.ic.drop (readSize sched n ch), reads := ch.reads + 1 } := rfl

theorem readSize_le (sched : Nat → Nat) (n : Nat) (ch : Chan) :
    readSize sched n ch ≤ n ∧ readSize sched n ch ≤ ch.ic.length
      ∧ (readSize sched n ch = 0 ↔ n = 0 ∨ ch.ic.length = 0) := by
  unfold readSize; omega

theorem splice_read {ibuf x : Bytes} {r : Nat} (hi : ibuf.length = 256) (hr : r ≤ 256)
    (hx : x.length = r) : (splice ibuf 0 x).length = 256
      ∧ InRange (splice ibuf 0 x) 0 r ∧ slice (splice ibuf 0 x) 0 r = x := by
  have hl : (splice ibuf 0 x).length = 256 := by rw [splice_length (by omega)]; exact hi
  refine ⟨hl, ⟨by omega, by omega, by omega⟩, ?_⟩
  rw [slice_zero, splice]
  simp [← hx]

/-- One step of the loops: what is read is put, and the output is written. -/
theorem step_sim (T : Transform τ) (t : τ) (ch : Chan) (ibuf : Bytes) (r : Nat) :
    Out.Sim (fun _ p x t' => p = (t', { ch with oc := ch.oc ++ x }))
      ((do M.onFst (T.putSubstring ibuf 0 r); outputPending T : M (τ × Chan) Unit) (t, ch))
      (T.calls [.putSubstring ibuf 0 r, .getSubstring] t) := by
  have h : T.calls [.putSubstring ibuf 0 r, .getSubstring]
      = (do T.putSubstring ibuf 0 r; T.call .getSubstring : M τ Bytes) := by
    funext t
    simp only [Transform.calls, M.bind_def]
    simp only [Transform.call, M.bind_def]
    cases T.putSubstring ibuf 0 r t with
    | ok a t1 =>
      simp only [M.pure_def]
      cases T.getSubstring t1 with
      | ok a t2 =>
        simp only
        cases bytesSub a.1 a.2.1 a.2.2 <;> simp
      | _ => rfl
    | _ => rfl
  rw [h]
  refine Out.Sim.bind (M.onFst_sim _ _ _) ?_
  rintro _ _ _ t' ⟨_, rfl⟩
  exact outputPending_sim T t' ch

/-- A block that is put, then the output is retrieved. -/
theorem paced_step {b : Bytes} {r L : Nat} {ops : List TOp} (hb : InRange b 0 r) (hr : r ≤ L)
    (h : Paced L 0 ops) : Paced L 0 (.putSubstring b 0 r :: .getSubstring :: ops) := by
  have hl : (slice b 0 r).length = r := slice_length_of_le (by obtain ⟨_, _, h3⟩ := hb; omega)
  refine ⟨?_, ?_, h⟩ <;>
    simp only [TOp.input, takesAll, Int.toNat_natCast, Int.toNat_zero, hl, Bool.false_eq_true,
      if_false, List.length_nil] <;> omega

theorem transfToEof_sim (T : Transform τ) (sched : Nat → Nat) (fuel : Nat) (ibuf : Bytes)
    (ic : Bytes) (n : Nat) (hi : ibuf.length = 256) (hf : ic.length < fuel) :
    ∃ ops : List TOp, (∀ op ∈ ops, op.Proper) ∧ Paced 256 0 ops ∧ inputOf ops = ic ∧ ∃ n', ∀ t oc,
      Out.Sim (fun b p x t' => b.length = 256 ∧ p = (t', ⟨[], n', oc ++ x⟩))
        (transfToEof T sched fuel ibuf (t, ⟨ic, n, oc⟩)) (T.calls ops t) := by
  induction fuel generalizing ibuf ic n with
  | zero => omega
  | succ fuel ih =>
    generalize hr : readSize sched 256 ⟨ic, n, []⟩ = r
    have hr' : ∀ oc, readSize sched 256 ⟨ic, n, oc⟩ = r := fun oc => hr
    have hle := readSize_le sched 256 ⟨ic, n, []⟩
    rw [hr] at hle
    simp only at hle
    obtain ⟨e1, e2, e3⟩ := splice_read hi hle.1 (x := ic.take r) (by simp; omega)
    by_cases h0 : r = 0
    · refine ⟨[], by simp, trivial, ?_, n + 1, fun t oc => ?_⟩
      · have : ic = [] := List.length_eq_zero_iff.1 (by omega)
        simp [inputOf, this]
      · rw [transfToEof, M.bind_ok (M.onSnd_ok (chanInput_eq _ _ _ _) t)]
        have hic : ic = [] := List.length_eq_zero_iff.1 (by omega)
        simp only [hr', h0, Nat.lt_irrefl, if_false, gt_iff_lt]
        refine ⟨?_, ?_⟩
        · rw [h0] at e1; exact e1
        · simp [hic]
    · obtain ⟨ops, i1, ip, i2, n', i3⟩ := ih (splice ibuf 0 (ic.take r)) (ic.drop r) (n + 1) e1
        (by simp; omega)
      refine ⟨.putSubstring (splice ibuf 0 (ic.take r)) 0 r :: .getSubstring :: ops, ?_,
        paced_step e2 hle.1 ip, ?_, n', fun t oc => ?_⟩
      · intro op ho
        rcases List.mem_cons.1 ho with rfl | ho
        · exact ⟨e2, trivial⟩
        · rcases List.mem_cons.1 ho with rfl | ho
          · exact ⟨trivial, trivial⟩
          · exact i1 _ ho
      · rw [inputOf_cons, inputOf_cons, i2]
        simp only [TOp.input, Int.toNat_zero, Int.toNat_natCast, List.nil_append]
        rw [e3]
        exact List.take_append_drop r ic
      · rw [transfToEof, M.bind_ok (M.onSnd_ok (chanInput_eq _ _ _ _) t)]
        simp only [hr']
        rw [if_pos (by omega : r > 0)]
        have hs := step_sim T t ⟨ic.drop r, n + 1, oc⟩ (splice ibuf 0 (ic.take r)) r
        rw [show (.putSubstring (splice ibuf 0 (ic.take r)) 0 r :: .getSubstring :: ops : List TOp)
          = [.putSubstring (splice ibuf 0 (ic.take r)) 0 r, .getSubstring] ++ ops from rfl,
          Transform.calls_append]
        rw [← M.bind_assoc]
        refine Out.Sim.bind hs ?_
        rintro _ _ x t' rfl
        have := i3 t' (oc ++ x)
        rw [M.bind_def]
        cases hT : T.calls ops t' <;> rw [hT] at this <;>
          cases hL : transfToEof T sched fuel (splice ibuf 0 (ic.take r))
            (t', ⟨ic.drop r, n + 1, oc ++ x⟩) <;> rw [hL] at this <;>
          simp only [Out.Sim, M.pure_def] at this ⊢
        · refine ⟨this.1, ?_⟩
          rw [this.2, List.append_assoc]
        · exact this

/-- `transf_bounded`: either there are enough bytes, or the loop ends with `End_of_file`. -/
theorem transfBounded_sim (T : Transform τ) (sched : Nat → Nat) (fuel : Nat) (l : Int)
    (ibuf : Bytes) (ic : Bytes) (n : Nat) (hi : ibuf.length = 256) (hf : l.toNat < fuel) :
    ∃ ops : List TOp, (∀ op ∈ ops, op.Proper) ∧ Paced 256 0 ops ∧ inputOf ops = ic.take l.toNat ∧ ∃ n', ∀ t oc,
      Out.Sim (fun b p x t' => b.length = 256 ∧ p = (t', ⟨ic.drop l.toNat, n', oc ++ x⟩))
        (transfBounded T sched fuel l ibuf (t, ⟨ic, n, oc⟩))
        ((do let x ← T.calls ops
             if l > ic.length then M.raise .endOfFile else pure x : M τ Bytes) t) := by
  induction fuel generalizing ibuf ic n l with
  | zero => omega
  | succ fuel ih =>
    by_cases hl : l > 0
    · generalize hr : readSize sched (min 256 l).toNat ⟨ic, n, []⟩ = r
      have hr' : ∀ oc, readSize sched (min 256 l).toNat ⟨ic, n, oc⟩ = r := fun oc => hr
      have hle := readSize_le sched (min 256 l).toNat ⟨ic, n, []⟩
      rw [hr] at hle
      simp only at hle
      obtain ⟨e1, e2, e3⟩ := splice_read hi (by omega : r ≤ 256) (x := ic.take r) (by simp; omega)
      by_cases h0 : r = 0
      · have hic : ic = [] := List.length_eq_zero_iff.1 (by omega)
        refine ⟨[], by simp, trivial, by simp [inputOf, hic], n + 1, fun t oc => ?_⟩
        rw [transfBounded, if_pos hl, M.bind_ok (M.onSnd_ok (chanInput_eq _ _ _ _) t)]
        simp only [hr', h0, if_true]
        rw [M.bind_ok (show T.calls [] t = .ok [] t from rfl)]
        rw [if_pos (by rw [hic]; simpa using hl)]
        rfl
      · obtain ⟨ops, i1, ip, i2, n', i3⟩ := ih (l - r) (splice ibuf 0 (ic.take r)) (ic.drop r) (n + 1)
          e1 (by omega)
        refine ⟨.putSubstring (splice ibuf 0 (ic.take r)) 0 r :: .getSubstring :: ops, ?_,
          paced_step e2 (by omega) ip, ?_, n', fun t oc => ?_⟩
        · intro op ho
          rcases List.mem_cons.1 ho with rfl | ho
          · exact ⟨e2, trivial⟩
          · rcases List.mem_cons.1 ho with rfl | ho
            · exact ⟨trivial, trivial⟩
            · exact i1 _ ho
        · rw [inputOf_cons, inputOf_cons, i2]
          simp only [TOp.input, Int.toNat_zero, Int.toNat_natCast, List.nil_append]
          rw [e3, show l.toNat = r + (l - r).toNat by omega, List.take_add]
        · rw [transfBounded, if_pos hl, M.bind_ok (M.onSnd_ok (chanInput_eq _ _ _ _) t)]
          simp only [hr']
          rw [if_neg h0]
          have hs := step_sim T t ⟨ic.drop r, n + 1, oc⟩ (splice ibuf 0 (ic.take r)) r
          have hA := Transform.calls_append T [.putSubstring (splice ibuf 0 (ic.take r)) 0 r, .getSubstring] ops
          have hA' : T.calls (.putSubstring (splice ibuf 0 (ic.take r)) 0 r :: .getSubstring :: ops)
            = _ := funext hA
          rw [hA', M.bind_assoc]
          rw [← M.bind_assoc]
          refine Out.Sim.bind hs ?_
          rintro _ _ x t' rfl
          have := i3 t' (oc ++ x)
          have hc : (l - r > ((ic.drop r).length : Int)) ↔ l > (ic.length : Int) := by
            rw [List.length_drop]; omega
          simp only [hc] at this
          have hd : (ic.drop r).drop (l - r).toNat = ic.drop l.toNat := by
            rw [List.drop_drop]; congr 1; omega
          rw [hd] at this
          simp only [M.bind_assoc]
          rw [M.bind_def] at this ⊢
          cases hT : T.calls ops t' <;> rw [hT] at this
          · by_cases hbig : l > (ic.length : Int)
            · simp only [hbig, if_true] at this ⊢
              cases hL : transfBounded T sched fuel (l - r) (splice ibuf 0 (ic.take r))
                (t', ⟨ic.drop r, n + 1, oc ++ x⟩) <;> rw [hL] at this <;>
                exact this
            · simp only [hbig, if_false] at this ⊢
              cases hL : transfBounded T sched fuel (l - r) (splice ibuf 0 (ic.take r))
                (t', ⟨ic.drop r, n + 1, oc ++ x⟩) <;> rw [hL] at this <;>
                simp only [Out.Sim, M.pure_def] at this ⊢
              exact ⟨this.1, by rw [this.2, List.append_assoc]⟩
          all_goals
            cases hL : transfBounded T sched fuel (l - r) (splice ibuf 0 (ic.take r))
                (t', ⟨ic.drop r, n + 1, oc ++ x⟩) <;> rw [hL] at this <;>
                simp only [Out.Sim] at this ⊢
          exact this
    · refine ⟨[], by simp, trivial, ?_, n, fun t oc => ?_⟩
      · rw [show l.toNat = 0 by omega]; rfl
      · rw [transfBounded, if_neg hl]
        rw [M.bind_ok (show T.calls [] t = .ok [] t from rfl)]
        rw [if_neg (by omega)]
        refine ⟨hi, ?_⟩
        rw [show l.toNat = 0 by omega]
        simp

/-- `HashObj.calls` in monadic style. -/
def HashObj.callsM (H : HashObj η) : List HOp → M η Unit
  | [] => pure ()
  | op :: ops => do H.call op; H.callsM ops

theorem HashObj.callsM_cons (H : HashObj η) (op : HOp) (ops : List HOp) :
    H.callsM (op :: ops) = (do H.call op; H.callsM ops : M η Unit) := rfl

theorem HashObj.callsM_eq (H : HashObj η) (ops : List HOp) (s : η) :
    H.callsM ops s = H.calls ops s := by
  induction ops generalizing s with
  | nil => rfl
  | cons op ops ih =>
    rw [HashObj.callsM_cons, M.bind_def, HashObj.calls]
    cases H.call op s <;> simp [ih]

theorem HashObj.digest_eq (H : HashObj η) (ops : List HOp) (s : η) :
    H.digest ops s = (do H.callsM ops; H.result : M η Bytes) s := by
  rw [HashObj.digest, M.bind_def, HashObj.callsM_eq]
  cases H.calls ops s <;> rfl

theorem hashToEof_sim (H : HashObj η) (sched : Nat → Nat) (fuel : Nat) (ibuf : Bytes)
    (ic : Bytes) (n : Nat) (hi : ibuf.length = 256) (hf : ic.length < fuel) :
    ∃ ops : List HOp, (∀ op ∈ ops, op.Legal) ∧ hinputOf ops = ic ∧ ∃ n', ∀ s oc,
      Out.Sim (fun b p _ s' => b.length = 256 ∧ p = (s', ⟨[], n', oc⟩))
        (hashToEof H sched fuel ibuf (s, ⟨ic, n, oc⟩)) (H.callsM ops s) := by
  induction fuel generalizing ibuf ic n with
  | zero => omega
  | succ fuel ih =>
    generalize hr : readSize sched 256 ⟨ic, n, []⟩ = r
    have hr' : ∀ oc, readSize sched 256 ⟨ic, n, oc⟩ = r := fun oc => hr
    have hle := readSize_le sched 256 ⟨ic, n, []⟩
    rw [hr] at hle
    simp only at hle
    obtain ⟨e1, e2, e3⟩ := splice_read hi hle.1 (x := ic.take r) (by simp; omega)
    by_cases h0 : r = 0
    · refine ⟨[], by simp, ?_, n + 1, fun t oc => ?_⟩
      · have : ic = [] := List.length_eq_zero_iff.1 (by omega)
        simp [hinputOf, this]
      · rw [hashToEof, M.bind_ok (M.onSnd_ok (chanInput_eq _ _ _ _) t)]
        have hic : ic = [] := List.length_eq_zero_iff.1 (by omega)
        simp only [hr', h0, Nat.lt_irrefl, if_false, gt_iff_lt]
        refine ⟨?_, ?_⟩
        · rw [h0] at e1; exact e1
        · simp [hic]
    · obtain ⟨ops, i1, i2, n', i3⟩ := ih (splice ibuf 0 (ic.take r)) (ic.drop r) (n + 1) e1
        (by simp; omega)
      refine ⟨.addSubstring (splice ibuf 0 (ic.take r)) 0 r :: ops, ?_, ?_, n', fun t oc => ?_⟩
      · intro op ho
        rcases List.mem_cons.1 ho with rfl | ho
        · exact ⟨by simp only [maxString]; omega, e2⟩
        · exact i1 _ ho
      · rw [hinputOf_cons, i2]
        simp only [HOp.input, Int.toNat_zero, Int.toNat_natCast]
        rw [e3]
        exact List.take_append_drop r ic
      · rw [hashToEof, M.bind_ok (M.onSnd_ok (chanInput_eq _ _ _ _) t)]
        simp only [hr']
        rw [if_pos (by omega : r > 0), HashObj.callsM_cons]
        refine Out.Sim.bind (M.onFst_sim _ _ _) ?_
        rintro _ _ _ t' ⟨_, rfl⟩
        exact i3 t' oc

theorem hashBounded_sim (H : HashObj η) (sched : Nat → Nat) (fuel : Nat) (l : Int)
    (ibuf : Bytes) (ic : Bytes) (n : Nat) (hi : ibuf.length = 256) (hf : l.toNat < fuel) :
    ∃ ops : List HOp, (∀ op ∈ ops, op.Legal) ∧ hinputOf ops = ic.take l.toNat ∧ ∃ n', ∀ s oc,
      Out.Sim (fun b p _ s' => b.length = 256 ∧ p = (s', ⟨ic.drop l.toNat, n', oc⟩))
        (hashBounded H sched fuel l ibuf (s, ⟨ic, n, oc⟩))
        ((do H.callsM ops
             if l > ic.length then M.raise .endOfFile else pure () : M η Unit) s) := by
  induction fuel generalizing ibuf ic n l with
  | zero => omega
  | succ fuel ih =>
    by_cases hl : l > 0
    · generalize hr : readSize sched (min 256 l).toNat ⟨ic, n, []⟩ = r
      have hr' : ∀ oc, readSize sched (min 256 l).toNat ⟨ic, n, oc⟩ = r := fun oc => hr
      have hle := readSize_le sched (min 256 l).toNat ⟨ic, n, []⟩
      rw [hr] at hle
      simp only at hle
      obtain ⟨e1, e2, e3⟩ := splice_read hi (by omega : r ≤ 256) (x := ic.take r) (by simp; omega)
      by_cases h0 : r = 0
      · have hic : ic = [] := List.length_eq_zero_iff.1 (by omega)
        refine ⟨[], by simp, by simp [hinputOf, hic], n + 1, fun t oc => ?_⟩
        rw [hashBounded, if_pos hl, M.bind_ok (M.onSnd_ok (chanInput_eq _ _ _ _) t)]
        simp only [hr', h0, if_true]
        rw [M.bind_ok (show H.callsM [] t = .ok () t from rfl)]
        rw [if_pos (by rw [hic]; simpa using hl)]
        rfl
      · obtain ⟨ops, i1, i2, n', i3⟩ := ih (l - r) (splice ibuf 0 (ic.take r)) (ic.drop r) (n + 1)
          e1 (by omega)
        refine ⟨.addSubstring (splice ibuf 0 (ic.take r)) 0 r :: ops, ?_, ?_, n', fun t oc => ?_⟩
        · intro op ho
          rcases List.mem_cons.1 ho with rfl | ho
          · exact ⟨by simp only [maxString]; omega, e2⟩
          · exact i1 _ ho
        · rw [hinputOf_cons, i2]
          simp only [HOp.input, Int.toNat_zero, Int.toNat_natCast]
          rw [e3, show l.toNat = r + (l - r).toNat by omega, List.take_add]
        · rw [hashBounded, if_pos hl, M.bind_ok (M.onSnd_ok (chanInput_eq _ _ _ _) t)]
          simp only [hr']
          rw [if_neg h0]
          rw [HashObj.callsM_cons, M.bind_assoc]
          refine Out.Sim.bind (M.onFst_sim _ _ _) ?_
          rintro _ _ _ t' ⟨_, rfl⟩
          have := i3 t' oc
          have hc : (l - r > ((ic.drop r).length : Int)) ↔ l > (ic.length : Int) := by
            rw [List.length_drop]; omega
          simp only [hc] at this
          have hd : (ic.drop r).drop (l - r).toNat = ic.drop l.toNat := by
            rw [List.drop_drop]; congr 1; omega
          rw [hd] at this
          exact this
    · refine ⟨[], by simp, ?_, n, fun t oc => ?_⟩
      · rw [show l.toNat = 0 by omega]; rfl
      · rw [hashBounded, if_neg hl]
        rw [M.bind_ok (show H.callsM [] t = .ok () t from rfl)]
        rw [if_neg (by omega)]
        refine ⟨hi, ?_⟩
        rw [show l.toNat = 0 by omega]
        simp

end Verif
