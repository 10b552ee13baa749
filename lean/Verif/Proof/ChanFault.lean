import Verif.Model.ChanFault
import Verif.Proof.Channel
/-
`transform_channel` and `hash_channel` over channels that may fail: what the calls made on the transform or the
hash have been when the loop ends, whichever way.
-/
namespace Verif

open Spec

variable {τ η : Type}

namespace ChanFault

/-- The loop has made the calls `ops`, which have taken `u` from the channel. -/
def Calls (T : Transform τ) (t0 : τ) (ops : List TOp) (x : Bytes) (t : τ) : Prop :=
  (∀ op ∈ ops, op.Proper) ∧ T.calls ops t0 = .ok x t

theorem Calls.snoc {T : Transform τ} {t0 t t' : τ} {ops : List TOp} {x y : Bytes} (h : Calls T t0 ops x t)
    {b : Bytes} {r : Nat} (hb : InRange b 0 r)
    (h' : T.calls [.putSubstring b 0 r, .getSubstring] t = .ok y t') :
    Calls T t0 (ops ++ [.putSubstring b 0 r, .getSubstring]) (x ++ y) t' := by
  refine ⟨?_, ?_⟩
  · intro op ho
    rcases List.mem_append.1 ho with ho | ho
    · exact h.1 _ ho
    · simp only [List.mem_cons, List.not_mem_nil, or_false] at ho
      rcases ho with rfl | rfl
      · exact ⟨hb, trivial⟩
      · exact ⟨trivial, trivial⟩
  · rw [Transform.calls_append, M.bind_ok h.2, M.bind_ok h']; rfl

/-- A run of calls has undefined behaviour or does not terminate. -/
def Bad : Out σ α → Prop
  | .ub => True
  | .loop => True
  | _ => False

/-- Why an exception is raised: an operation on a channel has failed, or the channel is too short (`S`), or the
transform refuses the data. -/
def Cause (F : Faults) (S : Prop) (T : Transform τ) (t0 : τ) (D : Bytes) (e : Exn) : Prop :=
  (∃ i, F.fails i = some e) ∨ (e = .endOfFile ∧ S)
    ∨ ∃ ops t', (∀ op ∈ ops, op.Proper) ∧ inputOf ops <+: D ∧ T.calls ops t0 = .exn e t'

/-- How a piece of `transform_channel` may end, `D` being the data to read and `ic` the channel. -/
def Ends (F : Faults) (S : Prop) (T : Transform τ) (t0 : τ) (oc ic D : Bytes) (done : FChan → Prop) : Out (τ × FChan) Unit → Prop
  | .ok _ p => ∃ ops x, Calls T t0 ops x p.1 ∧ p.2.oc = oc ++ x ∧ inputOf ops ++ p.2.ic = ic
      ∧ p.2.ibuf.length = 256 ∧ done p.2
  | .exn e p => (∃ ops x t w u, Calls T t0 ops x t ∧ p.2.oc = oc ++ w ∧ w <+: x
      ∧ inputOf ops ++ u ++ p.2.ic = ic ∧ u.length ≤ 256 ∧ inputOf ops ++ u <+: D)
      ∧ Cause F S T t0 D e
  | o => Bad o ∧ ∃ ops, (∀ op ∈ ops, op.Proper) ∧ Bad (T.calls ops t0) ∧ inputOf ops <+: D

theorem Ends.bind {F : Faults} {S : Prop} {T : Transform τ} {t0 : τ} {oc ic D : Bytes} {P Q : FChan → Prop}
    {m : M (τ × FChan) Unit} {k : Unit → M (τ × FChan) Unit} {s : τ × FChan}
    (h : Ends F S T t0 oc ic D P (m s))
    (hk : ∀ t ch ops x, Calls T t0 ops x t → ch.oc = oc ++ x → inputOf ops ++ ch.ic = ic →
      ch.ibuf.length = 256 → P ch → Ends F S T t0 oc ic D Q (k () (t, ch))) :
    Ends F S T t0 oc ic D Q ((m >>= k) s) := by
  rw [M.bind_def]
  cases hm : m s with
  | ok a p =>
    rw [hm] at h
    obtain ⟨ops, x, h1, h2, h3, h4, h5⟩ := h
    exact hk p.1 p.2 ops x h1 h2 h3 h4 h5
  | exn e p => rw [hm] at h; exact h
  | ub => rw [hm] at h; exact h
  | loop => rw [hm] at h; exact h

/-- One step: what has been read is put, and the output is written. -/
theorem step_ends (F : Faults) {S : Prop} (T : Transform τ) {t0 t : τ} {oc ic D : Bytes} {ch : FChan} {ops : List TOp}
    {x u : Bytes} {r : Nat} (hc : Calls T t0 ops x t) (ho : ch.oc = oc ++ x)
    (hi : inputOf ops ++ u ++ ch.ic = ic) (hu : u.length = r) (hr : r ≤ 256)
    (hb : ch.ibuf.length = 256) (hs : slice ch.ibuf 0 r = u) (hD : inputOf ops ++ u <+: D) :
    Ends F S T t0 oc ic D (fun ch' => ch'.ic = ch.ic)
      ((do fPut T r; fOutputPending F T : M (τ × FChan) Unit) (t, ch)) := by
  have hin : InRange ch.ibuf 0 r := ⟨by omega, by omega, by omega⟩
  have hops : inputOf (ops ++ [.putSubstring ch.ibuf 0 r, .getSubstring]) = inputOf ops ++ u := by
    simp only [inputOf, List.map_append, List.flatten_append]
    congr 1
    simp [TOp.input, hs]
  have hprop : ∀ op ∈ ops ++ [.putSubstring ch.ibuf 0 r, .getSubstring], op.Proper := by
    intro op ho
    rcases List.mem_append.1 ho with ho | ho
    · exact hc.1 _ ho
    · simp only [List.mem_cons, List.not_mem_nil, or_false] at ho
      rcases ho with rfl | rfl
      · exact ⟨hin, trivial⟩
      · exact ⟨trivial, trivial⟩
  have hstop : ∀ {e : Exn} {t' t'' : τ},
      T.calls [.putSubstring ch.ibuf 0 r, .getSubstring] t = .exn e t'' →
      Ends F S T t0 oc ic D (fun ch' => ch'.ic = ch.ic) (.exn e (t', ch)) :=
    fun {e t' t''} he => ⟨⟨ops, x, t, x, u, hc, ho, List.prefix_refl _, hi, by omega, hD⟩,
      .inr (.inr ⟨_, t'', hprop, hops ▸ hD, by rw [Transform.calls_append, M.bind_ok hc.2, M.bind_exn he]⟩)⟩
  have hbad : ∀ {o : Out (τ × FChan) Unit}, Bad o →
      Bad (T.calls [.putSubstring ch.ibuf 0 r, .getSubstring] t) →
      Ends F S T t0 oc ic D (fun ch' => ch'.ic = ch.ic) o := by
    intro o ho hb'
    have : Bad o ∧ ∃ ops, (∀ op ∈ ops, op.Proper) ∧ Bad (T.calls ops t0) ∧ inputOf ops <+: D := by
      refine ⟨ho, _, hprop, ?_, hops ▸ hD⟩
      rw [Transform.calls_append, M.bind_ok hc.2, M.bind_def]
      cases h : T.calls [.putSubstring ch.ibuf 0 r, .getSubstring] t <;> rw [h] at hb' <;> exact hb'
    cases o with
    | ub => exact this
    | loop => exact this
    | ok => exact ho.elim
    | exn => exact ho.elim
  have hcalls : T.calls [.putSubstring ch.ibuf 0 r, .getSubstring] t =
      (do T.putSubstring ch.ibuf 0 r; T.call .getSubstring : M τ Bytes) t := by
    simp only [Transform.calls, M.bind_def]
    simp only [Transform.call, M.bind_def]
    cases T.putSubstring ch.ibuf 0 r t with
    | ok a t1 =>
      simp only [M.pure_def]
      cases T.getSubstring t1 with
      | ok a t2 =>
        simp only
        cases bytesSub a.1 a.2.1 a.2.2 <;> simp
      | _ => rfl
    | _ => rfl
  simp only [fPut, fOutputPending, M.bind_def, M.get_def, M.onFst, M.zoom]
  rw [M.bind_def] at hcalls
  simp only [Transform.call, M.bind_def] at hcalls
  cases hp : T.putSubstring ch.ibuf 0 r t with
  | exn e t1 => rw [hp] at hcalls; exact hstop hcalls
  | ub => rw [hp] at hcalls; exact hbad trivial (by rw [hcalls]; trivial)
  | loop => rw [hp] at hcalls; exact hbad trivial (by rw [hcalls]; trivial)
  | ok a t1 =>
    rw [hp] at hcalls
    simp only at hcalls ⊢
    cases hg : T.getSubstring t1 with
    | exn e t2 => rw [hg] at hcalls; exact hstop hcalls
    | ub => rw [hg] at hcalls; exact hbad trivial (by rw [hcalls]; trivial)
    | loop => rw [hg] at hcalls; exact hbad trivial (by rw [hcalls]; trivial)
    | ok g t2 =>
      rw [hg] at hcalls
      obtain ⟨ob, op, ol⟩ := g
      simp only at hcalls ⊢
      simp only [M.onSnd, M.zoom, fOutput]
      cases hy : bytesSub ob op ol with
      | none => rw [hy] at hcalls; exact hstop hcalls
      | some y =>
        rw [hy] at hcalls
        have hc' := hc.snoc hin hcalls
        cases hf : F.fails ch.count with
        | some e =>
          refine ⟨⟨_, _, _, x ++ y.take (F.part ch.count), [], hc', ?_, ?_, ?_, by simp, ?_⟩, .inl ⟨_, hf⟩⟩
          · simp [ho]
          · exact (List.prefix_append_right_inj x).2 (List.take_prefix _ _)
          · rw [hops]; simpa using hi
          · rw [hops]; simpa using hD
        | none =>
          refine ⟨_, _, hc', ?_, ?_, hb, rfl⟩
          · simp [ho]
          · rw [hops]; exact hi

/-- `input` does not fail: what it obtains. -/
theorem fInput_ok {F : Faults} {n : Nat} {ch : FChan} (hf : F.fails ch.count = none) (hn : n ≤ 256)
    (hb : ch.ibuf.length = 256) :
    ∃ r ch', fInput F n ch = .ok r ch' ∧ r ≤ n ∧ r ≤ ch.ic.length ∧ (r = 0 ↔ n = 0 ∨ ch.ic.length = 0)
      ∧ ch'.ic = ch.ic.drop r ∧ ch'.oc = ch.oc ∧ ch'.ibuf.length = 256
      ∧ slice ch'.ibuf 0 r = ch.ic.take r := by
  simp only [fInput, hf]
  have hr : ∀ r, r ≤ ch.ic.length → r ≤ 256 → (splice ch.ibuf 0 (ch.ic.take r)).length = 256
      ∧ slice (splice ch.ibuf 0 (ch.ic.take r)) 0 r = ch.ic.take r := by
    intro r h1 h2
    have h := splice_read hb h2 (x := ch.ic.take r) (by simp; omega)
    exact ⟨h.1, h.2.2⟩
  refine ⟨_, _, rfl, by omega, by omega, by omega, rfl, rfl, ?_, ?_⟩
  · exact (hr _ (by omega) (by omega)).1
  · exact (hr _ (by omega) (by omega)).2

theorem fTransfToEof_ends (F : Faults) {S : Prop} (T : Transform τ) {t0 : τ} {oc ic : Bytes} (fuel : Nat) (t : τ)
    (ch : FChan) (ops : List TOp) (x : Bytes) (hc : Calls T t0 ops x t) (ho : ch.oc = oc ++ x)
    (hi : inputOf ops ++ ch.ic = ic) (hb : ch.ibuf.length = 256) (hf : ch.ic.length < fuel) :
    Ends F S T t0 oc ic ic (fun ch' => ch'.ic = []) (fTransfToEof F T fuel (t, ch)) := by
  induction fuel generalizing t ch ops x with
  | zero => omega
  | succ fuel ih =>
    rw [fTransfToEof]
    cases hfl : F.fails ch.count with
    | some e =>
      have hin : fInput F 256 ch = .exn e { ch with count := ch.count + 1 } := by simp only [fInput, hfl]
      have : M.onSnd (σ := τ) (fInput F 256) (t, ch) = .exn e (t, { ch with count := ch.count + 1 }) := by
        simp only [M.onSnd, M.zoom, hin]
      rw [M.bind_exn this]
      exact ⟨⟨ops, x, t, x, [], hc, ho, List.prefix_refl _, by simpa using hi, by simp,
        by rw [List.append_nil, ← hi]; exact List.prefix_append _ _⟩, .inl ⟨_, hfl⟩⟩
    | none =>
      obtain ⟨r, ch', e, h1, h2, h3, h4, h5, h6, h7⟩ := fInput_ok (F := F) (n := 256) hfl (by omega) hb
      rw [M.bind_ok (M.onSnd_ok e t)]
      have hsplit : inputOf ops ++ ch.ic.take r ++ ch'.ic = ic := by
        rw [h4, List.append_assoc, List.take_append_drop]; exact hi
      by_cases h0 : r = 0
      · rw [if_neg (by omega)]
        have hic : ch.ic = [] := List.length_eq_zero_iff.1 (by omega)
        have hic' : ch'.ic = [] := by rw [h4, hic]; simp
        exact ⟨ops, x, hc, by rw [h5]; exact ho, by rw [hic', ← hi, hic], h6, hic'⟩
      · rw [if_pos (by omega)]
        have hst := step_ends (S := S) (D := ic) F T hc (by rw [h5]; exact ho) hsplit (by simp; omega) (by omega) h6 h7
          (by rw [← hsplit]; exact List.prefix_append _ _)
        rw [← M.bind_assoc]
        refine hst.bind ?_
        intro t2 ch2 ops2 x2 k1 k2 k3 k4 k5
        exact ih t2 ch2 ops2 x2 k1 k2 k3 k4 (by rw [k5, h4, List.length_drop]; omega)

theorem fTransfBounded_ends (F : Faults) {S : Prop} (T : Transform τ) {t0 : τ} {oc ic D : Bytes} (fuel : Nat) (l : Int)
    (t : τ) (ch : FChan) (ops : List TOp) (x : Bytes) (hc : Calls T t0 ops x t) (ho : ch.oc = oc ++ x)
    (hi : inputOf ops ++ ch.ic = ic) (hb : ch.ibuf.length = 256) (hf : l.toNat < fuel)
    (hD : inputOf ops ++ ch.ic.take l.toNat = D) (hS : l > ch.ic.length → S) :
    Ends F S T t0 oc ic D (fun ch' => D ++ ch'.ic = ic ∧ l ≤ ch.ic.length)
      (fTransfBounded F T fuel l (t, ch)) := by
  induction fuel generalizing t ch ops x l with
  | zero => omega
  | succ fuel ih =>
    rw [fTransfBounded]
    have hpre : inputOf ops <+: D := by rw [← hD]; exact List.prefix_append _ _
    by_cases hl : l > 0
    · rw [if_pos hl]
      cases hfl : F.fails ch.count with
      | some e =>
        have hin : fInput F (min 256 l).toNat ch = .exn e { ch with count := ch.count + 1 } := by
          simp only [fInput, hfl]
        have : M.onSnd (σ := τ) (fInput F (min 256 l).toNat) (t, ch)
            = .exn e (t, { ch with count := ch.count + 1 }) := by
          simp only [M.onSnd, M.zoom, hin]
        rw [M.bind_exn this]
        exact ⟨⟨ops, x, t, x, [], hc, ho, List.prefix_refl _, by simpa using hi, by simp, by simpa using hpre⟩,
          .inl ⟨_, hfl⟩⟩
      | none =>
        obtain ⟨r, ch', e, h1, h2, h3, h4, h5, h6, h7⟩ := fInput_ok (F := F) (n := (min 256 l).toNat) hfl
          (by omega) hb
        rw [M.bind_ok (M.onSnd_ok e t)]
        have hsplit : inputOf ops ++ ch.ic.take r ++ ch'.ic = ic := by
          rw [h4, List.append_assoc, List.take_append_drop]; exact hi
        have htk : ch.ic.take l.toNat = ch.ic.take r ++ (ch'.ic).take (l - r).toNat := by
          rw [h4]
          conv => lhs; rw [show l.toNat = r + (l - r).toNat by omega]
          rw [List.take_add]
        by_cases h0 : r = 0
        · rw [if_pos h0]
          have hic : ch.ic = [] := List.length_eq_zero_iff.1 (by omega)
          refine ⟨⟨ops, x, t, x, [], hc, by rw [h5]; exact ho, List.prefix_refl _, ?_, by simp,
            by simpa using hpre⟩, .inr (.inl ⟨rfl, hS (by rw [hic]; simpa using hl)⟩)⟩
          have : ch'.ic = [] := by rw [h4, hic]; simp
          rw [this, ← hi, hic]; simp
        · rw [if_neg h0]
          show Ends F S T t0 oc ic D _ ((fPut T r >>= fun _ => fOutputPending F T >>= fun _ =>
            fTransfBounded F T fuel (l - r)) (t, ch'))
          have hst := step_ends (S := S) (D := D) F T hc (by rw [h5]; exact ho) hsplit (by simp; omega) (by omega) h6 h7
            (by rw [← hD, htk, ← List.append_assoc]; exact List.prefix_append _ _)
          rw [← M.bind_assoc]
          refine hst.bind ?_
          intro t2 ch2 ops2 x2 k1 k2 k3 k4 k5
          have hio : inputOf ops2 = inputOf ops ++ ch.ic.take r := by
            have := k3.trans hsplit.symm
            rw [k5] at this
            exact List.append_cancel_right this
          have := ih (l - r) t2 ch2 ops2 x2 k1 k2 k3 k4 (by omega)
            (by rw [hio, k5, List.append_assoc, ← htk]; exact hD)
            (fun h => hS (by rw [k5, h4, List.length_drop] at h; omega))
          cases hout : fTransfBounded F T fuel (l - r) (t2, ch2) with
          | ok a p =>
            rw [hout] at this
            obtain ⟨o1, o2, o3, o4, o5, o6, o7, o8⟩ := this
            refine ⟨o1, o2, o3, o4, o5, o6, o7, ?_⟩
            rw [k5, h4, List.length_drop] at o8
            omega
          | exn e p => rw [hout] at this; exact this
          | ub => rw [hout] at this; exact this
          | loop => rw [hout] at this; exact this
    · rw [if_neg hl]
      refine ⟨ops, x, hc, ho, hi, hb, ?_, by omega⟩
      rw [← hD, show l.toNat = 0 by omega]; simpa using hi

/-! ### `hash_channel` -/

/-- How a piece of `hash_channel` may end. -/
def HEnds (F : Faults) (S : Prop) (H : HashObj η) (s0 : η) (oc ic D : Bytes) (done : FChan → Prop) : Out (η × FChan) Unit → Prop
  | .ok _ p => ∃ ops : List HOp, (∀ op ∈ ops, op.Legal) ∧ H.calls ops s0 = .ok () p.1
      ∧ hinputOf ops ++ p.2.ic = ic ∧ p.2.oc = oc ∧ p.2.ibuf.length = 256 ∧ done p.2
  | .exn e p => p.2.oc = oc ∧ ((∃ i, F.fails i = some e) ∨ (e = .endOfFile ∧ S)
      ∨ ∃ (ops : List HOp) (s' : η), (∀ op ∈ ops, op.Legal) ∧ hinputOf ops <+: D ∧ H.calls ops s0 = .exn e s')
  | _ => ∃ ops : List HOp, (∀ op ∈ ops, op.Legal) ∧ Bad (H.calls ops s0)

theorem hcalls_snoc (H : HashObj η) (ops : List HOp) (op : HOp) (s : η) :
    H.calls (ops ++ [op]) s = match H.calls ops s with
      | .ok () s' => H.call op s'
      | .exn e s' => .exn e s'
      | .ub => .ub
      | .loop => .loop := by
  induction ops generalizing s with
  | nil =>
    simp only [List.nil_append, HashObj.calls]
    cases H.call op s <;> rfl
  | cons a ops ih =>
    simp only [List.cons_append, HashObj.calls]
    cases H.call a s <;> simp only [ih]

/-- One step: what has been read is added. -/
theorem add_ends (F : Faults) {S : Prop} (H : HashObj η) {s0 s : η} {oc ic D : Bytes} {ch : FChan} {ops : List HOp} {u : Bytes} {r : Nat}
    (hl : ∀ op ∈ ops, op.Legal) (hc : H.calls ops s0 = .ok () s) (ho : ch.oc = oc)
    (hi : hinputOf ops ++ u ++ ch.ic = ic) (hr : r ≤ 256) (hb : ch.ibuf.length = 256)
    (hs : slice ch.ibuf 0 r = u) (hD : hinputOf ops ++ u <+: D) :
    HEnds F S H s0 oc ic D (fun ch' => ch'.ic = ch.ic) (fAdd H r (s, ch)) := by
  have hin : InRange ch.ibuf 0 r := ⟨by omega, by omega, by omega⟩
  have hl' : ∀ op ∈ ops ++ [.addSubstring ch.ibuf 0 r], op.Legal := by
    intro op h
    rcases List.mem_append.1 h with h | h
    · exact hl _ h
    · simp only [List.mem_singleton] at h; subst h
      exact ⟨by have : maxString = 2 ^ 57 - 9 := rfl
                omega, hin⟩
  have hops : hinputOf (ops ++ [.addSubstring ch.ibuf 0 r]) = hinputOf ops ++ u := by
    simp only [hinputOf, List.map_append, List.flatten_append]
    congr 1
    simp [HOp.input, hs]
  have hcs := hcalls_snoc H ops (.addSubstring ch.ibuf 0 r) s0
  rw [hc] at hcs
  simp only [HashObj.call] at hcs
  simp only [fAdd, M.bind_def, M.get_def, M.onFst, M.zoom]
  cases h : H.addSubstring ch.ibuf 0 r s with
  | ok a s' => exact ⟨_, hl', by rw [hcs, h], by rw [hops]; exact hi, ho, hb, rfl⟩
  | exn e s' => exact ⟨ho, .inr (.inr ⟨_, s', hl', hops ▸ hD, by rw [hcs, h]⟩)⟩
  | ub => exact ⟨_, hl', by rw [hcs, h]; trivial⟩
  | loop => exact ⟨_, hl', by rw [hcs, h]; trivial⟩

theorem HEnds.bind {F : Faults} {S : Prop} {H : HashObj η} {s0 : η} {oc ic D : Bytes} {P Q : FChan → Prop}
    {m : M (η × FChan) Unit} {k : Unit → M (η × FChan) Unit} {s : η × FChan}
    (h : HEnds F S H s0 oc ic D P (m s))
    (hk : ∀ s ch (ops : List HOp), (∀ op ∈ ops, op.Legal) → H.calls ops s0 = .ok () s →
      hinputOf ops ++ ch.ic = ic → ch.oc = oc → ch.ibuf.length = 256 → P ch →
      HEnds F S H s0 oc ic D Q (k () (s, ch))) :
    HEnds F S H s0 oc ic D Q ((m >>= k) s) := by
  rw [M.bind_def]
  cases hm : m s with
  | ok a p =>
    rw [hm] at h
    obtain ⟨ops, h1, h2, h3, h4, h5, h6⟩ := h
    exact hk p.1 p.2 ops h1 h2 h3 h4 h5 h6
  | exn e p => rw [hm] at h; exact h
  | ub => rw [hm] at h; exact h
  | loop => rw [hm] at h; exact h

theorem fHashToEof_ends (F : Faults) {S : Prop} (H : HashObj η) {s0 : η} {oc ic : Bytes} (fuel : Nat) (s : η)
    (ch : FChan) (ops : List HOp) (hl : ∀ op ∈ ops, op.Legal) (hc : H.calls ops s0 = .ok () s)
    (ho : ch.oc = oc) (hi : hinputOf ops ++ ch.ic = ic) (hb : ch.ibuf.length = 256)
    (hf : ch.ic.length < fuel) :
    HEnds F S H s0 oc ic ic (fun ch' => ch'.ic = []) (fHashToEof F H fuel (s, ch)) := by
  induction fuel generalizing s ch ops with
  | zero => omega
  | succ fuel ih =>
    rw [fHashToEof]
    cases hfl : F.fails ch.count with
    | some e =>
      have hin : fInput F 256 ch = .exn e { ch with count := ch.count + 1 } := by simp only [fInput, hfl]
      have : M.onSnd (σ := η) (fInput F 256) (s, ch) = .exn e (s, { ch with count := ch.count + 1 }) := by
        simp only [M.onSnd, M.zoom, hin]
      rw [M.bind_exn this]
      exact ⟨ho, .inl ⟨_, hfl⟩⟩
    | none =>
      obtain ⟨r, ch', e, h1, h2, h3, h4, h5, h6, h7⟩ := fInput_ok (F := F) (n := 256) hfl (by omega) hb
      rw [M.bind_ok (M.onSnd_ok e s)]
      have hsplit : hinputOf ops ++ ch.ic.take r ++ ch'.ic = ic := by
        rw [h4, List.append_assoc, List.take_append_drop]; exact hi
      by_cases h0 : r = 0
      · rw [if_neg (by omega)]
        have hic : ch.ic = [] := List.length_eq_zero_iff.1 (by omega)
        have hic' : ch'.ic = [] := by rw [h4, hic]; simp
        exact ⟨ops, hl, hc, by rw [hic', ← hi, hic], by rw [h5]; exact ho, h6, hic'⟩
      · rw [if_pos (by omega)]
        refine (add_ends (S := S) (D := ic) F H hl hc (by rw [h5]; exact ho) hsplit (by omega) h6 h7
          (by rw [← hsplit]; exact List.prefix_append _ _)).bind ?_
        intro s2 ch2 ops2 k1 k2 k3 k4 k5 k6
        exact ih s2 ch2 ops2 k1 k2 k4 k3 k5 (by rw [k6, h4, List.length_drop]; omega)

theorem fHashBounded_ends (F : Faults) {S : Prop} (H : HashObj η) {s0 : η} {oc ic D : Bytes} (fuel : Nat) (l : Int) (s : η)
    (ch : FChan) (ops : List HOp) (hl : ∀ op ∈ ops, op.Legal) (hc : H.calls ops s0 = .ok () s)
    (ho : ch.oc = oc) (hi : hinputOf ops ++ ch.ic = ic) (hb : ch.ibuf.length = 256)
    (hf : l.toNat < fuel) (hD : hinputOf ops ++ ch.ic.take l.toNat = D) (hS : l > ch.ic.length → S) :
    HEnds F S H s0 oc ic D (fun ch' => ch'.ic = ch.ic.drop l.toNat ∧ l ≤ ch.ic.length)
      (fHashBounded F H fuel l (s, ch)) := by
  induction fuel generalizing s ch ops l with
  | zero => omega
  | succ fuel ih =>
    rw [fHashBounded]
    by_cases hpos : l > 0
    · rw [if_pos hpos]
      cases hfl : F.fails ch.count with
      | some e =>
        have hin : fInput F (min 256 l).toNat ch = .exn e { ch with count := ch.count + 1 } := by
          simp only [fInput, hfl]
        have : M.onSnd (σ := η) (fInput F (min 256 l).toNat) (s, ch)
            = .exn e (s, { ch with count := ch.count + 1 }) := by
          simp only [M.onSnd, M.zoom, hin]
        rw [M.bind_exn this]
        exact ⟨ho, .inl ⟨_, hfl⟩⟩
      | none =>
        obtain ⟨r, ch', e, h1, h2, h3, h4, h5, h6, h7⟩ := fInput_ok (F := F) (n := (min 256 l).toNat) hfl
          (by omega) hb
        rw [M.bind_ok (M.onSnd_ok e s)]
        have hsplit : hinputOf ops ++ ch.ic.take r ++ ch'.ic = ic := by
          rw [h4, List.append_assoc, List.take_append_drop]; exact hi
        by_cases h0 : r = 0
        · rw [if_pos h0]
          have hic : ch.ic = [] := List.length_eq_zero_iff.1 (by omega)
          exact ⟨by rw [← ho]; exact h5, .inr (.inl ⟨rfl, hS (by rw [hic]; simpa using hpos)⟩)⟩
        · rw [if_neg h0]
          show HEnds F S H s0 oc ic D _ ((fAdd H r >>= fun _ => fHashBounded F H fuel (l - r)) (s, ch'))
          have htk : ch.ic.take l.toNat = ch.ic.take r ++ (ch'.ic).take (l - r).toNat := by
            rw [h4]
            conv => lhs; rw [show l.toNat = r + (l - r).toNat by omega]
            rw [List.take_add]
          refine (add_ends (S := S) (D := D) F H hl hc (by rw [h5]; exact ho) hsplit (by omega) h6 h7
            (by rw [← hD, htk, ← List.append_assoc]; exact List.prefix_append _ _)).bind ?_
          intro s2 ch2 ops2 k1 k2 k3 k4 k5 k6
          have hio : hinputOf ops2 = hinputOf ops ++ ch.ic.take r := by
            have := k3.trans hsplit.symm
            rw [k6] at this
            exact List.append_cancel_right this
          have := ih (l - r) s2 ch2 ops2 k1 k2 k4 k3 k5 (by omega)
            (by rw [hio, k6, List.append_assoc, ← htk]; exact hD)
            (fun h => hS (by rw [k6, h4, List.length_drop] at h; omega))
          cases hout : fHashBounded F H fuel (l - r) (s2, ch2) with
          | ok a p =>
            rw [hout] at this
            obtain ⟨o1, o2, o3, o4, o5, o6, o7, o8⟩ := this
            refine ⟨o1, o2, o3, o4, o5, o6, ?_, ?_⟩
            · rw [o7, k6, h4, List.drop_drop]; congr 1; omega
            · rw [k6, h4, List.length_drop] at o8; omega
          | exn e p => rw [hout] at this; exact this
          | ub => rw [hout] at this; exact this
          | loop => rw [hout] at this; exact this
    · rw [if_neg hpos]
      exact ⟨ops, hl, hc, hi, ho, hb, by rw [show l.toNat = 0 by omega]; rfl, by omega⟩

end ChanFault

end Verif
