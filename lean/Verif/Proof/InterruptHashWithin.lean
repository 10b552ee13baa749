import Verif.Proof.InterruptHash
/-
Histories of interrupted additions, for objects that compute a function of some histories only.
-/
namespace Verif

open Spec

/-- The state after interrupted calls is that after some of them. -/
theorem attempts_calls_within {h : HashObj τ} {hI : HashObj (Sched × τ)}
    (hc : ∀ op, hI.call op = interruptible (h.call op)) {p p' : Sched × τ} {calls : List (HOp × Bool)}
    (ha : Attempts hI p calls p')
    (hno : ∀ ops : List HOp, (∀ op ∈ ops, op.Legal) → ops.Sublist (calls.map (·.1)) →
      ∃ t, h.calls ops p.2 = .ok () t) :
    ∃ ops, (∀ op ∈ ops, op.Legal) ∧ ops.Sublist (calls.map (·.1)) ∧ WholeCalls calls (hinputOf ops) ∧
      h.calls ops p.2 = .ok () p'.2 := by
  induction ha with
  | none => exact ⟨[], by simp, .slnil, .none, rfl⟩
  | @returned p1 p2 p3 op calls hl hr _ ih =>
    obtain ⟨s, t⟩ := p1
    rw [hc] at hr
    have h1 := interruptible_ok hr
    simp only at hno ih ⊢
    obtain ⟨ops, i1, i0, i2, i3⟩ := ih (by
      intro ops ho hsub
      obtain ⟨t', h2⟩ := hno (op :: ops) (by
        intro x hx
        rcases List.mem_cons.1 hx with rfl | hx
        · exact hl
        · exact ho x hx) (.cons_cons _ hsub)
      rw [HashObj.calls, h1] at h2
      exact ⟨t', h2⟩)
    refine ⟨op :: ops, ?_, .cons_cons _ i0, by rw [hinputOf_cons]; exact .added i2, ?_⟩
    · intro x hx
      rcases List.mem_cons.1 hx with rfl | hx
      · exact hl
      · exact i1 x hx
    · rw [HashObj.calls, h1]
      exact i3
  | @raised p1 p2 p3 op calls e hl hr _ ih =>
    obtain ⟨s, t⟩ := p1
    rw [hc] at hr
    simp only at hno ih ⊢
    rcases interruptible_exn hr with h1 | ⟨_, h1⟩ | h1
    · rw [h1] at ih
      obtain ⟨ops, i1, i0, i2, i3⟩ := ih (fun ops ho hsub => hno ops ho (.cons _ hsub))
      exact ⟨ops, i1, .cons _ i0, .left i2, i3⟩
    · obtain ⟨ops, i1, i0, i2, i3⟩ := ih (by
        intro ops ho hsub
        obtain ⟨t', h2⟩ := hno (op :: ops) (by
          intro x hx
          rcases List.mem_cons.1 hx with rfl | hx
          · exact hl
          · exact ho x hx) (.cons_cons _ hsub)
        rw [HashObj.calls, h1] at h2
        exact ⟨t', h2⟩)
      refine ⟨op :: ops, ?_, .cons_cons _ i0, by rw [hinputOf_cons]; exact .added i2, ?_⟩
      · intro x hx
        rcases List.mem_cons.1 hx with rfl | hx
        · exact hl
        · exact i1 x hx
      · rw [HashObj.calls, h1]
        exact i3
    · obtain ⟨t', h2⟩ := hno [op] (by simpa using hl) (.cons_cons _ (List.nil_sublist _))
      rw [HashObj.calls, h1] at h2
      cases h2

/-- The result, if there is one, is that of whole calls. -/
theorem attempts_result_within {h : HashObj τ} {hI : HashObj (Sched × τ)} {f : Bytes → Bytes} {s : Sched} {t : τ}
    (hc : ∀ op, hI.call op = interruptible (h.call op))
    (hr : ∀ {s t r p}, hI.result (s, t) = .ok r p → h.result t = .ok r p.2)
    {calls : List (HOp × Bool)} {p p' : Sched × τ} {r : Bytes}
    (hf : ∀ ops : List HOp, (∀ op ∈ ops, op.Legal) → ops.Sublist (calls.map (·.1)) →
      (h.digest ops t).observe = some (.ok (f (hinputOf ops))))
    (ha : Attempts hI (s, t) calls p)
    (hres : hI.result p = .ok r p') : ∃ data, WholeCalls calls data ∧ r = f data := by
  obtain ⟨ops, h1, h0, h2, h3⟩ := attempts_calls_within hc ha (by
    intro ops ho hsub
    have := hf ops ho hsub
    unfold HashObj.digest at this
    cases hx : h.calls ops t with
    | ok _ t' => exact ⟨t', rfl⟩
    | exn e t' => rw [hx] at this; cases this
    | ub => rw [hx] at this; cases this
    | loop => rw [hx] at this; cases this)
  have := hf ops h1 h0
  unfold HashObj.digest at this
  simp only at h3
  rw [h3] at this
  simp only at this
  rw [hr hres] at this
  refine ⟨_, h2, ?_⟩
  simp only [Out.observe, Option.some.injEq, Except.ok.injEq] at this
  exact this

theorem totalBelow_sublist {limit : Nat} {calls : List (HOp × Bool)} (h : TotalBelow limit calls)
    {ops : List HOp} (hs : ops.Sublist (calls.map (·.1))) : (hinputOf ops).length < limit := by
  have h1 := (hs.map HOp.input).flatten.length_le
  unfold TotalBelow at h
  rw [List.map_map] at h1
  exact Nat.lt_of_le_of_lt h1 h

theorem eachBelow_sublist {limit : Nat} {calls : List (HOp × Bool)} (h : EachBelow limit calls)
    {ops : List HOp} (hs : ops.Sublist (calls.map (·.1))) : ∀ op ∈ ops, op.input.length < limit := by
  intro op ho
  obtain ⟨c, hc, rfl⟩ := List.mem_map.1 (hs.subset ho)
  exact h c hc

end Verif
