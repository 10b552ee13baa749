import Verif.Spec.AuthHistory
import Verif.Proof.Transform
import Verif.Proof.Xor
/-
Refinement of authenticated transforms to data-level specifications.
-/
namespace Verif

/-- `A` refines `S` and its `finish_and_get_tag` computes `fin` (last output and tag). -/
structure AuthRefines (A : AuthTransform τ) (S : XSpec σ) (fin : σ → SRes Bytes) (maxLen : Nat)
    (R : τ → σ → Bytes → Prop) : Prop where
  base : Refines A.base S maxLen R
  tag : ∀ {t s q}, R t s q →
    match fin s with
    | .ok out tag => q.length + out.length ≤ maxLen →
        ∃ t' t'', A.finishAndGetTag t = .ok tag t' ∧ A.base.getString t' = .ok (q ++ out) t''
    | .err out e => q.length + out.length ≤ maxLen → ∃ t', A.finishAndGetTag t = .exn e t'
  wipe : ∀ t, ∃ t', A.base.wipe t = .ok () t'

variable {A : AuthTransform τ} {S : XSpec σ} {fin : σ → SRes Bytes} {maxLen : Nat}
  {R : τ → σ → Bytes → Prop}

theorem AuthRefines.total (h : AuthRefines A S fin maxLen R) (hS : S.Lawful) (ops : List TOp) {t s}
    (hR : R t s []) (hops : ∀ op ∈ ops, op.Legal) :
    match (S.put s (inputOf ops)).andThen fin with
    | .ok out tag => out.length ≤ maxLen → ∃ t', A.total ops t = .ok (out, tag) t'
    | .err out e => out.length ≤ maxLen → ∃ t', A.total ops t = .exn e t' := by
  have hc := h.base.calls hS ops hR hops
  cases hput : S.put s (inputOf ops) with
  | err out e =>
    rw [hput] at hc
    simp only [SRes.andThen]
    intro hfit
    obtain ⟨t', h1⟩ := hc (by simpa using hfit)
    exact ⟨t', M.bind_exn h1⟩
  | ok out s1 =>
    rw [hput] at hc
    simp only [SRes.andThen]
    simp only [List.nil_append, List.length_nil, Nat.zero_add] at hc
    cases hfin : fin s1 with
    | err out2 e =>
      simp only
      intro hfit
      simp only [List.length_append] at hfit
      obtain ⟨x, t1, q1, h1, h2, h3⟩ := hc (by omega)
      have hf := h.tag h2
      rw [hfin] at hf
      have := congrArg List.length h3
      simp only [List.length_append] at this
      obtain ⟨t2, h4⟩ := hf (by omega)
      exact ⟨t2, by rw [AuthTransform.total, M.bind_ok h1, M.bind_exn h4]⟩
    | ok out2 tag =>
      simp only
      intro hfit
      simp only [List.length_append] at hfit
      obtain ⟨x, t1, q1, h1, h2, h3⟩ := hc (by omega)
      have hf := h.tag h2
      rw [hfin] at hf
      have := congrArg List.length h3
      simp only [List.length_append] at this
      obtain ⟨t2, t3, h4, h6⟩ := hf (by omega)
      refine ⟨t3, ?_⟩
      rw [AuthTransform.total, M.bind_ok h1, M.bind_ok h4, M.bind_ok h6]
      rw [← List.append_assoc, h3]; rfl

/-- What `auth_transform_string_detached` computes. -/
theorem AuthRefines.detached (h : AuthRefines A S fin maxLen R) (m : Bytes) {t s}
    (hR : R t s []) :
    match (S.put s m).andThen fin with
    | .ok out tag => out.length ≤ maxLen →
        ∃ t', authTransformStringDetached A m t = .ok (out, tag) t'
    | .err out e => out.length ≤ maxLen → ∃ t', authTransformStringDetached A m t = .exn e t' := by
  have hc := h.base.putString (b := m) hR
  cases hput : S.put s m with
  | err out e =>
    rw [hput] at hc
    simp only [SRes.andThen]
    intro hfit
    obtain ⟨t', h1⟩ := hc (by simpa using hfit)
    exact ⟨t', M.bind_exn h1⟩
  | ok out s1 =>
    rw [hput] at hc
    simp only [SRes.andThen]
    simp only [StepRefines, List.nil_append, List.length_nil, Nat.zero_add] at hc
    cases hfin : fin s1 with
    | err out2 e =>
      simp only
      intro hfit
      simp only [List.length_append] at hfit
      obtain ⟨t1, h1, h2⟩ := hc (by omega)
      have hf := h.tag h2
      rw [hfin] at hf
      obtain ⟨t2, h4⟩ := hf (by omega)
      exact ⟨t2, by rw [authTransformStringDetached, M.bind_ok h1, M.bind_exn h4]⟩
    | ok out2 tag =>
      simp only
      intro hfit
      simp only [List.length_append] at hfit
      obtain ⟨t1, h1, h2⟩ := hc (by omega)
      have hf := h.tag h2
      rw [hfin] at hf
      obtain ⟨t2, t3, h4, h6⟩ := hf (by omega)
      obtain ⟨t4, h8⟩ := h.wipe t3
      exact ⟨t4, by
        rw [authTransformStringDetached, M.bind_ok h1, M.bind_ok h4, M.bind_ok h6, M.bind_ok h8]; rfl⟩

/-- From a final state in the relation, the whole output can be read. -/
theorem finish_then_get {T : Transform τ} {S : XSpec σ} {maxLen : Nat} {R : τ → σ → Bytes → Prop}
    (hT : Refines T S maxLen R) {o : Out τ Bytes} {r : SRes Bytes} {q : Bytes}
    (h : match (generalizing := false) r with
      | .ok out tag => q.length + out.length ≤ maxLen →
          ∃ t' s', o = .ok tag t' ∧ R t' s' (q ++ out)
      | .err out e => q.length + out.length ≤ maxLen → ∃ t', o = .exn e t') :
    match (generalizing := false) r with
    | .ok out tag => q.length + out.length ≤ maxLen →
        ∃ t' t'', o = .ok tag t' ∧ T.getString t' = .ok (q ++ out) t''
    | .err out e => q.length + out.length ≤ maxLen → ∃ t', o = .exn e t' := by
  cases r with
  | err out e => exact h
  | ok out tag =>
    intro hfit
    obtain ⟨t', s', h1, h2⟩ := h hfit
    obtain ⟨t'', h3, _⟩ := hT.getString h2
    exact ⟨t', t'', h1, h3⟩

end Verif
