import Verif.Proof.Combinators
import Verif.Proof.Transform
/-
A transform that refines a data-level specification computes it, in the sense of `TComputes`.
-/
namespace Verif

open Spec

variable {τ σ : Type} {T : Transform τ} {S : XSpec σ} {maxLen : Nat} {R : τ → σ → Bytes → Prop}

def XSpec.endPart (S : XSpec σ) (last : Bool) : σ → SRes σ := if last then S.finish else S.flush

/-- The outputs of the parts. -/
def XSpec.parts (S : XSpec σ) : σ → List Bytes → Except Exn (List Bytes)
  | _, [] => .ok []
  | s, m :: ms =>
    match (S.put s m).andThen (S.endPart ms.isEmpty) with
    | .ok out s' => (S.parts s' ms).map (out :: ·)
    | .err _ e => .error e

/-- The output of each part fits in memory. -/
def XSpec.fits (S : XSpec σ) (maxLen : Nat) : σ → List Bytes → Prop
  | _, [] => True
  | s, m :: ms =>
    match (S.put s m).andThen (S.endPart ms.isEmpty) with
    | .ok out s' => out.length ≤ maxLen ∧ S.fits maxLen s' ms
    | .err out _ => out.length ≤ maxLen

theorem Refines.getOut (h : Refines T S maxLen R) {t : τ} {s : σ} {q : Bytes} (hR : R t s q)
    (sub : Bool) : ∃ t', T.call (if sub then .getSubstring else .getString) t = .ok q t'
      ∧ R t' s [] := by
  cases sub with
  | false => exact h.getString hR
  | true =>
    obtain ⟨b, o, t', h1, h2, h3, h4⟩ := h.getSubstring hR
    refine ⟨t', ?_, h4⟩
    show T.call .getSubstring t = _
    rw [Transform.call, M.bind_ok h1]
    simp only
    rw [bytesSub_ok h2, h3]
    rfl

theorem Refines.part (h : Refines T S maxLen R) (hS : S.Lawful) (p : Part) (last : Bool)
    (hp : ∀ op ∈ p.ops, op.Legal) {t : τ} {s : σ} (hR : R t s []) :
    match (S.put s p.data).andThen (S.endPart last) with
    | .ok out s' => out.length ≤ maxLen →
        ∃ x ta tb y tc, T.calls p.ops t = .ok x ta ∧ endPart T last ta = .ok () tb
          ∧ T.call (if p.sub then .getSubstring else .getString) tb = .ok y tc
          ∧ x ++ y = out ∧ R tc s' []
    | .err out e => out.length ≤ maxLen →
        (∃ ta, T.calls p.ops t = .exn e ta)
        ∨ ∃ x ta tb, T.calls p.ops t = .ok x ta ∧ endPart T last ta = .exn e tb := by
  have hc := h.calls hS p.ops hR hp
  have hE : ∀ {t s q}, R t s q → StepRefines R maxLen q (endPart T last t) (S.endPart last s) := by
    intro t s q hR
    cases last
    · exact h.flush hR
    · exact h.finish hR
  unfold Part.data
  cases hput : S.put s (inputOf p.ops) with
  | err out e =>
    rw [hput] at hc
    simp only [SRes.andThen]
    intro hfit
    exact .inl (hc (by simpa using hfit))
  | ok out s1 =>
    rw [hput] at hc
    simp only [SRes.andThen]
    simp only [List.nil_append, List.length_nil, Nat.zero_add] at hc
    cases hfin : S.endPart last s1 with
    | err out2 e =>
      simp only
      intro hfit
      simp only [List.length_append] at hfit
      obtain ⟨x, t1, q1, h1, h2, h3⟩ := hc (by omega)
      have hf := hE h2
      rw [hfin] at hf
      have := congrArg List.length h3
      simp only [List.length_append] at this
      obtain ⟨t2, h4⟩ := hf (by omega)
      exact .inr ⟨x, t1, t2, h1, h4⟩
    | ok out2 s2 =>
      simp only
      intro hfit
      simp only [List.length_append] at hfit
      obtain ⟨x, t1, q1, h1, h2, h3⟩ := hc (by omega)
      have hf := hE h2
      rw [hfin] at hf
      have := congrArg List.length h3
      simp only [List.length_append] at this
      obtain ⟨t2, h4, h5⟩ := hf (by omega)
      obtain ⟨t3, h6, h7⟩ := h.getOut h5 p.sub
      exact ⟨x, t1, t2, _, t3, h1, h4, h6, by rw [← List.append_assoc, h3], h7⟩

theorem Refines.runParts (h : Refines T S maxLen R) (hS : S.Lawful) (ps : List Part)
    (hp : ∀ p ∈ ps, p.Legal) {t : τ} {s : σ} (hR : R t s [])
    (hfit : S.fits maxLen s (ps.map Part.data)) :
    (runParts T ps t).observe = some (S.parts s (ps.map Part.data)) := by
  induction ps generalizing t s with
  | nil => rfl
  | cons p ps ih =>
    have hpart := h.part hS p ps.isEmpty (fun op ho => (hp p (by simp) op ho).1) hR
    have hE : (ps.map Part.data).isEmpty = ps.isEmpty := by simp
    simp only [List.map_cons, XSpec.fits, XSpec.parts, hE] at hfit ⊢
    rw [Spec.runParts]
    cases hr : (S.put s p.data).andThen (S.endPart ps.isEmpty) with
    | err out e =>
      rw [hr] at hpart hfit
      simp only at hpart hfit ⊢
      rcases hpart hfit with ⟨ta, h1⟩ | ⟨x, ta, tb, h1, h2⟩
      · rw [M.bind_exn h1]; rfl
      · rw [M.bind_ok h1, M.bind_exn h2]; rfl
    | ok out s' =>
      rw [hr] at hpart hfit
      simp only at hpart hfit ⊢
      obtain ⟨x, ta, tb, y, tc, h1, h2, h3, h4, h5⟩ := hpart hfit.1
      rw [M.bind_ok h1, M.bind_ok h2, M.bind_ok h3]
      have ih' := ih (fun q hq => hp q (by simp [hq])) h5 hfit.2
      rw [M.bind_def]
      cases hL : Spec.runParts T ps tc <;> rw [hL] at ih' <;> simp only [Out.observe] at ih' ⊢
      · injection ih' with ih'
        rw [← ih', ← h4]; rfl
      · injection ih' with ih'
        rw [← ih']; rfl
      · cases ih'
      · cases ih'

/-- Refinement gives `TComputes`. -/
theorem Refines.tcomputes (h : Refines T S maxLen R) (hS : S.Lawful) {t : τ} {s : σ}
    (hR : R t s []) : TComputes T t (S.fits maxLen s) (S.parts s) :=
  fun ps _ hp hfit => h.runParts hS ps hp hR hfit

/-- Transforms that differ only by `put_byte` on integers that are not bytes. -/
theorem runParts_congr {T T' : Transform τ}
    (h : ∀ op : TOp, op.ByteOk → T.call op = T'.call op)
    (hf : T.finish = T'.finish) (hfl : T.flush = T'.flush) (ps : List Part)
    (hp : ∀ p ∈ ps, p.Legal) : Spec.runParts T ps = Spec.runParts T' ps := by
  have hc : ∀ ops : List TOp, (∀ op ∈ ops, op.Proper) → T.calls ops = T'.calls ops := by
    intro ops
    induction ops with
    | nil => intro _; rfl
    | cons op ops ih =>
      intro hops
      simp only [Transform.calls]
      rw [h op (hops op (by simp)).2, ih (fun o ho => hops o (by simp [ho]))]
  induction ps with
  | nil => rfl
  | cons p ps ih =>
    rw [Spec.runParts, Spec.runParts, hc p.ops (hp p (by simp)), ih (fun q hq => hp q (by simp [hq]))]
    have e1 : endPart T ps.isEmpty = endPart T' ps.isEmpty := by
      simp only [endPart, hf, hfl]
    have e2 : T.call (if p.sub = true then .getSubstring else .getString)
        = T'.call (if p.sub = true then .getSubstring else .getString) :=
      h _ (by split <;> trivial)
    rw [e1, e2]

theorem TComputes.congr {T T' : Transform τ} {t : τ} {ok : List Bytes → Prop}
    {F : List Bytes → Except Exn (List Bytes)}
    (h : ∀ op : TOp, op.ByteOk → T.call op = T'.call op)
    (hf : T.finish = T'.finish) (hfl : T.flush = T'.flush) (hT : TComputes T' t ok F) :
    TComputes T t ok F := by
  intro ps h1 h2 h3
  rw [runParts_congr h hf hfl ps h2]
  exact hT ps h1 h2 h3

end Verif
