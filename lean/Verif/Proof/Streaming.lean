import Verif.Spec.Streaming
import Verif.Proof.Parts
import Verif.Proof.Auth
/-
Histories of any total length, when the output is retrieved as it comes.
-/
namespace Verif

open Spec

/-- Length of the output of a step (of what would have been output, for an exception). -/
def SRes.size : SRes σ → Nat
  | .ok out _ => out.length
  | .err out _ => out.length

/-- The output for `n` bytes of data has at most `g n` bytes, in states satisfying `I`. -/
structure XSpec.Bounded (S : XSpec σ) (fin : σ → SRes ρ) (I : σ → Prop) (g : Nat → Nat) : Prop where
  mono : ∀ a b, a ≤ b → g a ≤ g b
  keep : ∀ {s d out s'}, I s → S.put s d = .ok out s' → I s'
  put : ∀ {s} (d : Bytes), I s → (S.put s d).size ≤ g d.length
  fin : ∀ {s} (d : Bytes), I s → ((S.put s d).andThen fin).size ≤ g d.length

variable {τ σ ρ : Type} {T : Transform τ} {S : XSpec σ} {maxLen : Nat} {R : τ → σ → Bytes → Prop}
  {fin : σ → SRes ρ} {I : σ → Prop} {g : Nat → Nat}

theorem XSpec.Lawful.put_ok (hS : S.Lawful) {s s1 : σ} {a b out : Bytes} (h : S.put s a = .ok out s1) :
    ((SRes.ok out s1).andThen (S.put · b)).Le (S.put s (a ++ b)) := by
  have := hS.put_append s a b
  rwa [h] at this

/-- The state is reached from a state where the output had just been retrieved, with `d` put
since. -/
structure Since (S : XSpec σ) (I : σ → Prop) (L : Nat) (d q : Bytes) (s : σ) : Prop where
  run : ∃ s0 out, I s0 ∧ S.put s0 d = .ok out s ∧ q.length ≤ out.length
  le : d.length ≤ L

theorem Since.inv (hb : S.Bounded fin I g) {L : Nat} {d q : Bytes} {s : σ} (h : Since S I L d q s) :
    I s := by
  obtain ⟨s0, out, h0, h1, _⟩ := h.run
  exact hb.keep h0 h1

theorem Since.room (hb : S.Bounded fin I g) (hS : S.Lawful) {L : Nat} {d q b : Bytes} {s : σ}
    (h : Since S I L d q s) (hL : d.length + b.length ≤ L) : q.length + (S.put s b).size ≤ g L := by
  obtain ⟨s0, out, h0, h1, h2⟩ := h.run
  have hle := hS.put_ok (b := b) h1
  have hg := hb.put (d ++ b) h0
  have hm := hb.mono (d ++ b).length L (by simpa using hL)
  cases hp : S.put s b with
  | ok o s' =>
    simp only [SRes.andThen, hp] at hle
    cases hr : S.put s0 (d ++ b) with
    | ok o' s'' =>
      rw [hr] at hle hg
      obtain ⟨rfl, rfl⟩ := hle
      simp only [SRes.size, List.length_append] at hg ⊢ hm
      omega
    | err o' e => rw [hr] at hle; exact hle.elim
  | err o e =>
    simp only [SRes.andThen, hp] at hle
    cases hr : S.put s0 (d ++ b) with
    | ok o' s'' => rw [hr] at hle; exact hle.elim
    | err o' e' =>
      rw [hr] at hle hg
      obtain ⟨_, hl⟩ := hle
      simp only [SRes.size, List.length_append] at hg hl ⊢ hm
      omega

theorem Since.roomFin (hb : S.Bounded fin I g) {L : Nat} {d q : Bytes} {s : σ}
    (h : Since S I L d q s) : q.length + (fin s).size ≤ g L := by
  obtain ⟨s0, out, h0, h1, h2⟩ := h.run
  have hg := hb.fin d h0
  have hm := hb.mono d.length L h.le
  rw [h1] at hg
  simp only [SRes.andThen] at hg
  cases hf : fin s <;> rw [hf] at hg <;> simp only [SRes.size, List.length_append] at hg ⊢ <;> omega

theorem Since.step (hS : S.Lawful) {L : Nat} {d q q' b o : Bytes} {s s' : σ} (h : Since S I L d q s)
    (hp : S.put s b = .ok o s') (hL : d.length + b.length ≤ L) (hq : q'.length ≤ q.length + o.length) :
    Since S I L (d ++ b) q' s' := by
  obtain ⟨s0, out, h0, h1, h2⟩ := h.run
  have hle := hS.put_ok (b := b) h1
  simp only [SRes.andThen, hp] at hle
  cases hr : S.put s0 (d ++ b) with
  | ok o' s'' =>
    rw [hr] at hle
    obtain ⟨rfl, rfl⟩ := hle
    exact ⟨⟨s0, _, h0, hr, by rw [List.length_append]; omega⟩, by simpa using hL⟩
  | err o' e => rw [hr] at hle; exact hle.elim

/-- A call that takes all the output leaves nothing pending. -/
theorem Refines.call_all (h : Refines T S maxLen R) {t s q} (hR : R t s q) (op : TOp)
    (ho : takesAll op = true) :
    op.input = [] ∧ ∃ t', T.call op t = .ok q t' ∧ R t' s [] := by
  cases op <;> simp only [takesAll, Bool.false_eq_true] at ho
  · exact ⟨rfl, h.getOut hR false⟩
  · exact ⟨rfl, h.getOut hR true⟩

theorem Refines.calls_paced (h : Refines T S maxLen R) (hS : S.Lawful) (hb : S.Bounded fin I g)
    {L : Nat} (hg : g L ≤ maxLen) (ops : List TOp) :
    ∀ {t s q d}, R t s q → Since S I L d q s → (∀ op ∈ ops, op.Legal) → Paced L d.length ops →
    match S.put s (inputOf ops) with
    | .ok out s' => ∃ x t' q' d', T.calls ops t = .ok x t' ∧ R t' s' q' ∧ x ++ q' = q ++ out
        ∧ Since S I L d' q' s'
    | .err _ e => ∃ t', T.calls ops t = .exn e t' := by
  induction ops with
  | nil =>
    intro t s q d hR hs _ _
    simp only [inputOf, List.map_nil, List.flatten_nil, hS.put_nil]
    exact ⟨[], t, q, d, rfl, hR, by simp, hs⟩
  | cons op ops ih =>
    intro t s q d hR hs hops hp
    have hop := hops op (by simp)
    obtain ⟨hp1, hp2⟩ := hp
    have hin : inputOf (op :: ops) = op.input ++ inputOf ops := by simp [inputOf]
    rw [hin]
    suffices H : match (S.put s op.input).andThen (S.put · (inputOf ops)) with
        | .ok out s' => ∃ x t' q' d', T.calls (op :: ops) t = .ok x t' ∧ R t' s' q'
            ∧ x ++ q' = q ++ out ∧ Since S I L d' q' s'
        | .err out e => ∃ t', T.calls (op :: ops) t = .exn e t' by
      have hle := hS.put_append s op.input (inputOf ops)
      generalize (S.put s op.input).andThen (S.put · (inputOf ops)) = r at H hle
      generalize S.put s (op.input ++ inputOf ops) = r' at hle
      cases r with
      | ok o s1 =>
        cases r' with
        | ok o' s1' => obtain ⟨rfl, rfl⟩ := hle; exact H
        | err o' e => exact hle.elim
      | err o e =>
        cases r' with
        | ok o' s1' => exact hle.elim
        | err o' e' => obtain ⟨rfl, _⟩ := hle; exact H
    have hroom := hs.room hb hS hp1
    -- the call itself
    have hcall : match S.put s op.input with
        | .ok out s1 => ∃ x t1 q1 d1, T.call op t = .ok x t1 ∧ R t1 s1 q1 ∧ x ++ q1 = q ++ out
            ∧ Since S I L d1 q1 s1 ∧ Paced L d1.length ops
        | .err _ e => ∃ t', T.call op t = .exn e t' := by
      cases hall : takesAll op with
      | true =>
        obtain ⟨h0, t', h1, h2⟩ := h.call_all hR op hall
        rw [h0, hS.put_nil]
        refine ⟨q, t', [], [], h1, h2, by simp, ⟨⟨s, [], hs.inv hb, hS.put_nil s, by simp⟩, by simp⟩, ?_⟩
        rw [hall] at hp2
        exact hp2
      | false =>
        have hc := h.call hS hR op hop
        rw [hall] at hp2
        cases hput : S.put s op.input with
        | err out e =>
          rw [hput] at hc hroom
          exact hc (Nat.le_trans hroom hg)
        | ok out s1 =>
          rw [hput] at hc hroom
          obtain ⟨x, t1, q1, h1, h2, h3⟩ := hc (Nat.le_trans hroom hg)
          refine ⟨x, t1, q1, d ++ op.input, h1, h2, h3, hs.step hS hput hp1 ?_, ?_⟩
          · have := congrArg List.length h3
            simp only [List.length_append] at this
            omega
          · rw [List.length_append]; exact hp2
    cases hput : S.put s op.input with
    | err out e =>
      rw [hput] at hcall
      obtain ⟨t', h1⟩ := hcall
      exact ⟨t', M.bind_exn h1⟩
    | ok out s1 =>
      rw [hput] at hcall
      obtain ⟨x, t1, q1, d1, h1, h2, h3, h4, h5⟩ := hcall
      have ih' := ih h2 h4 (fun op' hm => hops op' (by simp [hm])) h5
      simp only [SRes.andThen]
      cases hput2 : S.put s1 (inputOf ops) with
      | err out2 e =>
        rw [hput2] at ih'
        obtain ⟨t2, h6⟩ := ih'
        exact ⟨t2, by rw [Transform.calls, M.bind_ok h1, M.bind_exn h6]⟩
      | ok out2 s2 =>
        rw [hput2] at ih'
        obtain ⟨y, t2, q2, d2, h6, h7, h8, h9⟩ := ih'
        refine ⟨x ++ y, t2, q2, d2, ?_, h7, ?_, h9⟩
        · rw [Transform.calls, M.bind_ok h1, M.bind_ok h6]; rfl
        · rw [List.append_assoc, h8, ← List.append_assoc, h3, List.append_assoc]

theorem Since.init {S : XSpec σ} {I : σ → Prop} (hS : S.Lawful) (L : Nat) {s : σ} (hI : I s) :
    Since S I L [] [] s := ⟨⟨s, [], hI, hS.put_nil s, by simp⟩, by simp⟩

/-- As `Refines.total`, but only the output between two retrievals has to fit. -/
theorem Refines.total_paced (h : Refines T S maxLen R) (hS : S.Lawful)
    (hb : S.Bounded S.finish I g) {L : Nat} (hg : g L ≤ maxLen) (ops : List TOp) {t s}
    (hR : R t s []) (hI : I s) (hops : ∀ op ∈ ops, op.Legal) (hp : Paced L 0 ops) :
    match (S.put s (inputOf ops)).andThen S.finish with
    | .ok out s' => ∃ t', T.total ops t = .ok out t' ∧ R t' s' []
    | .err _ e => ∃ t', T.total ops t = .exn e t' := by
  have hc := h.calls_paced hS hb hg ops hR (Since.init hS L hI) hops hp
  cases hput : S.put s (inputOf ops) with
  | err out e =>
    rw [hput] at hc
    obtain ⟨t', h1⟩ := hc
    exact ⟨t', M.bind_exn h1⟩
  | ok out s1 =>
    rw [hput] at hc
    obtain ⟨x, t1, q1, d1, h1, h2, h3, h4⟩ := hc
    simp only [SRes.andThen]
    rw [List.nil_append] at h3
    have hf := h.finish h2
    have hroom := Nat.le_trans (h4.roomFin hb) hg
    cases hfin : S.finish s1 with
    | err out2 e =>
      rw [hfin] at hf hroom
      obtain ⟨t2, h5⟩ := hf hroom
      exact ⟨t2, by rw [Transform.total, M.bind_ok h1, M.bind_exn h5]⟩
    | ok out2 s2 =>
      rw [hfin] at hf hroom
      obtain ⟨t2, h5, h6⟩ := hf hroom
      obtain ⟨t3, h7, h8⟩ := h.getString h6
      refine ⟨t3, ?_, h8⟩
      rw [Transform.total, M.bind_ok h1, M.bind_ok h5, M.bind_ok h7, ← h3, List.append_assoc]; rfl

/-- The same, for authenticated transforms. -/
theorem AuthRefines.total_paced {A : AuthTransform τ} {fin : σ → SRes Bytes}
    (h : AuthRefines A S fin maxLen R) (hS : S.Lawful) (hb : S.Bounded fin I g) {L : Nat}
    (hg : g L ≤ maxLen) (ops : List TOp) {t s} (hR : R t s []) (hI : I s)
    (hops : ∀ op ∈ ops, op.Legal) (hp : Paced L 0 ops) :
    match (S.put s (inputOf ops)).andThen fin with
    | .ok out tag => ∃ t', A.total ops t = .ok (out, tag) t'
    | .err _ e => ∃ t', A.total ops t = .exn e t' := by
  have hc := h.base.calls_paced hS hb hg ops hR (Since.init hS L hI) hops hp
  cases hput : S.put s (inputOf ops) with
  | err out e =>
    rw [hput] at hc
    obtain ⟨t', h1⟩ := hc
    exact ⟨t', M.bind_exn h1⟩
  | ok out s1 =>
    rw [hput] at hc
    obtain ⟨x, t1, q1, d1, h1, h2, h3, h4⟩ := hc
    simp only [SRes.andThen]
    rw [List.nil_append] at h3
    have hf := h.tag h2
    have hroom := Nat.le_trans (h4.roomFin hb) hg
    cases hfin : fin s1 with
    | err out2 e =>
      rw [hfin] at hf hroom
      obtain ⟨t2, h5⟩ := hf hroom
      exact ⟨t2, by rw [AuthTransform.total, M.bind_ok h1, M.bind_exn h5]⟩
    | ok out2 tag =>
      rw [hfin] at hf hroom
      obtain ⟨t2, t3, h5, h6⟩ := hf hroom
      refine ⟨t3, ?_⟩
      rw [AuthTransform.total, M.bind_ok h1, M.bind_ok h5, M.bind_ok h6, ← h3, List.append_assoc]
      rfl

end Verif
