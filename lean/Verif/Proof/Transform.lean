import Verif.Spec.History
import Verif.Proof.Bytes
/-
Refinement of transforms to data-level specifications.
-/
namespace Verif

/-- Result of a data-level step: output produced and new state; or an exception, with
the output that would have been produced (an upper bound of the space used). -/
inductive SRes (σ : Type) where
  | ok (out : Bytes) (s : σ)
  | err (out : Bytes) (e : Exn)

/-- sequential composition, concatenating outputs -/
def SRes.andThen (r : SRes σ) (k : σ → SRes σ') : SRes σ' :=
  match r with
  | .ok o s =>
    match k s with
    | .ok o' s' => .ok (o ++ o') s'
    | .err o' e => .err (o ++ o') e
  | .err o e => .err o e

theorem SRes.andThen_assoc (r : SRes σ) (k : σ → SRes σ') (k' : σ' → SRes σ'') :
    (r.andThen k).andThen k' = r.andThen (fun s => (k s).andThen k') := by
  cases r with
  | err o e => rfl
  | ok o s =>
    simp only [SRes.andThen]
    cases k s with
    | err o' e => rfl
    | ok o' s' =>
      simp only
      cases k' s' <;> simp

@[simp] theorem SRes.andThen_ok_nil (s : σ) (k : σ → SRes σ') :
    (SRes.ok [] s).andThen k = k s := by
  simp only [SRes.andThen]; cases k s <;> simp

@[simp] theorem SRes.andThen_ok_id (r : SRes σ) : r.andThen (.ok []) = r := by
  cases r <;> simp [SRes.andThen]

/-- What a transform computes, at the level of data. -/
structure XSpec (σ : Type) where
  put : σ → Bytes → SRes σ
  flush : σ → SRes σ
  finish : σ → SRes σ

/-- Same result; the space bound of an exception may be smaller. -/
def SRes.Le : SRes σ → SRes σ → Prop
  | .ok o s, .ok o' s' => o = o' ∧ s = s'
  | .err o e, .err o' e' => e = e' ∧ o.length ≤ o'.length
  | _, _ => False

theorem SRes.Le.of_eq {r r' : SRes σ} (h : r' = r) : r.Le r' := by
  subst h; cases r' <;> simp [SRes.Le]

/-- `put` does not depend on how data is cut. -/
structure XSpec.Lawful (S : XSpec σ) : Prop where
  put_nil : ∀ s, S.put s [] = .ok [] s
  put_append : ∀ s a b, ((S.put s a).andThen (S.put · b)).Le (S.put s (a ++ b))

/-- Outcome of a unit method against a data-level result, from pending output `q`. -/
def StepRefines (R : τ → σ → Bytes → Prop) (maxLen : Nat) (q : Bytes) (o : Out τ Unit) :
    SRes σ → Prop
  | .ok out s' => q.length + out.length ≤ maxLen → ∃ t', o = .ok () t' ∧ R t' s' (q ++ out)
  | .err out e => q.length + out.length ≤ maxLen → ∃ t', o = .exn e t'

/-- `T` refines `S`: `R t s q` relates object state `t`, data-level state `s` and
pending output `q`. -/
structure Refines (T : Transform τ) (S : XSpec σ) (maxLen : Nat) (R : τ → σ → Bytes → Prop) :
    Prop where
  putSubstring : ∀ {t s q b} {ofs len : Nat}, R t s q → ofs + len ≤ b.length →
    StepRefines R maxLen q (T.putSubstring b ofs len t) (S.put s (slice b ofs len))
  putString : ∀ {t s q b}, R t s q → StepRefines R maxLen q (T.putString b t) (S.put s b)
  putChar : ∀ {t s q c}, R t s q → StepRefines R maxLen q (T.putChar c t) (S.put s [c])
  putByte : ∀ {t s q b}, R t s q →
    StepRefines R maxLen q (T.putByte b t) (S.put s [BitVec.ofInt 8 b])
  flush : ∀ {t s q}, R t s q → StepRefines R maxLen q (T.flush t) (S.flush s)
  finish : ∀ {t s q}, R t s q → StepRefines R maxLen q (T.finish t) (S.finish s)
  available : ∀ {t s q}, R t s q → T.availableOutput t = .ok (q.length : Int) t
  getString : ∀ {t s q}, R t s q → ∃ t', T.getString t = .ok q t' ∧ R t' s []
  getSubstring : ∀ {t s q}, R t s q →
    ∃ (b : Bytes) (ofs : Nat) (t' : τ), T.getSubstring t = .ok (b, (ofs : Int), (q.length : Int)) t'
      ∧ ofs + q.length ≤ b.length ∧ slice b ofs q.length = q ∧ R t' s []
  getChar_nil : ∀ {t s}, R t s [] → T.getChar t = .exn .endOfFile t
  getChar_cons : ∀ {t s c q}, R t s (c :: q) → ∃ t', T.getChar t = .ok c t' ∧ R t' s q
  getByte_nil : ∀ {t s}, R t s [] → T.getByte t = .exn .endOfFile t
  getByte_cons : ∀ {t s c q}, R t s (c :: q) → ∃ t', T.getByte t = .ok (c.toNat : Int) t' ∧ R t' s q

variable {T : Transform τ} {S : XSpec σ} {maxLen : Nat} {R : τ → σ → Bytes → Prop}

theorem Refines.call (h : Refines T S maxLen R) (hS : S.Lawful) {t s q} (hR : R t s q) (op : TOp)
    (hop : op.Legal) :
    match S.put s op.input with
    | .ok out s' => q.length + out.length ≤ maxLen →
        ∃ x t' q', T.call op t = .ok x t' ∧ R t' s' q' ∧ x ++ q' = q ++ out
    | .err out e => q.length + out.length ≤ maxLen → ∃ t', T.call op t = .exn e t' := by
  have putCase : ∀ (o : M τ Unit) (d : Bytes),
      StepRefines R maxLen q (o t) (S.put s d) →
      match S.put s d with
      | .ok out s' => q.length + out.length ≤ maxLen →
          ∃ x t' q', (do o; pure ([] : Bytes) : M τ Bytes) t = .ok x t' ∧ R t' s' q' ∧ x ++ q' = q ++ out
      | .err out e => q.length + out.length ≤ maxLen →
          ∃ t', (do o; pure ([] : Bytes) : M τ Bytes) t = .exn e t' := by
    intro o d hd
    cases hput : S.put s d with
    | ok out s' =>
      rw [hput] at hd
      intro hfit
      obtain ⟨t', h1, h2⟩ := hd hfit
      exact ⟨[], t', q ++ out, M.bind_ok h1, h2, by simp⟩
    | err out e =>
      rw [hput] at hd
      intro hfit
      obtain ⟨t', h1⟩ := hd hfit
      exact ⟨t', M.bind_exn h1⟩
  cases op with
  | putSubstring b ofs len =>
    obtain ⟨hl1, hl2, hl3⟩ := hop
    obtain ⟨o, rfl⟩ := Int.eq_ofNat_of_zero_le hl2
    obtain ⟨l, rfl⟩ := Int.eq_ofNat_of_zero_le hl1
    exact putCase _ _ (h.putSubstring hR (by omega))
  | putString b => exact putCase _ _ (h.putString hR)
  | putChar c => exact putCase _ _ (h.putChar hR)
  | putByte b => exact putCase _ _ (h.putByte hR)
  | getString =>
    simp only [TOp.input, hS.put_nil]
    intro _
    obtain ⟨t', h1, h2⟩ := h.getString hR
    exact ⟨q, t', [], h1, h2, by simp⟩
  | getSubstring =>
    simp only [TOp.input, hS.put_nil]
    intro _
    obtain ⟨b, ofs, t', h1, h2, h3, h4⟩ := h.getSubstring hR
    refine ⟨q, t', [], ?_, h4, by simp⟩
    simp only [Transform.call]
    rw [M.bind_ok h1]
    simp only
    rw [bytesSub_ok h2, h3]; rfl
  | getChar =>
    simp only [TOp.input, hS.put_nil]
    intro _
    cases q with
    | nil => exact ⟨[], t, [], by simp [Transform.call, h.getChar_nil hR], hR, by simp⟩
    | cons c q =>
      obtain ⟨t', h1, h2⟩ := h.getChar_cons hR
      exact ⟨[c], t', q, by simp [Transform.call, h1], h2, by simp⟩
  | getByte =>
    simp only [TOp.input, hS.put_nil]
    intro _
    cases q with
    | nil => exact ⟨[], t, [], by simp [Transform.call, h.getByte_nil hR], hR, by simp⟩
    | cons c q =>
      obtain ⟨t', h1, h2⟩ := h.getByte_cons hR
      refine ⟨[c], t', q, ?_, h2, by simp⟩
      have : BitVec.ofInt 8 (c.toNat : Int) = c := by
        rw [BitVec.ofInt_natCast, BitVec.ofNat_toNat, BitVec.setWidth_eq]
      simp [Transform.call, h1, this]
  | available =>
    simp only [TOp.input, hS.put_nil]
    intro _
    exact ⟨[], t, q, M.bind_ok (h.available hR), hR, by simp⟩

/-- Any history of calls computes `S.put` on its input. -/
theorem Refines.calls (h : Refines T S maxLen R) (hS : S.Lawful) (ops : List TOp) :
    ∀ {t s q}, R t s q → (∀ op ∈ ops, op.Legal) →
    match S.put s (inputOf ops) with
    | .ok out s' => q.length + out.length ≤ maxLen →
        ∃ x t' q', T.calls ops t = .ok x t' ∧ R t' s' q' ∧ x ++ q' = q ++ out
    | .err out e => q.length + out.length ≤ maxLen → ∃ t', T.calls ops t = .exn e t' := by
  induction ops with
  | nil =>
    intro t s q hR _
    simp only [inputOf, List.map_nil, List.flatten_nil, hS.put_nil]
    intro _
    exact ⟨[], t, q, rfl, hR, by simp⟩
  | cons op ops ih =>
    intro t s q hR hops
    have hop := hops op (by simp)
    have hin : inputOf (op :: ops) = op.input ++ inputOf ops := by simp [inputOf]
    rw [hin]
    suffices H : match (S.put s op.input).andThen (S.put · (inputOf ops)) with
        | .ok out s' => q.length + out.length ≤ maxLen →
            ∃ x t' q', T.calls (op :: ops) t = .ok x t' ∧ R t' s' q' ∧ x ++ q' = q ++ out
        | .err out e => q.length + out.length ≤ maxLen →
            ∃ t', T.calls (op :: ops) t = .exn e t' by
      have hle := hS.put_append s op.input (inputOf ops)
      generalize (S.put s op.input).andThen (S.put · (inputOf ops)) = r at H hle
      generalize S.put s (op.input ++ inputOf ops) = r' at hle
      cases r with
      | ok o s1 =>
        cases r' with
        | ok o' s1' => obtain ⟨rfl, rfl⟩ := hle; exact H
        | err o' e => exact hle.elim
      | err o e =>
        cases r' with
        | ok o' s1' => exact hle.elim
        | err o' e' =>
          obtain ⟨rfl, hlen⟩ := hle
          intro hfit
          exact H (by omega)
    have hc := h.call hS hR op hop
    cases hput : S.put s op.input with
    | err out e =>
      rw [hput] at hc
      simp only [SRes.andThen]
      intro hfit
      obtain ⟨t', h1⟩ := hc hfit
      exact ⟨t', M.bind_exn h1⟩
    | ok out s1 =>
      rw [hput] at hc
      simp only [SRes.andThen]
      simp only at hc
      cases hput2 : S.put s1 (inputOf ops) with
      | err out2 e =>
        simp only
        intro hfit
        simp only [List.length_append] at hfit
        obtain ⟨x, t1, q1, h1, h2, h3⟩ := hc (by omega)
        have ih' := ih h2 (fun op' hm => hops op' (by simp [hm]))
        rw [hput2] at ih'
        have := congrArg List.length h3
        simp only [List.length_append] at this
        obtain ⟨t2, h4⟩ := ih' (by omega)
        exact ⟨t2, by rw [Transform.calls, M.bind_ok h1, M.bind_exn h4]⟩
      | ok out2 s2 =>
        simp only
        intro hfit
        simp only [List.length_append] at hfit
        obtain ⟨x, t1, q1, h1, h2, h3⟩ := hc (by omega)
        have ih' := ih h2 (fun op' hm => hops op' (by simp [hm]))
        rw [hput2] at ih'
        have := congrArg List.length h3
        simp only [List.length_append] at this
        obtain ⟨y, t2, q2, h4, h5, h6⟩ := ih' (by omega)
        refine ⟨x ++ y, t2, q2, ?_, h5, ?_⟩
        · rw [Transform.calls, M.bind_ok h1, M.bind_ok h4]; rfl
        · rw [List.append_assoc, h6, ← List.append_assoc, h3, List.append_assoc]

/-- The total output of any history followed by `finish` is `put` then `finish` on the
input. -/
theorem Refines.total (h : Refines T S maxLen R) (hS : S.Lawful) (ops : List TOp) {t s}
    (hR : R t s []) (hops : ∀ op ∈ ops, op.Legal) :
    match (S.put s (inputOf ops)).andThen S.finish with
    | .ok out s' => out.length ≤ maxLen →
        ∃ t', T.total ops t = .ok out t' ∧ R t' s' []
    | .err out e => out.length ≤ maxLen → ∃ t', T.total ops t = .exn e t' := by
  have hc := h.calls hS ops hR hops
  cases hput : S.put s (inputOf ops) with
  | err out e =>
    rw [hput] at hc
    simp only [SRes.andThen]
    intro hfit
    obtain ⟨t', h1⟩ := hc (by simpa using hfit)
    exact ⟨t', M.bind_exn h1⟩
  | ok out s1 =>
    rw [hput] at hc
    simp only [SRes.andThen]
    simp only [List.nil_append, List.length_nil, Nat.zero_add] at hc
    cases hfin : S.finish s1 with
    | err out2 e =>
      simp only
      intro hfit
      simp only [List.length_append] at hfit
      obtain ⟨x, t1, q1, h1, h2, h3⟩ := hc (by omega)
      have hf := h.finish h2
      rw [hfin] at hf
      have := congrArg List.length h3
      simp only [List.length_append] at this
      obtain ⟨t2, h4⟩ := hf (by omega)
      exact ⟨t2, by rw [Transform.total, M.bind_ok h1, M.bind_exn h4]⟩
    | ok out2 s2 =>
      simp only
      intro hfit
      simp only [List.length_append] at hfit
      obtain ⟨x, t1, q1, h1, h2, h3⟩ := hc (by omega)
      have hf := h.finish h2
      rw [hfin] at hf
      have := congrArg List.length h3
      simp only [List.length_append] at this
      obtain ⟨t2, h4, h5⟩ := hf (by omega)
      obtain ⟨t3, h6, h7⟩ := h.getString h5
      refine ⟨t3, ?_, h7⟩
      rw [Transform.total, M.bind_ok h1, M.bind_ok h4, M.bind_ok h6]
      rw [← List.append_assoc, h3]; rfl

/-- Data-level run of a history with flushes. -/
def XSpec.runF (S : XSpec σ) (s : σ) : List FOp → SRes σ
  | [] => .ok [] s
  | .call op :: ops => (S.put s op.input).andThen (fun s' => S.runF s' ops)
  | .flush :: ops => (S.flush s).andThen (fun s' => S.runF s' ops)

theorem Refines.callF (h : Refines T S maxLen R) (hS : S.Lawful) {t s q} (hR : R t s q) (op : FOp)
    (hop : op.Legal) :
    match (match op with | .call o => S.put s o.input | .flush => S.flush s) with
    | .ok out s' => q.length + out.length ≤ maxLen →
        ∃ x t' q', T.callF op t = .ok x t' ∧ R t' s' q' ∧ x ++ q' = q ++ out
    | .err out e => q.length + out.length ≤ maxLen → ∃ t', T.callF op t = .exn e t' := by
  cases op with
  | call o =>
    have := h.call hS hR o hop
    simp only
    cases hput : S.put s o.input with
    | ok out s' => rw [hput] at this; exact this
    | err out e => rw [hput] at this; exact this
  | flush =>
    have hf := h.flush hR
    simp only
    cases hput : S.flush s with
    | ok out s' =>
      rw [hput] at hf
      intro hfit
      obtain ⟨t', h1, h2⟩ := hf hfit
      exact ⟨[], t', q ++ out, M.bind_ok h1, h2, by simp⟩
    | err out e =>
      rw [hput] at hf
      intro hfit
      obtain ⟨t', h1⟩ := hf hfit
      exact ⟨t', M.bind_exn h1⟩

theorem Refines.callsF (h : Refines T S maxLen R) (hS : S.Lawful) (ops : List FOp) :
    ∀ {t s q}, R t s q → (∀ op ∈ ops, op.Legal) →
    match S.runF s ops with
    | .ok out s' => q.length + out.length ≤ maxLen →
        ∃ x t' q', T.callsF ops t = .ok x t' ∧ R t' s' q' ∧ x ++ q' = q ++ out
    | .err out e => q.length + out.length ≤ maxLen → ∃ t', T.callsF ops t = .exn e t' := by
  induction ops with
  | nil =>
    intro t s q hR _
    simp only [XSpec.runF]
    intro _
    exact ⟨[], t, q, rfl, hR, by simp⟩
  | cons op ops ih =>
    intro t s q hR hops
    have hop := hops op (by simp)
    have hc := h.callF hS hR op hop
    have hrun : S.runF s (op :: ops)
        = (match op with | .call o => S.put s o.input | .flush => S.flush s).andThen
            (fun s' => S.runF s' ops) := by cases op <;> rfl
    rw [hrun]
    cases hput : (match op with | .call o => S.put s o.input | .flush => S.flush s) with
    | err out e =>
      rw [hput] at hc
      simp only [SRes.andThen]
      intro hfit
      obtain ⟨t', h1⟩ := hc hfit
      exact ⟨t', M.bind_exn h1⟩
    | ok out s1 =>
      rw [hput] at hc
      simp only [SRes.andThen]
      simp only at hc
      cases hput2 : S.runF s1 ops with
      | err out2 e =>
        simp only
        intro hfit
        simp only [List.length_append] at hfit
        obtain ⟨x, t1, q1, h1, h2, h3⟩ := hc (by omega)
        have ih' := ih h2 (fun op' hm => hops op' (by simp [hm]))
        rw [hput2] at ih'
        have := congrArg List.length h3
        simp only [List.length_append] at this
        obtain ⟨t2, h4⟩ := ih' (by omega)
        exact ⟨t2, by rw [Transform.callsF, M.bind_ok h1, M.bind_exn h4]⟩
      | ok out2 s2 =>
        simp only
        intro hfit
        simp only [List.length_append] at hfit
        obtain ⟨x, t1, q1, h1, h2, h3⟩ := hc (by omega)
        have ih' := ih h2 (fun op' hm => hops op' (by simp [hm]))
        rw [hput2] at ih'
        have := congrArg List.length h3
        simp only [List.length_append] at this
        obtain ⟨y, t2, q2, h4, h5, h6⟩ := ih' (by omega)
        refine ⟨x ++ y, t2, q2, ?_, h5, ?_⟩
        · rw [Transform.callsF, M.bind_ok h1, M.bind_ok h4]; rfl
        · rw [List.append_assoc, h6, ← List.append_assoc, h3, List.append_assoc]

theorem Refines.totalF (h : Refines T S maxLen R) (hS : S.Lawful) (ops : List FOp) {t s}
    (hR : R t s []) (hops : ∀ op ∈ ops, op.Legal) :
    match (S.runF s ops).andThen S.finish with
    | .ok out s' => out.length ≤ maxLen →
        ∃ t', T.totalF ops t = .ok out t' ∧ R t' s' []
    | .err out e => out.length ≤ maxLen → ∃ t', T.totalF ops t = .exn e t' := by
  have hc := h.callsF hS ops hR hops
  cases hput : S.runF s ops with
  | err out e =>
    rw [hput] at hc
    simp only [SRes.andThen]
    intro hfit
    obtain ⟨t', h1⟩ := hc (by simpa using hfit)
    exact ⟨t', M.bind_exn h1⟩
  | ok out s1 =>
    rw [hput] at hc
    simp only [SRes.andThen]
    simp only [List.nil_append, List.length_nil, Nat.zero_add] at hc
    cases hfin : S.finish s1 with
    | err out2 e =>
      simp only
      intro hfit
      simp only [List.length_append] at hfit
      obtain ⟨x, t1, q1, h1, h2, h3⟩ := hc (by omega)
      have hf := h.finish h2
      rw [hfin] at hf
      have := congrArg List.length h3
      simp only [List.length_append] at this
      obtain ⟨t2, h4⟩ := hf (by omega)
      exact ⟨t2, by rw [Transform.totalF, M.bind_ok h1, M.bind_exn h4]⟩
    | ok out2 s2 =>
      simp only
      intro hfit
      simp only [List.length_append] at hfit
      obtain ⟨x, t1, q1, h1, h2, h3⟩ := hc (by omega)
      have hf := h.finish h2
      rw [hfin] at hf
      have := congrArg List.length h3
      simp only [List.length_append] at this
      obtain ⟨t2, h4, h5⟩ := hf (by omega)
      obtain ⟨t3, h6, h7⟩ := h.getString h5
      refine ⟨t3, ?_, h7⟩
      rw [Transform.totalF, M.bind_ok h1, M.bind_ok h4, M.bind_ok h6]
      rw [← List.append_assoc, h3]; rfl

end Verif
