import Verif.Proof.Interrupt
import Verif.Proof.Hash
import Verif.Model.InterruptHash
import Verif.Spec.InterruptHash
import Verif.Spec.Safety
/-
An interrupted call on a hash object has been done, or not.
-/
namespace Verif

open Spec

theorem poll_cases (s : Sched) (t : τ) :
    (∃ s', (poll : M (Sched × τ) Unit) (s, t) = .ok () (s', t)) ∨
      ∃ e s', (poll : M (Sched × τ) Unit) (s, t) = .exn e (s', t) := by
  cases s with
  | nil => exact .inl ⟨[], rfl⟩
  | cons o s =>
    cases o with
    | none => exact .inl ⟨s, rfl⟩
    | some e => exact .inr ⟨e, s, rfl⟩

/-- What an interruptible method can do. -/
theorem interruptible_cases (m : M τ α) (s : Sched) (t : τ) :
    match interruptible m (s, t) with
    | .ok a p => m t = .ok a p.2
    | .exn e p => p.2 = t ∨ (∃ a, m t = .ok a p.2) ∨ m t = .exn e p.2
    | .ub => m t = .ub
    | .loop => m t = .loop := by
  unfold interruptible
  rw [M.bind_def]
  rcases poll_cases s t with ⟨s1, h1⟩ | ⟨e, s1, h1⟩
  · rw [h1]
    simp only
    rw [M.bind_def]
    cases hm : m t with
    | ok a t' =>
      have hz : M.zoom (fun p : Sched × τ => p.2) (fun t p => (p.1, t)) m (s1, t) = .ok a (s1, t') := by
        unfold M.zoom; rw [hm]
      rw [hz]
      simp only
      rw [M.bind_def]
      rcases poll_cases s1 t' with ⟨s2, h2⟩ | ⟨e, s2, h2⟩
      · rw [h2]; rfl
      · rw [h2]; exact .inr (.inl ⟨a, rfl⟩)
    | exn e t' =>
      have hz : M.zoom (fun p : Sched × τ => p.2) (fun t p => (p.1, t)) m (s1, t) = .exn e (s1, t') := by
        unfold M.zoom; rw [hm]
      rw [hz]
      exact .inr (.inr rfl)
    | ub =>
      have hz : M.zoom (fun p : Sched × τ => p.2) (fun t p => (p.1, t)) m (s1, t) = .ub := by
        unfold M.zoom; rw [hm]
      rw [hz]
    | loop =>
      have hz : M.zoom (fun p : Sched × τ => p.2) (fun t p => (p.1, t)) m (s1, t) = .loop := by
        unfold M.zoom; rw [hm]
      rw [hz]
  · rw [h1]
    exact .inl rfl

theorem interruptible_ok {m : M τ α} {s : Sched} {t : τ} {a : α} {p : Sched × τ}
    (h : interruptible m (s, t) = .ok a p) : m t = .ok a p.2 := by
  have := interruptible_cases m s t
  rwa [h] at this

theorem interruptible_exn {m : M τ α} {s : Sched} {t : τ} {e : Exn} {p : Sched × τ}
    (h : interruptible m (s, t) = .exn e p) :
    p.2 = t ∨ (∃ a, m t = .ok a p.2) ∨ m t = .exn e p.2 := by
  have := interruptible_cases m s t
  rwa [h] at this

/-- Calls that add data. -/
theorem interruptible_call (h : HashObj τ) (op : HOp) :
    h.interruptible.call op = interruptible (h.call op) := by
  cases op <;> rfl

theorem hmacI_call (h : HashObj τ) (B : Nat) (fresh : Nat → τ) (key : Bytes) (op : HOp) :
    (hmacI h B fresh key).call op = interruptible ((hmac h B fresh key).call op) := by
  cases op <;> rfl

theorem hmacPad_state {σ σ' : Type} (h : HashObj τ) (B : Nat) (x : τ) (key : Bytes) (byte : Byte) (s : σ)
    (s' : σ') :
    (∃ b, hmacPad h B x key byte s = .ok b s ∧ hmacPad h B x key byte s' = .ok b s') ∨
      ((∀ b q, hmacPad h B x key byte s ≠ .ok b q)) := by
  unfold hmacPad
  by_cases hk : key.length > B
  · simp only [hk, if_true, M.bind_def, M.isolate]
    cases hashString h key x with
    | ok k _ =>
      simp only
      cases xorC (.other k) 0 (List.replicate B byte) 0 k.length with
      | none => exact .inr (by intro b q hx; cases hx)
      | some b => exact .inl ⟨b, rfl, rfl⟩
    | exn e _ => exact .inr (by intro b q hx; cases hx)
    | ub => exact .inr (by intro b q hx; cases hx)
    | loop => exact .inr (by intro b q hx; cases hx)
  · simp only [hk, if_false, M.bind_def, M.pure_def]
    cases xorC (.other key) 0 (List.replicate B byte) 0 key.length with
    | none => exact .inr (by intro b q hx; cases hx)
    | some b => exact .inl ⟨b, rfl, rfl⟩

theorem isolate_state {σ σ' : Type} (x : τ) (m : M τ α) (s : σ) (s' : σ') :
    (∃ a, M.isolate x m s = .ok a s ∧ M.isolate x m s' = .ok a s') ∨
      (∀ a q, M.isolate x m s ≠ .ok a q) := by
  unfold M.isolate
  cases m x with
  | ok a _ => exact .inl ⟨a, rfl, rfl⟩
  | exn e _ => exact .inr (by intro b q hx; cases hx)
  | ub => exact .inr (by intro b q hx; cases hx)
  | loop => exact .inr (by intro b q hx; cases hx)

theorem bind_ok_inv {m : M σ α} {k : α → M σ β} {s : σ} {b : β} {q : σ} (h : (m >>= k) s = .ok b q) :
    ∃ a s', m s = .ok a s' ∧ k a s' = .ok b q := by
  rw [M.bind_def] at h
  cases hm : m s with
  | ok a s' => rw [hm] at h; exact ⟨a, s', rfl, h⟩
  | exn _ _ => rw [hm] at h; cases h
  | ub => rw [hm] at h; cases h
  | loop => rw [hm] at h; cases h

theorem hmacI_result {h : HashObj τ} {B : Nat} {fresh : Nat → τ} {key : Bytes} {s : Sched} {t : τ} {r : Bytes}
    {p : Sched × τ} (hr : (hmacI h B fresh key).result (s, t) = .ok r p) :
    (hmac h B fresh key).result t = .ok r p.2 := by
  obtain ⟨_, ⟨s1, t1⟩, h1, hr1⟩ := bind_ok_inv hr
  have e1 : t1 = t := by
    rcases poll_cases s t with ⟨s', hp⟩ | ⟨e, s', hp⟩ <;> rw [hp] at h1 <;> cases h1
    rfl
  subst e1
  obtain ⟨b, p2, h2, hr2⟩ := bind_ok_inv hr1
  rcases hmacPad_state h B (fresh 1) key 0x5c (s1, t1) t1 with ⟨b', h3, h4⟩ | h3
  · rw [h3] at h2
    cases h2
    obtain ⟨d, ⟨s3, t3⟩, h5, hr3⟩ := bind_ok_inv hr2
    have h6 := interruptible_ok h5
    obtain ⟨r', ⟨s4, t4⟩, h7, hr4⟩ := bind_ok_inv hr3
    rcases isolate_state (fresh 2) (do
        h.addSubstring b 0 b.length
        h.addString d
        let r ← h.result
        h.wipe
        pure r) (s3, t3) t3 with ⟨x, h8, h9⟩ | h8
    · rw [h8] at h7
      cases h7
      obtain ⟨_, ⟨s5, t5⟩, h10, hr5⟩ := bind_ok_inv hr4
      cases hr5
      have e5 : t5 = t3 := by
        rcases poll_cases s3 t3 with ⟨s', hp⟩ | ⟨e, s', hp⟩ <;> rw [hp] at h10 <;> cases h10
        rfl
      subst e5
      change (hmacPad h B (fresh 1) key 0x5c >>= fun _ => _ : M τ Bytes) t1 = _
      rw [M.bind_def, h4]
      simp only
      rw [M.bind_def, h6]
      exact h9
    · exact absurd h7 (h8 _ _)
  · exact absurd h2 (h3 _ _)

/-- The state after interrupted calls is that after some of them. -/
theorem attempts_calls {h : HashObj τ} {hI : HashObj (Sched × τ)}
    (hc : ∀ op, hI.call op = interruptible (h.call op)) {p p' : Sched × τ} {calls : List (HOp × Bool)}
    (ha : Attempts hI p calls p')
    (hno : ∀ ops : List HOp, (∀ op ∈ ops, op.Legal) → ∃ t, h.calls ops p.2 = .ok () t) :
    ∃ ops, (∀ op ∈ ops, op.Legal) ∧ WholeCalls calls (hinputOf ops) ∧ h.calls ops p.2 = .ok () p'.2 := by
  induction ha with
  | none => exact ⟨[], by simp, .none, rfl⟩
  | @returned p1 p2 p3 op calls hl hr _ ih =>
    obtain ⟨s, t⟩ := p1
    rw [hc] at hr
    have h1 := interruptible_ok hr
    simp only at hno ih ⊢
    obtain ⟨ops, i1, i2, i3⟩ := ih (by
      intro ops ho
      obtain ⟨t', h2⟩ := hno (op :: ops) (by
        intro x hx
        rcases List.mem_cons.1 hx with rfl | hx
        · exact hl
        · exact ho x hx)
      rw [HashObj.calls, h1] at h2
      exact ⟨t', h2⟩)
    refine ⟨op :: ops, ?_, by rw [hinputOf_cons]; exact .added i2, ?_⟩
    · intro x hx
      rcases List.mem_cons.1 hx with rfl | hx
      · exact hl
      · exact i1 x hx
    · rw [HashObj.calls, h1]
      exact i3
  | @raised p1 p2 p3 op calls e hl hr _ ih =>
    obtain ⟨s, t⟩ := p1
    rw [hc] at hr
    simp only at hno ih ⊢
    rcases interruptible_exn hr with h1 | ⟨_, h1⟩ | h1
    · rw [h1] at ih
      obtain ⟨ops, i1, i2, i3⟩ := ih hno
      exact ⟨ops, i1, .left i2, i3⟩
    · obtain ⟨ops, i1, i2, i3⟩ := ih (by
        intro ops ho
        obtain ⟨t', h2⟩ := hno (op :: ops) (by
          intro x hx
          rcases List.mem_cons.1 hx with rfl | hx
          · exact hl
          · exact ho x hx)
        rw [HashObj.calls, h1] at h2
        exact ⟨t', h2⟩)
      refine ⟨op :: ops, ?_, by rw [hinputOf_cons]; exact .added i2, ?_⟩
      · intro x hx
        rcases List.mem_cons.1 hx with rfl | hx
        · exact hl
        · exact i1 x hx
      · rw [HashObj.calls, h1]
        exact i3
    · obtain ⟨t', h2⟩ := hno [op] (by simpa using hl)
      rw [HashObj.calls, h1] at h2
      cases h2

/-- The result, if there is one, is that of whole calls. -/
theorem attempts_result {h : HashObj τ} {hI : HashObj (Sched × τ)} {f : Bytes → Bytes} {s : Sched} {t : τ}
    (hf : h.Computes t f) (hc : ∀ op, hI.call op = interruptible (h.call op))
    (hr : ∀ {s t r p}, hI.result (s, t) = .ok r p → h.result t = .ok r p.2)
    {calls : List (HOp × Bool)} {p p' : Sched × τ} {r : Bytes} (ha : Attempts hI (s, t) calls p)
    (hres : hI.result p = .ok r p') : ∃ data, WholeCalls calls data ∧ r = f data := by
  obtain ⟨ops, h1, h2, h3⟩ := attempts_calls hc ha (by
    intro ops ho
    have := hf ops ho
    unfold HashObj.digest at this
    cases hx : h.calls ops t with
    | ok _ t' => exact ⟨t', rfl⟩
    | exn e t' => rw [hx] at this; cases this
    | ub => rw [hx] at this; cases this
    | loop => rw [hx] at this; cases this)
  have := hf ops h1
  unfold HashObj.digest at this
  simp only at h3
  rw [h3] at this
  simp only at this
  rw [hr hres] at this
  refine ⟨_, h2, ?_⟩
  simp only [Out.observe, Option.some.injEq, Except.ok.injEq] at this
  exact this

theorem interruptible_nil (m : M τ α) (t : τ) :
    interruptible m ([], t)
      = match m t with
        | .ok a t' => .ok a ([], t')
        | .exn e t' => .exn e ([], t')
        | .ub => .ub
        | .loop => .loop := by
  have hp : ∀ t : τ, (poll : M (Sched × τ) Unit) ([], t) = .ok () ([], t) := fun _ => rfl
  unfold interruptible
  simp only [M.bind_def, hp, M.zoom]
  cases m t <;> simp only [hp, M.pure_def]

theorem quiet_computes {h : HashObj τ} {hI : HashObj (Sched × τ)} {t : τ} {f : Bytes → Bytes}
    (hf : h.Computes t f) (hc : ∀ op, hI.call op = interruptible (h.call op))
    (hr : ∀ {t r t'}, h.result t = .ok r t' → hI.result ([], t) = .ok r ([], t')) :
    hI.Computes ([], t) f := by
  have hcs : ∀ (ops : List HOp) (t t' : τ), h.calls ops t = .ok () t' → hI.calls ops ([], t) = .ok () ([], t') := by
    intro ops
    induction ops with
    | nil => intro t t' hx; cases hx; rfl
    | cons op ops ih =>
      intro t t' hx
      rw [HashObj.calls] at hx ⊢
      rw [hc, interruptible_nil]
      cases h1 : h.call op t with
      | ok a t1 => rw [h1] at hx; exact ih t1 t' hx
      | exn e t1 => rw [h1] at hx; cases hx
      | ub => rw [h1] at hx; cases hx
      | loop => rw [h1] at hx; cases hx
  intro ops ho
  have h1 := hf ops ho
  rw [← h1]
  unfold HashObj.digest at h1 ⊢
  cases h2 : h.calls ops t with
  | ok a t' =>
    rw [h2] at h1
    rw [hcs ops t t' h2]
    simp only at h1 ⊢
    cases h3 : h.result t' with
    | ok r t3 => rw [hr h3]; rfl
    | exn e t' => rw [h3] at h1; cases h1
    | ub => rw [h3] at h1; cases h1
    | loop => rw [h3] at h1; cases h1
  | exn e t' => rw [h2] at h1; cases h1
  | ub => rw [h2] at h1; cases h1
  | loop => rw [h2] at h1; cases h1

theorem interruptible_quiet {h : HashObj τ} {t : τ} {f : Bytes → Bytes} (hf : h.Computes t f) :
    h.interruptible.Computes ([], t) f :=
  quiet_computes hf (interruptible_call h) (by
    intro t r t' hx
    change interruptible h.result ([], t) = _
    rw [interruptible_nil, hx])

theorem hmacI_quiet {h : HashObj τ} {B : Nat} {fresh : Nat → τ} {key : Bytes} {t : τ} {f : Bytes → Bytes}
    (hf : (hmac h B fresh key).Computes t f) : (hmacI h B fresh key).Computes ([], t) f :=
  quiet_computes hf (hmacI_call h B fresh key) (by
    intro t r t' hx
    have hp : ∀ t : τ, (poll : M (Sched × τ) Unit) ([], t) = .ok () ([], t) := fun _ => rfl
    obtain ⟨b, t1, h1, hx1⟩ := bind_ok_inv hx
    obtain ⟨d, t2, h2, hx2⟩ := bind_ok_inv hx1
    rcases hmacPad_state h B (fresh 1) key 0x5c t (([], t) : Sched × τ) with ⟨b', h3, h4⟩ | h3
    · rw [h3] at h1
      cases h1
      rcases isolate_state (fresh 2) (do
          h.addSubstring b 0 b.length
          h.addString d
          let r ← h.result
          h.wipe
          pure r) t2 (([], t2) : Sched × τ) with ⟨x, h5, h6⟩ | h5
      · have h7 := h5.symm.trans hx2
        cases h7
        change (poll >>= fun _ => _ : M (Sched × τ) Bytes) ([], t) = _
        rw [M.bind_def, hp]
        simp only
        rw [M.bind_def, h4]
        simp only
        rw [M.bind_def, interruptible_nil, h2]
        simp only
        rw [M.bind_def, h6]
        rfl
      · exact absurd hx2 (h5 _ _)
    · exact absurd h1 (h3 _ _))

theorem invokeH_interruptible (h : HashObj τ) (c : HCall) :
    invokeH h.interruptible c = interruptible (invokeH h c) := by
  cases c with
  | result =>
    funext p
    obtain ⟨s, t⟩ := p
    change (interruptible h.result >>= fun _ => pure ()) (s, t)
      = interruptible (h.result >>= fun _ => pure ()) (s, t)
    unfold interruptible
    simp only [M.bind_def]
    rcases poll_cases s t with ⟨s1, h1⟩ | ⟨e, s1, h1⟩
    · rw [h1]
      simp only [M.zoom]
      cases hm : h.result t with
      | ok a t' =>
        have hb : (h.result >>= fun _ => pure () : M τ Unit) t = .ok () t' := by rw [M.bind_def, hm]; rfl
        rw [hb]
        simp only
        rcases poll_cases s1 t' with ⟨s2, h2⟩ | ⟨e, s2, h2⟩ <;> simp only [M.pure_def, h2]
      | exn e t' =>
        have hb : (h.result >>= fun _ => pure () : M τ Unit) t = .exn e t' := by rw [M.bind_def, hm]
        rw [hb]
      | ub =>
        have hb : (h.result >>= fun _ => pure () : M τ Unit) t = .ub := by rw [M.bind_def, hm]
        rw [hb]
      | loop =>
        have hb : (h.result >>= fun _ => pure () : M τ Unit) t = .loop := by rw [M.bind_def, hm]
        rw [hb]
    · rw [h1]
  | _ => rfl

/-- What an interrupted method does to an object, next to the method that is not interrupted. -/
def FollowsI (m : M τ α) (mI : M (Sched × τ) α) : Prop :=
  ∀ s t, match mI (s, t) with
    | .ok a p => m t = .ok a p.2
    | .exn _ p => p.2 = t ∨ (∃ a, m t = .ok a p.2) ∨ (∃ e, m t = .exn e p.2) ∨ m t = .ub ∨ m t = .loop
    | .ub => m t = .ub
    | .loop => m t = .loop

theorem FollowsI.interruptible (m : M τ α) : FollowsI m (interruptible m) := by
  intro s t
  have h := interruptible_cases m s t
  cases hx : Verif.interruptible m (s, t) with
  | ok a p => rw [hx] at h; exact h
  | exn e p =>
    rw [hx] at h
    rcases h with h | h | h
    · exact .inl h
    · exact .inr (.inl h)
    · exact .inr (.inr (.inl ⟨e, h⟩))
  | ub => rw [hx] at h; exact h
  | loop => rw [hx] at h; exact h

theorem FollowsI.safe {h : HashObj τ} {hI : HashObj (Sched × τ)} (hf : ∀ c, FollowsI (invokeH h c) (invokeH hI c))
    {allowed : HCall → Prop} {t : τ} (hs : MemorySafe (invokeH h) allowed t) (s : Sched) :
    MemorySafe (invokeH hI) allowed (s, t) := by
  have hreach : ∀ p, Reachable (invokeH hI) allowed (s, t) p → Reachable (invokeH h) allowed t p.2 := by
    intro p hp
    induction hp with
    | start => exact .start
    | @returned p p' c _ ha hr ih =>
      obtain ⟨s1, t1⟩ := p
      have h1 := hf c s1 t1
      rw [hr] at h1
      exact .returned ih ha h1
    | @raised p p' c e _ ha hr ih =>
      obtain ⟨s1, t1⟩ := p
      have h1 := hf c s1 t1
      have hq := hs _ ih c ha
      rw [hr] at h1
      rcases h1 with h1 | ⟨_, h1⟩ | ⟨e', h1⟩ | h1 | h1
      · rw [h1]; exact ih
      · exact .returned ih ha h1
      · exact .raised ih ha h1
      · simp only at hq
        rw [h1] at hq
        rcases hq with ⟨_, hq⟩ | ⟨_, _, hq⟩ <;> cases hq
      · simp only at hq
        rw [h1] at hq
        rcases hq with ⟨_, hq⟩ | ⟨_, _, hq⟩ <;> cases hq
  intro p hp c ha
  have hq := hs _ (hreach p hp) c ha
  obtain ⟨s1, t1⟩ := p
  have hcs := hf c s1 t1
  cases hx : invokeH hI c (s1, t1) with
  | ok u p' => exact .inl ⟨p', rfl⟩
  | exn e p' => exact .inr ⟨e, p', rfl⟩
  | ub =>
    rw [hx] at hcs
    simp only at hcs hq
    rw [hcs] at hq
    rcases hq with ⟨_, hq⟩ | ⟨_, _, hq⟩ <;> cases hq
  | loop =>
    rw [hx] at hcs
    simp only at hcs hq
    rw [hcs] at hq
    rcases hq with ⟨_, hq⟩ | ⟨_, _, hq⟩ <;> cases hq

/-- An interruptible object is as safe as the other one. -/
theorem interruptible_safe {h : HashObj τ} {allowed : HCall → Prop} {t : τ}
    (hs : MemorySafe (invokeH h) allowed t) (s : Sched) :
    MemorySafe (invokeH h.interruptible) allowed (s, t) :=
  FollowsI.safe (fun c => by rw [invokeH_interruptible]; exact .interruptible _) hs s

theorem FollowsI.discard {m : M τ α} {mI : M (Sched × τ) α} (h : FollowsI m mI) :
    FollowsI (m >>= fun _ => pure () : M τ Unit) (mI >>= fun _ => pure ()) := by
  intro s t
  have h1 := h s t
  rw [M.bind_def, M.bind_def]
  cases hx : mI (s, t) with
  | ok a p => rw [hx] at h1; simp only at h1; rw [h1]; rfl
  | exn e p =>
    rw [hx] at h1
    rcases h1 with h1 | ⟨_, h1⟩ | ⟨e', h1⟩ | h1 | h1
    · exact .inl h1
    · rw [h1]; exact .inr (.inl ⟨(), rfl⟩)
    · rw [h1]; exact .inr (.inr (.inl ⟨e', rfl⟩))
    · rw [h1]; exact .inr (.inr (.inr (.inl rfl)))
    · rw [h1]; exact .inr (.inr (.inr (.inr rfl)))
  | ub => rw [hx] at h1; simp only at h1; rw [h1]
  | loop => rw [hx] at h1; simp only at h1; rw [h1]

/-- Outcomes, from two states, of a computation that neither reads nor changes the state. -/
def SameOutI (o : Out σ α) (s : σ) (o' : Out σ' α) (s' : σ') : Prop :=
  (∃ b, o = .ok b s ∧ o' = .ok b s') ∨ (∃ e, o = .exn e s ∧ o' = .exn e s') ∨ (o = .ub ∧ o' = .ub) ∨
    (o = .loop ∧ o' = .loop)

theorem isolate_same {σ σ' : Type} (x : τ) (m : M τ α) (s : σ) (s' : σ') :
    SameOutI (M.isolate x m s) s (M.isolate x m s') s' := by
  unfold M.isolate
  cases m x with
  | ok a _ => exact .inl ⟨a, rfl, rfl⟩
  | exn e _ => exact .inr (.inl ⟨e, rfl, rfl⟩)
  | ub => exact .inr (.inr (.inl ⟨rfl, rfl⟩))
  | loop => exact .inr (.inr (.inr ⟨rfl, rfl⟩))

theorem hmacPad_same {σ σ' : Type} (h : HashObj τ) (B : Nat) (x : τ) (key : Bytes) (byte : Byte) (s : σ)
    (s' : σ') : SameOutI (hmacPad h B x key byte s) s (hmacPad h B x key byte s') s' := by
  unfold hmacPad
  by_cases hk : key.length > B
  · simp only [hk, if_true, M.bind_def, M.isolate]
    cases hashString h key x with
    | ok k _ =>
      simp only
      cases xorC (.other k) 0 (List.replicate B byte) 0 k.length with
      | none => exact .inr (.inr (.inl ⟨rfl, rfl⟩))
      | some b => exact .inl ⟨b, rfl, rfl⟩
    | exn e _ => exact .inr (.inl ⟨e, rfl, rfl⟩)
    | ub => exact .inr (.inr (.inl ⟨rfl, rfl⟩))
    | loop => exact .inr (.inr (.inr ⟨rfl, rfl⟩))
  · simp only [hk, if_false, M.bind_def, M.pure_def]
    cases xorC (.other key) 0 (List.replicate B byte) 0 key.length with
    | none => exact .inr (.inr (.inl ⟨rfl, rfl⟩))
    | some b => exact .inl ⟨b, rfl, rfl⟩

/-- The shape of `result` in class `hmac`. -/
theorem FollowsI.hmacShape {pad : ∀ {σ : Type}, M σ Bytes} {res : M τ Bytes}
    {outer : ∀ {σ : Type}, Bytes → Bytes → M σ Bytes}
    (hp : ∀ {σ σ' : Type} (s : σ) (s' : σ'), SameOutI (pad s) s (pad s') s')
    (ho : ∀ {σ σ' : Type} (b r : Bytes) (s : σ) (s' : σ'), SameOutI (outer b r s) s (outer b r s') s') :
    FollowsI (do let b ← pad; let r ← res; outer b r)
      (do poll; let b ← pad; let r ← Verif.interruptible res; let r ← outer b r; poll; pure r) := by
  intro s t
  rw [M.bind_def]
  rcases poll_cases s t with ⟨s1, h1⟩ | ⟨e, s1, h1⟩
  · rw [h1]
    simp only
    rw [M.bind_def, M.bind_def]
    rcases hp (s1, t) t with ⟨b, h2, h3⟩ | ⟨e, h2, h3⟩ | ⟨h2, h3⟩ | ⟨h2, h3⟩
    · rw [h2, h3]
      simp only
      rw [M.bind_def, M.bind_def]
      have h4 := interruptible_cases res s1 t
      cases hx : Verif.interruptible res (s1, t) with
      | ok r p =>
        rw [hx] at h4
        simp only at h4 ⊢
        rw [h4]
        simp only
        rw [M.bind_def]
        obtain ⟨s2, t2⟩ := p
        rcases ho b r (s2, t2) t2 with ⟨r', h5, h6⟩ | ⟨e, h5, h6⟩ | ⟨h5, h6⟩ | ⟨h5, h6⟩
        · rw [h5]
          simp only
          rw [M.bind_def]
          rcases poll_cases s2 t2 with ⟨s3, h7⟩ | ⟨e, s3, h7⟩
          · rw [h7]; exact h6
          · rw [h7]; exact .inr (.inl ⟨r', h6⟩)
        · rw [h5]; exact .inr (.inr (.inl ⟨e, h6⟩))
        · rw [h5]; exact h6
        · rw [h5]; exact h6
      | exn e p =>
        rw [hx] at h4
        rcases h4 with h4 | ⟨r, h4⟩ | h4
        · exact .inl h4
        · rw [h4]
          simp only
          rcases ho b r p.2 p.2 with ⟨r', h5, _⟩ | ⟨e, h5, _⟩ | ⟨h5, _⟩ | ⟨h5, _⟩
          · exact .inr (.inl ⟨r', h5⟩)
          · exact .inr (.inr (.inl ⟨e, h5⟩))
          · exact .inr (.inr (.inr (.inl h5)))
          · exact .inr (.inr (.inr (.inr h5)))
        · rw [h4]
          exact .inr (.inr (.inl ⟨e, rfl⟩))
      | ub => rw [hx] at h4; simp only at h4 ⊢; rw [h4]
      | loop => rw [hx] at h4; simp only at h4 ⊢; rw [h4]
    · rw [h2, h3]; exact .inl rfl
    · rw [h2, h3]
    · rw [h2, h3]
  · rw [h1]
    exact .inl rfl

/-- An interruptible HMAC object is as safe as the other one. -/
theorem hmacI_safe {h : HashObj τ} {B : Nat} {fresh : Nat → τ} {key : Bytes} {allowed : HCall → Prop} {t : τ}
    (hs : MemorySafe (invokeH (hmac h B fresh key)) allowed t) (s : Sched) :
    MemorySafe (invokeH (hmacI h B fresh key)) allowed (s, t) := by
  refine FollowsI.safe (fun c => ?_) hs s
  cases c with
  | result =>
    exact FollowsI.discard (FollowsI.hmacShape (pad := fun {σ} => hmacPad h B (fresh 1) key 0x5c)
      (outer := fun {σ} b r => M.isolate (fresh 2) do
        h.addSubstring b 0 b.length
        h.addString r
        let r ← h.result
        h.wipe
        pure r) (fun s s' => hmacPad_same h B _ key _ s s') (fun b r s s' => isolate_same _ _ s s'))
  | addSubstring src ofs len => exact .interruptible (h.addSubstring src ofs len)
  | addString x => exact .interruptible (h.addString x)
  | addChar x => exact .interruptible (h.addChar x)
  | addByte x => exact .interruptible (h.addByte x)
  | wipe => exact .interruptible h.wipe

end Verif
