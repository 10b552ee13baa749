import Verif.Model.Combinators
import Verif.Spec.Combinators
import Verif.Proof.Bytes
/-
Simulation of combinators by the histories that they make on the objects combined.
-/
namespace Verif

open Spec

variable {σ σ' α α' β β' τ τ1 τ2 η : Type}

/-- The same outcome up to a relation of results and final states. -/
def Out.Sim (R : α → σ → α' → σ' → Prop) : Out σ α → Out σ' α' → Prop
  | .ok a s, .ok a' s' => R a s a' s'
  | .exn e _, .exn e' _ => e = e'
  | .ub, .ub => True
  | .loop, .loop => True
  | _, _ => False

theorem Out.Sim.bind {R : α → σ → α' → σ' → Prop} {R' : β → σ → β' → σ' → Prop} {m : M σ α}
    {m' : M σ' α'} {f : α → M σ β} {f' : α' → M σ' β'} {s : σ} {s' : σ'}
    (h : Out.Sim R (m s) (m' s'))
    (hf : ∀ a s a' s', R a s a' s' → Out.Sim R' (f a s) (f' a' s')) :
    Out.Sim R' ((m >>= f) s) ((m' >>= f') s') := by
  rw [M.bind_def, M.bind_def]
  cases hm : m s <;> cases hm' : m' s' <;> rw [hm, hm'] at h <;> simp only [Out.Sim] at h ⊢
  · exact hf _ _ _ _ h
  · exact h

theorem Out.Sim.mono {R R' : α → σ → α' → σ' → Prop} {o : Out σ α} {o' : Out σ' α'}
    (h : Out.Sim R o o') (hR : ∀ a s a' s', R a s a' s' → R' a s a' s') : Out.Sim R' o o' := by
  cases o <;> cases o' <;> simp only [Out.Sim] at h ⊢
  · exact hR _ _ _ _ h
  · exact h

theorem Out.Sim.observe {R : α → σ → α → σ' → Prop} {o : Out σ α} {o' : Out σ' α}
    (h : Out.Sim R o o') (hR : ∀ a s a' s', R a s a' s' → a = a') : o.observe = o'.observe := by
  cases o <;> cases o' <;> simp only [Out.Sim, Out.observe] at h ⊢
  · rw [hR _ _ _ _ h]
  · rw [h]

theorem M.bind_eq_ok {m : M σ α} {f : α → M σ β} {s : σ} {b : β} {s' : σ}
    (h : (m >>= f) s = .ok b s') : ∃ a s1, m s = .ok a s1 ∧ f a s1 = .ok b s' := by
  rw [M.bind_def] at h
  cases hm : m s <;> rw [hm] at h
  · exact ⟨_, _, rfl, h⟩
  all_goals cases h

theorem M.bind_assoc {γ : Type} (m : M σ α) (f : α → M σ β) (g : β → M σ γ) :
    ((m >>= f) >>= g) = (m >>= fun a => f a >>= g) := by
  funext s
  simp only [M.bind_def]
  cases m s <;> rfl

theorem M.pure_bind (a : α) (f : α → M σ β) : ((pure a : M σ α) >>= f) = f a := rfl

theorem M.onFst_ok {m : M σ α} {s s1 : σ} {a : α} (h : m s = .ok a s1) (r : σ') :
    M.onFst m (s, r) = .ok a (s1, r) := by simp [M.onFst, M.zoom, h]

theorem M.onSnd_ok {m : M σ α} {s s1 : σ} {a : α} (h : m s = .ok a s1) (r : σ') :
    M.onSnd m (r, s) = .ok a (r, s1) := by simp [M.onSnd, M.zoom, h]

theorem M.onSnd_sim (m : M σ α) (s : σ) (r : σ') :
    Out.Sim (fun a p a' s' => a = a' ∧ p = (r, s')) (M.onSnd m (r, s)) (m s) := by
  simp only [M.onSnd, M.zoom]
  cases m s <;> simp [Out.Sim]

theorem M.onFst_sim (m : M σ α) (s : σ) (r : σ') :
    Out.Sim (fun a p a' s' => a = a' ∧ p = (s', r)) (M.onFst m (s, r)) (m s) := by
  simp only [M.onFst, M.zoom]
  cases m s <;> simp [Out.Sim]

theorem bytesSub_some {b x : Bytes} {o l : Int} (h : bytesSub b o l = some x) :
    InRange b o l ∧ x = slice b o.toNat l.toNat := by
  unfold bytesSub at h
  split at h
  · cases h; exact ⟨by assumption, rfl⟩
  · cases h

/-- Calls that put data. -/
def TOp.isPut : TOp → Bool
  | .putSubstring .. | .putString _ | .putChar _ | .putByte _ => true
  | _ => false

/-- The calls made on the first transform. -/
def liftOps (ops : List TOp) : List TOp :=
  ops.flatMap fun op => if op.isPut then [op, .getSubstring] else []

theorem liftOps_legal {ops : List TOp} (h : ∀ op ∈ ops, op.Proper) : ∀ op ∈ liftOps ops, op.Proper := by
  intro op ho
  simp only [liftOps, List.mem_flatMap] at ho
  obtain ⟨o, h1, h2⟩ := ho
  split at h2
  · simp only [List.mem_cons, List.not_mem_nil, or_false] at h2
    rcases h2 with rfl | rfl
    · exact h _ h1
    · exact ⟨trivial, trivial⟩
  · cases h2

theorem liftOps_input (ops : List TOp) : inputOf (liftOps ops) = inputOf ops := by
  induction ops with
  | nil => rfl
  | cons op ops ih =>
    have h : inputOf (liftOps (op :: ops)) = op.input ++ inputOf (liftOps ops) := by
      simp only [liftOps, List.flatMap_cons, inputOf, List.map_append, List.flatten_append]
      congr 1
      cases op <;> simp [TOp.isPut, TOp.input]
    rw [h, ih]
    simp [inputOf]

theorem inputOf_cons (op : TOp) (ops : List TOp) : inputOf (op :: ops) = op.input ++ inputOf ops := by
  simp [inputOf]

theorem Transform.calls_append (T : Transform τ) (a b : List TOp) (t : τ) :
    T.calls (a ++ b) t = (do
      let x ← T.calls a
      let y ← T.calls b
      pure (x ++ y) : M τ Bytes) t := by
  induction a generalizing t with
  | nil =>
    rw [List.nil_append, Transform.calls, M.bind_ok (M.pure_def _ _), M.bind_def]
    cases T.calls b t <;> rfl
  | cons op a ih =>
    simp only [List.cons_append, Transform.calls, M.bind_def]
    cases T.call op t with
    | ok x t1 =>
      simp only [ih, M.bind_def]
      cases T.calls a t1 with
      | ok y t2 =>
        simp only [M.pure_def]
        cases T.calls b t2 <;> simp
      | exn e t2 => rfl
      | ub => rfl
      | loop => rfl
    | exn e t1 => rfl
    | ub => rfl
    | loop => rfl

/-- The two kinds of calls on the composition. -/
theorem compose_call_cases (T1 : Transform τ1) (T2 : Transform τ2) (op : TOp) :
    (op.isPut = true ∧ ∃ m : M τ1 Unit, T1.call op = (do m; pure [])
      ∧ (compose T1 T2).call op = (do (do M.onFst m; composeTransfer T1 T2); pure []))
    ∨ (op.isPut = false ∧ (compose T1 T2).call op = M.onSnd (T2.call op)) := by
  cases op with
  | putSubstring b o l => exact .inl ⟨rfl, _, rfl, rfl⟩
  | putString s => exact .inl ⟨rfl, _, rfl, rfl⟩
  | putChar c => exact .inl ⟨rfl, _, rfl, rfl⟩
  | putByte b => exact .inl ⟨rfl, _, rfl, rfl⟩
  | getString => exact .inr ⟨rfl, rfl⟩
  | getSubstring =>
    refine .inr ⟨rfl, funext fun p => ?_⟩
    simp only [Transform.call, compose, M.onSnd, M.zoom, M.bind_def]
    cases T2.getSubstring p.2 with
    | ok a s =>
      simp only
      cases bytesSub a.1 a.2.1 a.2.2 <;> rfl
    | exn e s => rfl
    | ub => rfl
    | loop => rfl
  | getChar =>
    refine .inr ⟨rfl, funext fun p => ?_⟩
    simp only [Transform.call, compose, M.onSnd, M.zoom]
    cases T2.getChar p.2 with
    | exn e s => cases e <;> rfl
    | _ => rfl
  | getByte =>
    refine .inr ⟨rfl, funext fun p => ?_⟩
    simp only [Transform.call, compose, M.onSnd, M.zoom]
    cases T2.getByte p.2 with
    | exn e s => cases e <;> rfl
    | _ => rfl
  | available =>
    refine .inr ⟨rfl, funext fun p => ?_⟩
    simp only [Transform.call, compose, M.onSnd, M.zoom, M.bind_def]
    cases T2.availableOutput p.2 <;> rfl

/-- What reading with `get_substring` shows. -/
theorem call_getSubstring {T : Transform τ} {t t' : τ} {y : Bytes}
    (h : T.call .getSubstring t = .ok y t') :
    ∃ b o l, T.getSubstring t = .ok (b, o, l) t' ∧ InRange b o l
      ∧ y = slice b o.toNat l.toNat := by
  obtain ⟨⟨b, o, l⟩, t1, h1, h2⟩ := M.bind_eq_ok h
  simp only at h2
  cases hb : bytesSub b o l with
  | none => rw [hb] at h2; cases h2
  | some x =>
    rw [hb, M.orRaise_some] at h2
    cases h2
    exact ⟨b, o, l, h1, bytesSub_some hb⟩

/-- The composition on a history: as the second transform on what the first outputs. -/
theorem compose_calls (T1 : Transform τ1) (T2 : Transform τ2) (ops : List TOp)
    (hl : ∀ op ∈ ops, op.Proper) {t1 t1' : τ1} {x : Bytes}
    (h : T1.calls (liftOps ops) t1 = .ok x t1') :
    ∃ ops2 : List TOp, (∀ op ∈ ops2, op.Proper) ∧ inputOf ops2 = x ∧ ∀ t2,
      Out.Sim (fun a p a' t => a = a' ∧ p = (t1', t)) ((compose T1 T2).calls ops (t1, t2))
        (T2.calls ops2 t2) := by
  induction ops generalizing t1 x with
  | nil =>
    cases h
    exact ⟨[], by simp, rfl, fun t2 => ⟨rfl, rfl⟩⟩
  | cons op ops ih =>
    have hop := hl op (by simp)
    have hl' : ∀ op ∈ ops, op.Proper := fun o ho => hl o (by simp [ho])
    rcases compose_call_cases T1 T2 op with ⟨hp, m, hm1, hm2⟩ | ⟨hp, hm⟩
    · have hlift : liftOps (op :: ops) = op :: .getSubstring :: liftOps ops := by
        simp [liftOps, hp]
      rw [hlift] at h
      obtain ⟨x1, ta, h1, h⟩ := M.bind_eq_ok h
      obtain ⟨xr, tb, h2, h⟩ := M.bind_eq_ok h
      cases h
      obtain ⟨x2, tc, h3, h4⟩ := M.bind_eq_ok h2
      obtain ⟨xs, td, h5, h6⟩ := M.bind_eq_ok h4
      cases h6
      rw [hm1] at h1
      obtain ⟨_, te, h7, h8⟩ := M.bind_eq_ok h1
      cases h8
      obtain ⟨b, o, l, h9, h10, rfl⟩ := call_getSubstring h3
      obtain ⟨ops2, i1, i2, i3⟩ := ih hl' h5
      refine ⟨.putSubstring b o l :: ops2, ?_, ?_, fun t2 => ?_⟩
      · intro o ho
        rcases List.mem_cons.1 ho with rfl | ho
        · exact ⟨h10, trivial⟩
        · exact i1 _ ho
      · rw [inputOf_cons, i2]; rfl
      · simp only [Transform.calls]
        refine Out.Sim.bind (R := fun a p a' t => a = a' ∧ p = (tc, t)) ?_ ?_
        · rw [hm2]
          have : (do (do M.onFst m; composeTransfer T1 T2); pure [] : M (τ1 × τ2) Bytes) (t1, t2)
              = (do M.onSnd (T2.putSubstring b o l); pure [] : M (τ1 × τ2) Bytes) (tc, t2) := by
            rw [M.bind_def, M.bind_ok (M.onFst_ok h7 t2), composeTransfer,
              M.bind_ok (M.onFst_ok h9 t2), M.bind_def]
          rw [this]
          refine Out.Sim.bind (M.onSnd_sim _ _ _) ?_
          rintro _ _ _ _ ⟨_, rfl⟩
          exact ⟨rfl, rfl⟩
        · rintro a p a' t ⟨rfl, rfl⟩
          refine Out.Sim.bind (i3 t) ?_
          rintro _ _ _ _ ⟨rfl, rfl⟩
          exact ⟨rfl, rfl⟩
    · have hlift : liftOps (op :: ops) = liftOps ops := by simp [liftOps, hp]
      rw [hlift] at h
      obtain ⟨ops2, i1, i2, i3⟩ := ih hl' h
      refine ⟨op :: ops2, ?_, ?_, fun t2 => ?_⟩
      · intro o ho
        rcases List.mem_cons.1 ho with rfl | ho
        · exact hop
        · exact i1 _ ho
      · rw [inputOf_cons, i2]
        cases op <;> simp_all [TOp.isPut, TOp.input]
      · simp only [Transform.calls]
        refine Out.Sim.bind (R := fun a p a' t => a = a' ∧ p = (t1, t)) ?_ ?_
        · rw [hm]; exact M.onSnd_sim _ _ _
        · rintro a p a' t ⟨rfl, rfl⟩
          refine Out.Sim.bind (i3 t) ?_
          rintro _ _ _ _ ⟨rfl, rfl⟩
          exact ⟨rfl, rfl⟩

/-- The history made on the first transform. -/
def liftParts (ps : List Part) : List Part := ps.map fun p => ⟨liftOps p.ops, true⟩

theorem liftParts_data (ps : List Part) : (liftParts ps).map Part.data = ps.map Part.data := by
  simp only [liftParts, List.map_map]
  apply List.map_congr_left
  intro p _
  exact liftOps_input p.ops

theorem runParts_length (T : Transform τ) (ps : List Part) {t t' : τ} {xs : List Bytes}
    (h : runParts T ps t = .ok xs t') : xs.length = ps.length := by
  induction ps generalizing t xs with
  | nil => cases h; rfl
  | cons p ps ih =>
    rw [runParts] at h
    obtain ⟨x, ta, h1, h⟩ := M.bind_eq_ok h
    obtain ⟨_, tb, h2, h⟩ := M.bind_eq_ok h
    obtain ⟨y, tc, h3, h⟩ := M.bind_eq_ok h
    obtain ⟨ys, td, h4, h⟩ := M.bind_eq_ok h
    cases h
    simp [ih h4]

theorem compose_parts (T1 : Transform τ1) (T2 : Transform τ2) (ps : List Part)
    (hl : ∀ p ∈ ps, p.Legal) {t1 t1' : τ1} {xs : List Bytes}
    (h : runParts T1 (liftParts ps) t1 = .ok xs t1') :
    ∃ ps2 : List Part, (∀ p ∈ ps2, p.Legal) ∧ ps2.map Part.data = xs ∧ ∀ t2,
      Out.Sim (fun a p a' t => a = a' ∧ p = (t1', t)) (runParts (compose T1 T2) ps (t1, t2))
        (runParts T2 ps2 t2) := by
  induction ps generalizing t1 xs with
  | nil =>
    cases h
    exact ⟨[], by simp, rfl, fun t2 => ⟨rfl, rfl⟩⟩
  | cons p ps ih =>
    have hp : ∀ op ∈ p.ops, op.Proper := hl p (by simp)
    have hl' : ∀ p ∈ ps, p.Legal := fun o ho => hl o (by simp [ho])
    have hlift : liftParts (p :: ps) = ⟨liftOps p.ops, true⟩ :: liftParts ps := rfl
    rw [hlift, runParts] at h
    obtain ⟨x, ta, h1, h⟩ := M.bind_eq_ok h
    have hE : (liftParts ps).isEmpty = ps.isEmpty := by simp [liftParts]
    rw [hE] at h
    obtain ⟨_, tb, h2, h⟩ := M.bind_eq_ok h
    obtain ⟨y, tc, h3, h⟩ := M.bind_eq_ok h
    obtain ⟨ys, td, h4, h⟩ := M.bind_eq_ok h
    cases h
    rw [if_pos rfl] at h3
    obtain ⟨b, o, l, h5, h6, rfl⟩ := call_getSubstring h3
    obtain ⟨ops2, c1, c2, c3⟩ := compose_calls T1 T2 p.ops hp h1
    obtain ⟨ps2, i1, i2, i3⟩ := ih hl' h4
    have hlen : ps2.isEmpty = ps.isEmpty := by
      have e1 := runParts_length _ _ h4
      rw [← i2] at e1
      simp only [liftParts, List.length_map] at e1
      cases ps <;> cases ps2 <;> simp_all
    refine ⟨⟨ops2 ++ [.putSubstring b o l], p.sub⟩ :: ps2, ?_, ?_, fun t2 => ?_⟩
    · intro q hq
      rcases List.mem_cons.1 hq with rfl | hq
      · intro op ho
        rcases List.mem_append.1 ho with ho | ho
        · exact c1 _ ho
        · simp only [List.mem_singleton] at ho; subst ho; exact ⟨h6, trivial⟩
      · exact i1 _ hq
    · simp only [List.map_cons, i2, Part.data]
      congr 1
      simp only [inputOf, List.map_append, List.flatten_append] at c2 ⊢
      rw [c2]; simp [TOp.input]
    · simp only [runParts]
      rw [hlen]
      have hE2 : ∀ last : Bool, endPart (compose T1 T2) last
          = (do M.onFst (endPart T1 last); composeTransfer T1 T2; M.onSnd (endPart T2 last)) := by
        intro last; cases last <;> rfl
      rw [hE2]
      have hcalls : T2.calls (ops2 ++ [.putSubstring b o l])
          = (do let x ← T2.calls ops2; T2.putSubstring b o l; pure x : M τ2 Bytes) := by
        funext t
        rw [Transform.calls_append, M.bind_def, M.bind_def]
        cases T2.calls ops2 t with
        | ok x t' =>
          simp only [Transform.calls, Transform.call, M.bind_def, M.pure_def]
          cases T2.putSubstring b o l t' <;> simp
        | exn e t' => rfl
        | ub => rfl
        | loop => rfl
      rw [hcalls]
      simp only [M.bind_assoc]
      refine Out.Sim.bind (c3 t2) ?_
      rintro x _ _ ta2 ⟨rfl, rfl⟩
      rw [M.bind_ok (M.onFst_ok h2 ta2), composeTransfer]
      simp only [M.bind_assoc]
      rw [M.bind_ok (M.onFst_ok h5 ta2)]
      refine Out.Sim.bind (M.onSnd_sim _ _ _) ?_
      rintro _ _ _ tb2 ⟨_, rfl⟩
      change Out.Sim _ _ ((endPart T2 ps.isEmpty >>= _) tb2)
      refine Out.Sim.bind (M.onSnd_sim _ _ _) ?_
      rintro _ _ _ tc2 ⟨_, rfl⟩
      have hget : ∀ op : TOp, op.isPut = false → (compose T1 T2).call op = M.onSnd (T2.call op) := by
        intro op ho
        rcases compose_call_cases T1 T2 op with ⟨hp', _⟩ | ⟨_, hm⟩
        · rw [ho] at hp'; cases hp'
        · exact hm
      rw [hget _ (by split <;> rfl)]
      refine Out.Sim.bind (M.onSnd_sim _ _ _) ?_
      rintro _ _ _ td2 ⟨rfl, rfl⟩
      refine Out.Sim.bind (i3 td2) ?_
      rintro _ _ _ _ ⟨rfl, rfl⟩
      exact ⟨rfl, rfl⟩

/-- Where the composition returns, so does the first transform, unless it hands out an invalid
range. -/
theorem compose_calls_rev (T1 : Transform τ1) (T2 : Transform τ2) (ops : List TOp)
    {t1 t1' : τ1} {t2 t2' : τ2} {y : Bytes}
    (h : (compose T1 T2).calls ops (t1, t2) = .ok y (t1', t2')) :
    (∃ x, T1.calls (liftOps ops) t1 = .ok x t1')
      ∨ ∃ t, T1.calls (liftOps ops) t1 = .exn .invalidArg t := by
  induction ops generalizing t1 t2 y with
  | nil => cases h; exact .inl ⟨_, rfl⟩
  | cons op ops ih =>
    rw [Transform.calls] at h
    obtain ⟨y1, ⟨ta, tb⟩, h1, h⟩ := M.bind_eq_ok h
    obtain ⟨ys, ⟨tc, td⟩, h2, h⟩ := M.bind_eq_ok h
    cases h
    rcases compose_call_cases T1 T2 op with ⟨hp, m, hm1, hm2⟩ | ⟨hp, hm⟩
    · have hlift : liftOps (op :: ops) = op :: .getSubstring :: liftOps ops := by
        simp [liftOps, hp]
      rw [hlift, Transform.calls, Transform.calls]
      rw [hm2, M.bind_assoc] at h1
      obtain ⟨_, ⟨te, tf⟩, h3, h1⟩ := M.bind_eq_ok h1
      rw [composeTransfer, M.bind_assoc] at h1
      obtain ⟨⟨b, o, l⟩, ⟨tg, th⟩, h4, h1⟩ := M.bind_eq_ok h1
      obtain ⟨_, ⟨ti, tj⟩, h5, h1⟩ := M.bind_eq_ok h1
      cases h1
      have e3 : m t1 = .ok () te := by
        simp only [M.onFst, M.zoom] at h3
        cases hh : m t1 <;> rw [hh] at h3 <;> cases h3
        rfl
      have e4 : T1.getSubstring te = .ok (b, o, l) tg := by
        simp only [M.onFst, M.zoom] at h4
        cases hh : T1.getSubstring te <;> rw [hh] at h4 <;> cases h4
        rfl
      have e5 : ta = tg := by
        simp only [M.onSnd, M.zoom] at h5
        cases hh : T2.putSubstring b o l th <;> rw [hh] at h5 <;> cases h5
        rfl
      subst e5
      have c1 : T1.call op t1 = .ok [] te := by rw [hm1, M.bind_ok e3]; rfl
      rw [M.bind_ok c1]
      have c2 : T1.call .getSubstring te = (M.orRaise .invalidArg (bytesSub b o l)) ta := by
        rw [Transform.call, M.bind_ok e4]
      cases hb : bytesSub b o l with
      | none =>
        rw [hb, M.orRaise_none] at c2
        rw [M.bind_assoc, M.bind_exn c2]
        exact .inr ⟨_, rfl⟩
      | some z =>
        rw [hb, M.orRaise_some] at c2
        rw [M.bind_assoc, M.bind_ok c2]
        simp only [M.bind_assoc]
        rcases ih h2 with ⟨x, hx⟩ | ⟨t, hx⟩
        · rw [M.bind_ok hx]; exact .inl ⟨_, rfl⟩
        · rw [M.bind_exn hx]; exact .inr ⟨_, rfl⟩
    · have hlift : liftOps (op :: ops) = liftOps ops := by simp [liftOps, hp]
      rw [hlift]
      have : ta = t1 := by
        rw [hm] at h1
        simp only [M.onSnd, M.zoom] at h1
        cases hh : T2.call op t2 <;> rw [hh] at h1 <;> cases h1
        rfl
      subst this
      exact ih h2

theorem compose_parts_rev (T1 : Transform τ1) (T2 : Transform τ2) (ps : List Part)
    {t1 t1' : τ1} {t2 t2' : τ2} {y : List Bytes}
    (h : runParts (compose T1 T2) ps (t1, t2) = .ok y (t1', t2')) :
    (∃ x, runParts T1 (liftParts ps) t1 = .ok x t1')
      ∨ ∃ t, runParts T1 (liftParts ps) t1 = .exn .invalidArg t := by
  induction ps generalizing t1 t2 y with
  | nil => cases h; exact .inl ⟨_, rfl⟩
  | cons p ps ih =>
    have hlift : liftParts (p :: ps) = ⟨liftOps p.ops, true⟩ :: liftParts ps := rfl
    have hE : (liftParts ps).isEmpty = ps.isEmpty := by simp [liftParts]
    rw [hlift, runParts, hE]
    rw [runParts] at h
    obtain ⟨y1, ⟨ta, tb⟩, h1, h⟩ := M.bind_eq_ok h
    obtain ⟨_, ⟨tc, td⟩, h2, h⟩ := M.bind_eq_ok h
    obtain ⟨y2, ⟨te, tf⟩, h3, h⟩ := M.bind_eq_ok h
    obtain ⟨ys, ⟨tg, th⟩, h4, h⟩ := M.bind_eq_ok h
    cases h
    rcases compose_calls_rev T1 T2 p.ops h1 with ⟨x, hx⟩ | ⟨t, hx⟩
    · rw [M.bind_ok hx]
      have hE2 : endPart (compose T1 T2) ps.isEmpty
          = (do M.onFst (endPart T1 ps.isEmpty); composeTransfer T1 T2;
                M.onSnd (endPart T2 ps.isEmpty)) := by
        cases ps.isEmpty <;> rfl
      rw [hE2, composeTransfer] at h2
      simp only [M.bind_assoc] at h2
      obtain ⟨_, ⟨ti, tj⟩, k1, h2⟩ := M.bind_eq_ok h2
      obtain ⟨⟨b, o, l⟩, ⟨tk, tl⟩, k2, h2⟩ := M.bind_eq_ok h2
      obtain ⟨_, ⟨tm, tn⟩, k3, k4⟩ := M.bind_eq_ok h2
      have e1 : endPart T1 ps.isEmpty ta = .ok () ti := by
        simp only [M.onFst, M.zoom] at k1
        cases hh : endPart T1 ps.isEmpty ta <;> rw [hh] at k1 <;> cases k1
        rfl
      have e2 : T1.getSubstring ti = .ok (b, o, l) tk := by
        simp only [M.onFst, M.zoom] at k2
        cases hh : T1.getSubstring ti <;> rw [hh] at k2 <;> cases k2
        rfl
      have e3 : tm = tk := by
        simp only [M.onSnd, M.zoom] at k3
        cases hh : T2.putSubstring b o l tl <;> rw [hh] at k3 <;> cases k3
        rfl
      have e4 : tc = tm := by
        simp only [M.onSnd, M.zoom] at k4
        cases hh : endPart T2 ps.isEmpty tn <;> rw [hh] at k4 <;> cases k4
        rfl
      have hget : ∀ op : TOp, op.isPut = false → (compose T1 T2).call op = M.onSnd (T2.call op) := by
        intro op ho
        rcases compose_call_cases T1 T2 op with ⟨hp', _⟩ | ⟨_, hm⟩
        · rw [ho] at hp'; cases hp'
        · exact hm
      have e5 : te = tc := by
        rw [hget _ (by split <;> rfl)] at h3
        simp only [M.onSnd, M.zoom] at h3
        cases hh : T2.call (if p.sub then .getSubstring else .getString) td <;>
          rw [hh] at h3 <;> cases h3
        rfl
      subst e5 e4 e3
      rw [M.bind_ok e1]
      have c2 : T1.call .getSubstring ti = (M.orRaise .invalidArg (bytesSub b o l)) te := by
        rw [Transform.call, M.bind_ok e2]
      rw [if_pos rfl]
      cases hb : bytesSub b o l with
      | none =>
        rw [hb, M.orRaise_none] at c2
        rw [M.bind_exn c2]
        exact .inr ⟨_, rfl⟩
      | some z =>
        rw [hb, M.orRaise_some] at c2
        rw [M.bind_ok c2]
        rcases ih h4 with ⟨x, hx⟩ | ⟨t, hx⟩
        · rw [M.bind_ok hx]; exact .inl ⟨_, rfl⟩
        · rw [M.bind_exn hx]; exact .inr ⟨_, rfl⟩
    · rw [M.bind_exn hx]; exact .inr ⟨_, rfl⟩

end Verif
