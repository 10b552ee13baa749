import Verif.Spec.Gc
namespace Verif.Gc

/-- What a registered variable designates is not affected by the collector. -/
theorem Collect.read {ρ : Addr → Addr} {s s' : State γ} (h : Collect ρ s s') {v : Var}
    (hv : v ∈ s.roots) : s'.read v = s.read v := by
  rw [State.read, State.read, h.rooted v hv]
  cases ha : s.env v with
  | none => rfl
  | some a => exact h.heap a ⟨v, hv, ha⟩

/-- After an allocation. -/
theorem read_alloc {s1 : State γ} {a : Addr} {x : Obj γ} {v w : Var} (ha : s1.heap a = none)
    (hw : w ≠ v) (hr : s1.read w ≠ none) :
    State.read { s1 with heap := fun b => if b = a then some x else s1.heap b,
                         env := fun w => if w = v then some a else s1.env w } w = s1.read w := by
  simp only [State.read, if_neg hw] at hr ⊢
  cases hb : s1.env w with
  | none => rfl
  | some b =>
    rw [hb] at hr
    show (if b = a then some x else s1.heap b) = s1.heap b
    by_cases hba : b = a
    · subst hba; exact absurd ha hr
    · rw [if_neg hba]

theorem mapM_read_congr {s s' : State γ} {rs : List Var} (h : ∀ v ∈ rs, s'.read v = s.read v) :
    rs.mapM s'.read = rs.mapM s.read := by
  induction rs with
  | nil => rfl
  | cons v rs ih =>
    rw [List.mapM_cons, List.mapM_cons, h v (by simp), ih fun w hw => h w (by simp [hw])]

theorem mapM_read_some {s : State γ} {rs : List Var} {xs : List (Obj γ)} (h : rs.mapM s.read = some xs) :
    ∀ v ∈ rs, s.read v ≠ none := by
  induction rs generalizing xs with
  | nil => intro v hv; simp at hv
  | cons v rs ih =>
    intro w hw
    rw [List.mapM_cons] at h
    cases hv : s.read v with
    | none => rw [hv] at h; exact nomatch h
    | some x =>
      rw [hv] at h
      cases hs : rs.mapM s.read with
      | none => rw [hs] at h; exact nomatch h
      | some ys =>
        rcases List.mem_cons.1 hw with e | hw
        · rw [e, hv]; exact nofun
        · exact ih hs w hw

/-- A caller's variable that was dangling stays so or not; those with contents keep them. -/
theorem init_sound {vs rs : List Var} {v : Var} {f : List (Obj γ) → Option (Obj γ)} {s : State γ}
    {moves r} {xs : List (Obj γ)} {y : Obj γ}
    (h : Exec moves [.register vs, .alloc v, .write v rs f] s r)
    (hsub : ∀ w ∈ rs, w ∈ vs ++ s.roots) (hv : v ∉ rs) (hvr : v ∉ s.roots)
    (hx : rs.mapM s.read = some xs) (hf : f xs = some y) :
    ∃ s', r = some s' ∧ s'.read v = some y ∧
      ∀ w ∈ s.roots, s.read w ≠ none → s'.read w = s.read w := by
  cases h with
  | register h => ?_
  cases h with
  | alloc hc ha h => ?_
  rename_i ρ ρs s1 a x
  have hkeep : ∀ w, w ∈ vs ++ s.roots → w ≠ v → s.read w ≠ none →
      State.read { s1 with heap := fun b => if b = a then some x else s1.heap b,
                           env := fun w => if w = v then some a else s1.env w } w = s.read w := by
    intro w hw hwv hr
    have e : s1.read w = s.read w := hc.read (v := w) hw
    rw [read_alloc ha hwv (by rw [e]; exact hr), e]
  have hrd : rs.mapM (State.read { s1 with heap := fun b => if b = a then some x else s1.heap b, env := fun w => if w = v then some a else s1.env w }) = some xs := by
    rw [← hx]
    refine mapM_read_congr fun w hw => ?_
    exact hkeep w (hsub w hw) (fun e => hv (e ▸ hw)) (mapM_read_some hx w hw)
  generalize hs2 : ({ s1 with heap := fun b => if b = a then some x else s1.heap b, env := fun w => if w = v then some a else s1.env w } : State γ) = s2 at h hkeep hrd
  have hva : s2.env v = some a := by rw [← hs2]; simp
  have hha : s2.heap a = some x := by rw [← hs2]; simp
  have hne : ∀ w, w ≠ v → s2.env w = some a → s1.env w = some a := by
    intro w hw; rw [← hs2]; simp [hw]
  cases h with
  | readBad hb => rw [hrd] at hb; simp only [Option.bind_some, hf] at hb; exact nomatch hb
  | writeBad hb => rw [State.read, hva] at hb; simp [hha] at hb
  | write h1 h2 h3 h4 h5 => ?_
  rename_i xs' y' a'
  cases h5
  rw [hva] at h3; cases h3
  rw [hrd] at h1; cases h1
  rw [hf] at h2; cases h2
  refine ⟨_, rfl, ?_, ?_⟩
  · simp [State.read, hva]
  · intro w hw hr
    have hwv : w ≠ v := fun e => hvr (e ▸ hw)
    have e := hkeep w (by simp [hw]) hwv hr
    rw [← e]
    simp only [State.read]
    cases hb : s2.env w with
    | none => rfl
    | some b =>
      show (if b = a then some y else s2.heap b) = s2.heap b
      by_cases hba : b = a
      · exfalso
        subst hba
        have h1 := hne w hwv hb
        have : s1.read w = s.read w := hc.read (v := w) (by simp [hw])
        rw [State.read, h1] at this
        exact hr (by rw [← this]; exact ha)
      · rw [if_neg hba]

theorem creates_of_init {vs rs : List Var} {v : Var} {f : List (Obj γ) → Option (Obj γ)}
    {args : List (Var × Obj γ)} {y : Obj γ} (hrs : args.map Prod.fst = rs) (hsub : ∀ w ∈ rs, w ∈ vs)
    (hv : v ∉ rs) (hnc : ∀ i, v ≠ .caller i) (hf : f (args.map Prod.snd) = some y) :
    Spec.Creates [.register vs, .alloc v, .write v rs f] v args y := by
  intro s moves r hs hargs h
  have hx : rs.mapM s.read = some (args.map Prod.snd) := by
    rw [← hrs]
    clear hrs hf hv hsub
    induction args with
    | nil => rfl
    | cons p ps ih =>
      rw [List.map_cons, List.mapM_cons, hargs p (by simp), ih fun q hq => hargs q (by simp [hq])]
      rfl
  obtain ⟨s', h1, h2, h3⟩ := init_sound h (fun w hw => by simp [hsub w hw]) hv
    (fun hr => let ⟨⟨i, e⟩, _⟩ := hs v hr; hnc i e) hx hf
  exact ⟨s', h1, h2, fun i hi => h3 _ hi (hs _ hi).2⟩

/-- Stubs that take no block as argument. -/
theorem creates_of_keyless {v : Var} {f : List (Obj γ) → Option (Obj γ)} {y : Obj γ}
    (hnc : ∀ i, v ≠ .caller i) (hf : f [] = some y) :
    Spec.Creates [.alloc v, .write v [] f] v [] y := by
  intro s moves r hs hargs h
  exact creates_of_init (vs := []) (rs := []) (args := []) rfl (by simp) (by simp) hnc hf s moves r hs hargs
    (Exec.register h)

/-- The state once the block for the result is allocated. -/
theorem after_alloc_res {s : State γ} {s1 : State γ} {ρ : Addr → Addr} {a : Addr} {x : Obj γ} {c : γ}
    (hs : Spec.CalledFromOCaml s) (hctx : s.read .ctx = some (.ctx c))
    (hc : Collect ρ { s with roots := .res :: ([.ctx] ++ s.roots), env := fun w => if w = .res then none else s.env w } s1)
    (ha : s1.heap a = none) {s2 : State γ}
    (hs2 : ({ s1 with heap := fun b => if b = a then some x else s1.heap b, env := fun w => if w = .res then some a else s1.env w } : State γ) = s2) :
    s2.env .res = some a ∧ s2.heap a = some x ∧
    (∃ d, s2.env .ctx = some d ∧ d ≠ a ∧ s2.heap d = some (.ctx c) ∧
      ∀ i, .caller i ∈ s.roots → ∃ b, s2.env (.caller i) = some b ∧ b ≠ a ∧ s2.heap b = s.read (.caller i) ∧
        (b = d ↔ s.env (.caller i) = s.env .ctx)) := by
  have hva : s2.env .res = some a := by rw [← hs2]; simp
  have hha : s2.heap a = some x := by rw [← hs2]; simp
  have henv : ∀ w, w ≠ .res → s2.env w = s1.env w := by intro w hw; rw [← hs2]; simp [hw]
  have hheap : ∀ b, b ≠ a → s2.heap b = s1.heap b := by intro b hb; rw [← hs2]; simp [hb]
  have key : ∀ w, w ≠ .res → w ∈ [.ctx] ++ s.roots → s.read w ≠ none →
      ∃ a0, s.env w = some a0 ∧ State.Live { s with roots := .res :: ([.ctx] ++ s.roots), env := fun w => if w = .res then none else s.env w } a0 ∧ s2.env w = some (ρ a0) ∧ ρ a0 ≠ a ∧ s2.heap (ρ a0) = s.read w := by
    intro w hw hm hr
    cases he : s.env w with
    | none => rw [State.read, he] at hr; exact absurd rfl hr
    | some a0 =>
      have hlive : State.Live { s with roots := .res :: ([.ctx] ++ s.roots), env := fun w => if w = .res then none else s.env w } a0 :=
        ⟨w, by simp only [List.mem_cons]; exact Or.inr hm, by simp [hw, he]⟩
      have e1 : s1.env w = some (ρ a0) := by
        rw [hc.rooted w (by simp only [List.mem_cons]; exact Or.inr hm)]; simp [hw, he]
      have e2 : s1.heap (ρ a0) = s.heap a0 := hc.heap a0 hlive
      have e3 : s.read w = s.heap a0 := by rw [State.read, he]; rfl
      have hne : ρ a0 ≠ a := by
        intro e
        rw [e, ha] at e2
        exact hr (by rw [e3, ← e2])
      exact ⟨a0, rfl, hlive, by rw [henv w hw, e1], hne, by rw [hheap _ hne, e2, e3]⟩
  obtain ⟨d0, hd0, hdl, hd1, hd2, hd3⟩ := key .ctx (by simp) (by simp) (by rw [hctx]; simp)
  refine ⟨hva, hha, ρ d0, hd1, hd2, by rw [hd3, hctx], fun i hi => ?_⟩
  obtain ⟨b0, hb0, hbl, hb1, hb2, hb3⟩ := key (.caller i) (by simp) (by simp [hi]) (hs _ hi).2
  refine ⟨ρ b0, hb1, hb2, hb3, fun e => ?_, fun e => ?_⟩
  · rw [hb0, hd0, hc.inj _ _ hbl hdl e]
  · rw [hb0, hd0] at e; rw [Option.some.inj e]

theorem finishes_of_final {f g : List (Obj γ) → Option (Obj γ)} {c c' : γ} {y : Obj γ}
    (hf : f [.ctx c] = some y) (hg : g [.ctx c] = some (.ctx c')) :
    Spec.Finishes [.register [.ctx], .declare .res, .alloc .res, .write .res [.ctx] f, .write .ctx [.ctx] g] c y c' := by
  intro s moves r hs hctx h
  cases h with
  | register h => ?_
  cases h with
  | declare h => ?_
  cases h with
  | alloc hc ha h => ?_
  rename_i ρ ρs s1 a x
  generalize hs2 : ({ s1 with heap := fun b => if b = a then some x else s1.heap b, env := fun w => if w = .res then some a else s1.env w } : State γ) = s2 at h
  obtain ⟨hva, hha, d, hd, hda, hdc, hcal⟩ := after_alloc_res hs hctx hc ha hs2
  have hrd : [Var.ctx].mapM s2.read = some [.ctx c] := by
    rw [List.mapM_cons, State.read, hd]; simp [hdc]
  cases h with
  | readBad hb => rw [hrd] at hb; simp only [Option.bind_some, hf] at hb; exact nomatch hb
  | writeBad hb => rw [State.read, hva] at hb; simp [hha] at hb
  | write h1 h2 h3 h4 h5 => ?_
  rename_i xs' y' a'
  rw [hva] at h3; cases h3
  rw [hrd] at h1; cases h1
  rw [hf] at h2; cases h2
  generalize hs3 : ({ s2 with heap := fun b => if b = a then some y else s2.heap b } : State γ) = s3 at h5
  have henv3 : s3.env = s2.env := by rw [← hs3]
  have hh3 : ∀ b, b ≠ a → s3.heap b = s2.heap b := by intro b hb; rw [← hs3]; simp [hb]
  have hh3a : s3.heap a = some y := by rw [← hs3]; simp
  have hrd3 : [Var.ctx].mapM s3.read = some [.ctx c] := by
    rw [List.mapM_cons, State.read, henv3, hd]; simp [hh3 d hda, hdc]
  cases h5 with
  | readBad hb => rw [hrd3] at hb; simp only [Option.bind_some, hg] at hb; exact nomatch hb
  | writeBad hb => rw [State.read, henv3, hd] at hb; simp [hh3 d hda, hdc] at hb
  | write h1 h2 h3 h4 h5 => ?_
  rename_i xs' y' a'
  cases h5
  rw [henv3, hd] at h3; cases h3
  rw [hrd3] at h1; cases h1
  rw [hg] at h2; cases h2
  refine ⟨_, rfl, ?_, fun i hi => ?_⟩
  · simp only [State.read, henv3, hva, Option.bind_some]
    rw [if_neg (Ne.symm hda), hh3a]
  · obtain ⟨b, hb, hba, hbh, hbd⟩ := hcal i hi
    simp only [State.read, henv3, hb, Option.bind_some]
    by_cases he : s.env (.caller i) = s.env .ctx
    · rw [if_pos (hbd.2 he), if_pos he]
    · rw [if_neg (fun e => he (hbd.1 e)), if_neg he, hh3 b hba, hbh]; rfl

theorem finishes_of_extract {f : List (Obj γ) → Option (Obj γ)} {c : γ} {y : Obj γ}
    (hf : f [.ctx c] = some y) :
    Spec.Finishes [.register [.ctx], .declare .res, .alloc .res, .write .res [.ctx] f] c y c := by
  intro s moves r hs hctx h
  cases h with
  | register h => ?_
  cases h with
  | declare h => ?_
  cases h with
  | alloc hc ha h => ?_
  rename_i ρ ρs s1 a x
  generalize hs2 : ({ s1 with heap := fun b => if b = a then some x else s1.heap b, env := fun w => if w = .res then some a else s1.env w } : State γ) = s2 at h
  obtain ⟨hva, hha, d, hd, hda, hdc, hcal⟩ := after_alloc_res hs hctx hc ha hs2
  have hrd : [Var.ctx].mapM s2.read = some [.ctx c] := by
    rw [List.mapM_cons, State.read, hd]; simp [hdc]
  cases h with
  | readBad hb => rw [hrd] at hb; simp only [Option.bind_some, hf] at hb; exact nomatch hb
  | writeBad hb => rw [State.read, hva] at hb; simp [hha] at hb
  | write h1 h2 h3 h4 h5 => ?_
  rename_i xs' y' a'
  cases h5
  rw [hva] at h3; cases h3
  rw [hrd] at h1; cases h1
  rw [hf] at h2; cases h2
  refine ⟨_, rfl, ?_, fun i hi => ?_⟩
  · simp [State.read, hva]
  · obtain ⟨b, hb, hba, hbh, hbd⟩ := hcal i hi
    simp only [State.read, hb, Option.bind_some]
    rw [if_neg hba, hbh]
    by_cases he : s.env (.caller i) = s.env .ctx
    · rw [if_pos he, State.read, he]; exact hctx
    · rw [if_neg he]; rfl

end Verif.Gc
