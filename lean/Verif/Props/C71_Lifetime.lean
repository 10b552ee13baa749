import Verif.Model.Lifetime
/-
C71: memory allocated outside of the OCaml heap for SHA-3, BLAKE3 and GHASH contexts is used only
while allocated, freed exactly once, erased by `wipe` before it is freed, and never leaked.
-/
namespace Verif

open Lifetime

/-- The live cells are those referenced by the objects that exist; an object never references a
cell that is not live; no cell is shared. -/
structure LifetimeInv (s : State) : Prop where
  live : ∀ i a, s.blocks i = .present (some a) → ∃ e, s.heap a = .live e
  owned : ∀ a e, s.heap a = .live e → ∃ i, s.blocks i = .present (some a)
  unique : ∀ i j a, s.blocks i = .present (some a) → s.blocks j = .present (some a) → i = j

theorem lifetime_drop {s : State} (h : LifetimeInv s) {i a : Nat} (hi : s.blocks i = .present (some a))
    (c : Cell) (hc : ∀ e, c ≠ .live e) (b : Block) (hb : ∀ p, b ≠ .present (some p)) :
    LifetimeInv ((s.setCell a c).setBlock i b) := by
  refine ⟨?_, ?_, ?_⟩
  · intro j x hj
    simp only [State.setBlock, State.setCell] at hj ⊢
    split at hj
    · exact absurd hj (hb x)
    · rename_i hji
      split
      · rename_i hx
        subst hx
        exact absurd (h.unique j i x hj hi) hji
      · exact h.live j x hj
  · intro x e hx
    simp only [State.setBlock, State.setCell] at hx ⊢
    split at hx
    · exact absurd hx (hc e)
    · rename_i hxa
      obtain ⟨j, hj⟩ := h.owned x e hx
      refine ⟨j, ?_⟩
      rw [if_neg]
      · exact hj
      · intro hji
        rw [hji, hi] at hj
        exact hxa (Option.some.inj (Block.present.inj hj)).symm
  · intro j k x hj hk
    simp only [State.setBlock, State.setCell] at hj hk
    split at hj
    · exact absurd hj (hb x)
    · split at hk
      · exact absurd hk (hb x)
      · exact h.unique j k x hj hk

theorem lifetime_touch {s : State} (h : LifetimeInv s) {a : Nat} {e : Bool} (ha : s.heap a = .live e)
    (e' : Bool) : LifetimeInv (s.setCell a (.live e')) := by
  refine ⟨?_, ?_, h.unique⟩
  · intro j x hj
    simp only [State.setCell]
    split
    · exact ⟨_, rfl⟩
    · exact h.live j x hj
  · intro x y hx
    simp only [State.setCell] at hx
    split at hx
    · rename_i hxa
      rw [hxa]
      exact h.owned a e ha
    · exact h.owned x y hx

theorem lifetime_gone {s : State} (h : LifetimeInv s) {i : Nat} (hi : ∀ a, s.blocks i ≠ .present (some a))
    (b : Block) (hb : ∀ p, b ≠ .present (some p)) : LifetimeInv (s.setBlock i b) := by
  refine ⟨?_, ?_, ?_⟩
  · intro j x hj
    simp only [State.setBlock] at hj
    split at hj
    · exact absurd hj (hb x)
    · exact h.live j x hj
  · intro x e hx
    obtain ⟨j, hj⟩ := h.owned x e hx
    refine ⟨j, ?_⟩
    simp only [State.setBlock]
    rw [if_neg]
    · exact hj
    · intro hji
      rw [hji] at hj
      exact hi x hj
  · intro j k x hj hk
    simp only [State.setBlock] at hj hk
    split at hj
    · exact absurd hj (hb x)
    · split at hk
      · exact absurd hk (hb x)
      · exact h.unique j k x hj hk

/-- The effect of each event, in a state that satisfies the invariant. -/
theorem lifetime_step {s : State} (h : LifetimeInv s) {e : Event} (hp : Possible s e) :
    (∀ i, e = .access i → s.blocks i ≠ .present none) →
    ∃ s', step s e = some s' ∧ LifetimeInv s' := by
  intro hacc
  cases e with
  | create i a =>
    obtain ⟨h1, h2⟩ := hp
    refine ⟨_, rfl, ?_, ?_, ?_⟩
    · intro j x hj
      simp only [State.setBlock, State.setCell] at hj ⊢
      split at hj
      · cases hj; exact ⟨false, if_pos rfl⟩
      · obtain ⟨e, he⟩ := h.live j x hj
        split
        · exact ⟨_, rfl⟩
        · exact ⟨e, he⟩
    · intro x e hx
      simp only [State.setBlock, State.setCell] at hx ⊢
      split at hx
      · rename_i hxa
        exact ⟨i, by rw [if_pos rfl, hxa]⟩
      · obtain ⟨j, hj⟩ := h.owned x e hx
        refine ⟨j, ?_⟩
        rw [if_neg]
        · exact hj
        · intro hji; rw [hji, h1] at hj; cases hj
    · intro j k x hj hk
      simp only [State.setBlock, State.setCell] at hj hk
      split at hj <;> split at hk
      · rename_i e1 e2; rw [e1, e2]
      · cases hj
        obtain ⟨e, he⟩ := h.live k a hk
        exact absurd he (h2 e)
      · cases hk
        obtain ⟨e, he⟩ := h.live j a hj
        exact absurd he (h2 e)
      · exact h.unique j k x hj hk
  | access i =>
    obtain ⟨p, hpi⟩ := hp
    cases p with
    | none => exact absurd hpi (hacc i rfl)
    | some a =>
      obtain ⟨e, he⟩ := h.live i a hpi
      exact ⟨s.setCell a (.live false), by simp only [step, hpi, touch, he], lifetime_touch h he _⟩
  | wipe i =>
    obtain ⟨p, hpi⟩ := hp
    cases p with
    | none => exact ⟨s, by simp only [step, hpi], h⟩
    | some a =>
      obtain ⟨e, he⟩ := h.live i a hpi
      refine ⟨((s.setCell a (.live true)).setCell a (.freed true)).setBlock i (.present none), ?_, ?_⟩
      · simp [step, hpi, touch, he, free, State.setCell]
      · exact lifetime_drop (lifetime_touch h he true) hpi _ (by simp) _ (by simp)
  | collect i =>
    obtain ⟨p, hpi⟩ := hp
    cases p with
    | none =>
      exact ⟨_, by simp only [step, finalize, hpi]; rfl, lifetime_gone h (by simp [hpi]) _ (by simp)⟩
    | some a =>
      obtain ⟨e, he⟩ := h.live i a hpi
      refine ⟨((s.setCell a (.freed e)).setBlock i (.present none)).setBlock i .collected, ?_, ?_⟩
      · simp only [step, finalize, hpi, free, he]
        rfl
      · exact lifetime_gone (lifetime_drop h hpi _ (by simp) _ (by simp))
          (by simp [State.setBlock]) _ (by simp)

theorem lifetime_inv {evs : List Event} {s : State} (hr : Run evs s) : LifetimeInv s := by
  induction hr with
  | nil => exact ⟨by simp [State.init], by simp [State.init], by simp [State.init]⟩
  | @snoc evs s e s' hr hp hs ih =>
    have : ∀ i, e = .access i → s.blocks i ≠ .present none := by
      rintro i rfl hn
      simp [step, hn] at hs
    obtain ⟨s'', h1, h2⟩ := lifetime_step ih hp this
    rw [hs] at h1
    cases h1
    exact h2

theorem lifetime_null {evs : List Event} {s : State} (hr : Run evs s) {i : Nat}
    (hi : s.blocks i = .present none) : .wipe i ∈ evs := by
  induction hr with
  | nil => simp [State.init] at hi
  | @snoc evs s e s' hr hp hs ih =>
    rw [List.mem_append, List.mem_singleton]
    by_cases hw : e = .wipe i
    · exact .inr hw.symm
    refine .inl (ih ?_)
    cases e with
    | create j a =>
      simp only [step, Option.some.injEq] at hs
      subst hs
      simp only [State.setBlock, State.setCell] at hi
      split at hi
      · cases hi
      · exact hi
    | access j =>
      simp only [step] at hs
      split at hs
      · simp only [touch] at hs
        split at hs
        · cases hs; exact hi
        · cases hs
      · cases hs
    | wipe j =>
      have hj : i ≠ j := fun h => hw (by rw [h])
      obtain ⟨p, hpj⟩ := hp
      cases p with
      | none => simp only [step, hpj, Option.some.injEq] at hs; subst hs; exact hi
      | some a =>
        simp only [step, hpj, touch] at hs
        cases hc : s.heap a with
        | live e =>
          simp [hc, free, State.setCell] at hs
          subst hs
          simpa [State.setBlock, hj] using hi
        | unused => simp [hc] at hs
        | freed e => simp [hc] at hs
    | collect j =>
      obtain ⟨p, hpj⟩ := hp
      have hj : i ≠ j := by
        rintro rfl
        simp only [step, Option.map_eq_some_iff] at hs
        obtain ⟨s1, _, rfl⟩ := hs
        simp [State.setBlock] at hi
      cases p with
      | none =>
        simp only [step, finalize, hpj, Option.map_some, Option.some.injEq] at hs
        subst hs
        simpa [State.setBlock, hj] using hi
      | some a =>
        simp only [step, finalize, hpj, free] at hs
        cases hc : s.heap a with
        | live e =>
          simp [hc] at hs
          subst hs
          simpa [State.setBlock, State.setCell, hj] using hi
        | unused => simp [hc] at hs
        | freed e => simp [hc] at hs

/-- C71: in every history, every possible event is executed without access to memory that is not
allocated, without NULL dereference and without double free, except a use of an object after its
`wipe`. In particular `wipe` may be called several times, and the finalizer runs after it. -/
theorem C71_no_undefined (evs : List Event) (s : State) (hr : Run evs s) (e : Event)
    (hp : Possible s e) (hw : ∀ i, e = .access i → .wipe i ∉ evs) : step s e ≠ none := by
  obtain ⟨s', h, _⟩ := lifetime_step (lifetime_inv hr) hp
    (fun i hi hn => hw i hi (lifetime_null hr hn))
  rw [h]; simp

/-- C71: no leak and no sharing. Every cell in use belongs to one existing object. -/
theorem C71_no_leak (evs : List Event) (s : State) (hr : Run evs s) (a : Nat) (e : Bool)
    (h : s.heap a = .live e) : ∃ i, s.blocks i = .present (some a) ∧
      ∀ j, s.blocks j = .present (some a) → j = i := by
  obtain ⟨i, hi⟩ := (lifetime_inv hr).owned a e h
  exact ⟨i, hi, fun j hj => (lifetime_inv hr).unique j i a hj hi⟩

/-- C71: when every object has been wiped or collected, no cell is in use. -/
theorem C71_all_freed (evs : List Event) (s : State) (hr : Run evs s)
    (h : ∀ i a, s.blocks i ≠ .present (some a)) (a : Nat) (e : Bool) : s.heap a ≠ .live e := by
  intro ha
  obtain ⟨i, hi, _⟩ := C71_no_leak evs s hr a e ha
  exact h i a hi

/-- C71: `wipe` erases the context before it frees it. -/
theorem C71_wipe_erases (evs : List Event) (s : State) (hr : Run evs s) (i a : Nat)
    (hi : s.blocks i = .present (some a)) :
    ∃ s', step s (.wipe i) = some s' ∧ s'.heap a = .freed true ∧ s'.blocks i = .present none
      ∧ (∀ b, b ≠ a → s'.heap b = s.heap b) ∧ (∀ j, j ≠ i → s'.blocks j = s.blocks j) := by
  obtain ⟨e, he⟩ := (lifetime_inv hr).live i a hi
  refine ⟨((s.setCell a (.live true)).setCell a (.freed true)).setBlock i (.present none), ?_, ?_⟩
  · simp [step, hi, touch, he, free, State.setCell]
  · refine ⟨by simp [State.setCell, State.setBlock], by simp [State.setBlock],
      fun b hb => by simp [State.setCell, State.setBlock, hb], fun j hj => by
        simp [State.setBlock, State.setCell, hj]⟩

/-- The invariant of the memory of Zlib streams. -/
structure ZLifetimeInv (s : ZState) : Prop where
  stream : ∀ i a q, s.blocks i = .present a q → s.heap a = true
  inner : ∀ i a b, s.blocks i = .present a (some b) → s.heap b = true ∧ a ≠ b
  apart : ∀ i j a a' q q', i ≠ j → s.blocks i = .present a q → s.blocks j = .present a' q' →
    a ≠ a' ∧ q ≠ some a' ∧ (∀ b, q = some b → q' ≠ some b)

theorem zlifetime_step {s : ZState} (h : ZLifetimeInv s) {e : ZEvent} (hp : ZPossible s e) :
    ∃ s', zstep s e = some s' ∧ ZLifetimeInv s' := by
  cases e with
  | create i a b =>
    obtain ⟨h1, h2, h3, h4⟩ := hp
    have old : ∀ j x q, s.blocks j = .present x q → x ≠ a ∧ x ≠ b ∧ q ≠ some a ∧ q ≠ some b := by
      intro j x q hj
      have hx := h.stream j x q hj
      refine ⟨?_, ?_, ?_, ?_⟩
      · rintro rfl; rw [h2] at hx; cases hx
      · rintro rfl; rw [h3] at hx; cases hx
      · rintro rfl
        have := (h.inner j x a hj).1
        rw [h2] at this; cases this
      · rintro rfl
        have := (h.inner j x b hj).1
        rw [h3] at this; cases this
    refine ⟨_, rfl, ?_, ?_, ?_⟩
    · intro j x q hj
      simp only at hj ⊢
      split at hj
      · cases hj; simp
      · have := old j x q hj
        rw [if_neg this.1, if_neg this.2.1]; exact h.stream j x q hj
    · intro j x y hj
      simp only at hj ⊢
      split at hj
      · cases hj; simp [h4]
      · have := old j x _ hj
        rw [if_neg (fun e => this.2.2.1 (by rw [e])), if_neg (fun e => this.2.2.2 (by rw [e]))]
        exact h.inner j x y hj
    · intro j k x x' q q' hjk hj hk
      simp only at hj hk
      split at hj <;> split at hk
      · rename_i e1 e2; exact absurd (e1.trans e2.symm) hjk
      · cases hj
        have := old k x' q' hk
        refine ⟨fun e => this.1 e.symm, ?_, ?_⟩
        · intro e; cases e; exact this.2.1 rfl
        · intro y e; cases e; exact this.2.2.2
      · cases hk
        have := old j x q hj
        refine ⟨this.1, this.2.2.1, ?_⟩
        intro y e e'; cases e'; exact this.2.2.2 e
      · exact h.apart j k x x' q q' hjk hj hk
  | use i => exact ⟨s, by
      obtain ⟨a, q, hi⟩ := hp
      simp only [zstep, hi, h.stream i a q hi]
      cases q with
      | none => rfl
      | some b => simp [(h.inner i a b hi).1], h⟩
  | finish i =>
    obtain ⟨a, q, hi⟩ := hp
    cases q with
    | none => exact ⟨s, by simp [zstep, hi, h.stream i a _ hi], h⟩
    | some b =>
      obtain ⟨hb, hab⟩ := h.inner i a b hi
      refine ⟨_, by simp only [zstep, hi, h.stream i a _ hi, hb]; rfl, ?_, ?_, ?_⟩
      · intro j x q hj
        simp only at hj ⊢
        split at hj
        · cases hj; rw [if_neg hab]; exact h.stream i a _ hi
        · rename_i hji
          rw [if_neg]
          · exact h.stream j x q hj
          · rintro rfl
            exact (h.apart i j a x _ q (Ne.symm hji) hi hj).2.1 rfl
      · intro j x y hj
        simp only at hj ⊢
        split at hj
        · cases hj
        · rename_i hji
          rw [if_neg]
          · exact h.inner j x y hj
          · rintro rfl
            exact (h.apart i j a x _ _ (Ne.symm hji) hi hj).2.2 y rfl rfl
      · intro j k x x' q q' hjk hj hk
        simp only at hj hk
        split at hj <;> split at hk
        · rename_i e1 e2; exact absurd (e1.trans e2.symm) hjk
        · rename_i e1 e2
          cases hj
          subst e1
          exact ⟨(h.apart j k _ x' _ q' hjk hi hk).1, by simp, by simp⟩
        · rename_i e1 e2
          cases hk
          subst e2
          have := h.apart j k x _ q _ hjk hj hi
          exact ⟨this.1, this.2.1, by simp⟩
        · exact h.apart j k x x' q q' hjk hj hk
  | collect i =>
    obtain ⟨a, q, hi⟩ := hp
    refine ⟨_, by simp only [zstep, hi, h.stream i a _ hi]; rfl, ?_, ?_, ?_⟩
    · intro j x p hj
      simp only at hj ⊢
      split at hj
      · cases hj
      · rename_i hji
        rw [if_neg (h.apart j i x a p q hji hj hi).1]
        exact h.stream j x p hj
    · intro j x y hj
      simp only at hj ⊢
      split at hj
      · cases hj
      · rename_i hji
        rw [if_neg (fun e => (h.apart j i x a _ q hji hj hi).2.1 (by rw [e]))]
        exact h.inner j x y hj
    · intro j k x x' p p' hjk hj hk
      simp only at hj hk
      split at hj
      · cases hj
      · split at hk
        · cases hk
        · exact h.apart j k x x' p p' hjk hj hk

theorem zlifetime_inv {evs : List ZEvent} {s : ZState} (hr : ZRun evs s) : ZLifetimeInv s := by
  induction hr with
  | nil => exact ⟨by simp [ZState.init], by simp [ZState.init], by simp [ZState.init]⟩
  | snoc hr hp hs ih =>
    obtain ⟨s'', h1, h2⟩ := zlifetime_step ih hp
    rw [hs] at h1
    cases h1
    exact h2

/-- After `finish`, the internal state is gone. -/
theorem zfinished {evs : List ZEvent} {s : ZState} (hr : ZRun evs s) {i a : Nat} {q : Option Nat}
    (hf : .finish i ∈ evs) (hi : s.blocks i = .present a q) : q = none := by
  induction hr generalizing a q with
  | nil => cases hf
  | @snoc evs s e s' hr hp hs ih =>
    have hinv := zlifetime_inv hr
    rw [List.mem_append, List.mem_singleton] at hf
    cases e with
    | create j x y =>
      simp only [zstep, Option.some.injEq] at hs
      subst hs
      replace hf : .finish i ∈ evs := by simpa using hf
      simp only at hi
      split at hi
      · rename_i hij
        subst hij
        -- the object was not absent before
        have : ∀ evs s, ZRun evs s → .finish i ∈ evs → s.blocks i ≠ .absent := by
          intro evs s hr
          induction hr with
          | nil => intro h; cases h
          | @snoc evs s e s' hr hp hs ih =>
            intro h
            rw [List.mem_append, List.mem_singleton] at h
            have hinv := zlifetime_inv hr
            cases e with
            | create j x y =>
              simp only [zstep, Option.some.injEq] at hs
              subst hs
              simp only
              split
              · simp
              · exact ih (by simpa using h)
            | use j =>
              obtain ⟨x, q, hj⟩ := hp
              have : s' = s := by
                simp only [zstep, hj, hinv.stream j x q hj] at hs
                cases q with
                | none => simpa using hs.symm
                | some b => simp [(hinv.inner j x b hj).1] at hs; exact hs.symm
              subst this
              exact ih (by simpa using h)
            | finish j =>
              obtain ⟨x, q, hj⟩ := hp
              have h' : .finish i ∈ evs ∨ i = j := by simpa using h
              have hab : s.blocks i ≠ .absent := by
                rcases h' with h' | h'
                · exact ih h'
                · rw [h', hj]; simp
              cases q with
              | none =>
                simp [zstep, hj, hinv.stream j x _ hj] at hs
                subst hs; exact hab
              | some b =>
                simp [zstep, hj, hinv.stream j x _ hj, (hinv.inner j x b hj).1] at hs
                subst hs
                simp only
                split
                · simp
                · exact hab
            | collect j =>
              obtain ⟨x, q, hj⟩ := hp
              simp [zstep, hj, hinv.stream j x _ hj] at hs
              subst hs
              simp only
              split
              · simp
              · exact ih (by simpa using h)
        exact absurd hp.1 (this evs s hr hf)
      · exact ih hf hi
    | use j =>
      obtain ⟨x, q', hj⟩ := hp
      have : s' = s := by
        simp only [zstep, hj, hinv.stream j x q' hj] at hs
        cases q' with
        | none => simpa using hs.symm
        | some b => simp [(hinv.inner j x b hj).1] at hs; exact hs.symm
      subst this
      exact ih (by simpa using hf) hi
    | finish j =>
      obtain ⟨x, q', hj⟩ := hp
      cases q' with
      | none =>
        simp [zstep, hj, hinv.stream j x _ hj] at hs
        subst hs
        by_cases hij : i = j
        · subst hij; rw [hj] at hi; cases hi; rfl
        · exact ih (by simpa [hij] using hf) hi
      | some b =>
        simp [zstep, hj, hinv.stream j x _ hj, (hinv.inner j x b hj).1] at hs
        subst hs
        simp only at hi
        split at hi
        · cases hi; rfl
        · rename_i hij
          exact ih (by simpa [hij] using hf) hi
    | collect j =>
      obtain ⟨x, q', hj⟩ := hp
      simp [zstep, hj, hinv.stream j x _ hj] at hs
      subst hs
      simp only at hi
      split at hi
      · cases hi
      · exact ih (by simpa using hf) hi

/-- C71, Zlib: in every history no stream is used after it was freed, nor freed twice, even if
`finish` is called several times and methods are called after it. -/
theorem C71_zlib_no_undefined (evs : List ZEvent) (s : ZState) (hr : ZRun evs s) (e : ZEvent)
    (hp : ZPossible s e) : zstep s e ≠ none := by
  obtain ⟨s', h, _⟩ := zlifetime_step (zlifetime_inv hr) hp
  rw [h]; simp

/-- C71, Zlib. Missing: the objects that are dropped before `finish` has succeeded, whose memory is
not all freed (`C71_zlib_leak`). If `finish` succeeded on every object before it was collected, all
memory in use belongs to an existing object. -/
theorem C71_zlib_no_leak_partial (evs : List ZEvent) (s : ZState) (hr : ZRun evs s)
    (hf : ∀ pre i post, evs = pre ++ .collect i :: post → .finish i ∈ pre) (a : Nat)
    (ha : s.heap a = true) :
    ∃ i x q, s.blocks i = .present x q ∧ (a = x ∨ q = some a) := by
  induction hr generalizing a with
  | nil => simp [ZState.init] at ha
  | @snoc evs s e s' hr hp hs ih =>
    have ih := ih (fun pre i post h => hf pre i (post ++ [e]) (by rw [h]; simp))
    have hinv := zlifetime_inv hr
    cases e with
    | create i x y =>
      simp only [zstep, Option.some.injEq] at hs
      subst hs
      simp only at ha ⊢
      by_cases hx : a = x
      · exact ⟨i, x, some y, by simp, .inl hx⟩
      by_cases hy : a = y
      · exact ⟨i, x, some y, by simp, .inr (by rw [hy])⟩
      simp only [hx, hy, if_false] at ha
      obtain ⟨j, u, q, hj, hor⟩ := ih a ha
      refine ⟨j, u, q, ?_, hor⟩
      rw [if_neg]
      · exact hj
      · rintro rfl
        rw [hp.1] at hj; cases hj
    | use i =>
      obtain ⟨x, q, hi⟩ := hp
      have : s' = s := by
        simp only [zstep, hi, hinv.stream i x q hi] at hs
        cases q with
        | none => simpa using hs.symm
        | some b => simp [(hinv.inner i x b hi).1] at hs; exact hs.symm
      subst this
      exact ih a ha
    | finish i =>
      obtain ⟨x, q, hi⟩ := hp
      cases q with
      | none =>
        simp [zstep, hi, hinv.stream i x _ hi] at hs
        subst hs
        exact ih a ha
      | some b =>
        simp [zstep, hi, hinv.stream i x _ hi, (hinv.inner i x b hi).1] at hs
        subst hs
        simp only at ⊢
        by_cases hab : a = b
        · simp [hab] at ha
        · replace ha : s.heap a = true := by simpa [hab] using ha
          obtain ⟨j, u, q, hj, hor⟩ := ih a ha
          by_cases hji : j = i
          · subst hji
            rw [hi] at hj
            cases hj
            rcases hor with h | h
            · exact ⟨j, x, none, by simp, .inl h⟩
            · cases h; exact absurd rfl hab
          · exact ⟨j, u, q, by rw [if_neg hji]; exact hj, hor⟩
    | collect i =>
      obtain ⟨x, q, hi⟩ := hp
      simp [zstep, hi, hinv.stream i x _ hi] at hs
      subst hs
      simp only at ⊢
      by_cases hax : a = x
      · simp [hax] at ha
      · replace ha : s.heap a = true := by simpa [hax] using ha
        obtain ⟨j, u, q', hj, hor⟩ := ih a ha
        by_cases hji : j = i
        · subst hji
          rw [hi] at hj
          cases hj
          have hn : q = none := zfinished hr (hf evs j [] rfl) hi
          subst hn
          rcases hor with h | h
          · exact absurd h hax
          · cases h
        · exact ⟨j, u, q', by rw [if_neg hji]; exact hj, hor⟩

/-- C71 is false of Zlib objects dropped before `finish`: after creation and collection of an object
the state allocated by zlib remains. -/
theorem C71_zlib_leak : ∃ evs s a, ZRun evs s ∧ s.heap a = true ∧ ∀ i x q, s.blocks i ≠ .present x q := by
  have h0 := ZRun.nil
  have h1 := h0.snoc (e := .create 0 3 4) ⟨rfl, rfl, rfl, by decide⟩ rfl
  have h2 := h1.snoc (e := .collect 0) ⟨_, _, rfl⟩ rfl
  refine ⟨_, _, 4, h2, rfl, fun i x q => ?_⟩
  simp only [ZState.init]
  split <;> simp

namespace Example

/-- A stream used, finished twice, collected. -/
example : ∃ evs s, ZRun evs s ∧ evs.length = 5 ∧
    ∀ pre i post, evs = pre ++ .collect i :: post → ZEvent.finish i ∈ pre := by
  have h0 := ZRun.nil
  have h1 := h0.snoc (e := .create 0 3 4) ⟨rfl, rfl, rfl, by decide⟩ rfl
  have h2 := h1.snoc (e := .use 0) ⟨_, _, rfl⟩ rfl
  have h3 := h2.snoc (e := .finish 0) ⟨_, _, rfl⟩ rfl
  have h4 := h3.snoc (e := .finish 0) ⟨_, _, rfl⟩ rfl
  have h5 := h4.snoc (e := .collect 0) ⟨_, _, rfl⟩ rfl
  refine ⟨_, _, h5, rfl, ?_⟩
  intro pre i post h
  match pre with
  | [] => simp at h
  | [_] => simp at h
  | [_, _] => simp at h
  | [_, _, _] => simp at h
  | [_, _, _, _] => simp at h; obtain ⟨_, _, h3, h4, h5, h6⟩ := h; subst h5; subst h3; simp
  | _ :: _ :: _ :: _ :: _ :: _ => simp at h

/-- Object 0 gets cell 7, is used, wiped twice and collected; object 1 reuses cell 7. -/
theorem lifetime_history : ∃ s, Run [.create 0 7, .access 0, .wipe 0, .wipe 0, .create 1 7, .collect 0] s
    ∧ s.blocks 1 = .present (some 7) ∧ s.blocks 0 = .collected := by
  have h0 := Run.nil
  have h1 := h0.snoc (e := .create 0 7) ⟨rfl, by simp [State.init]⟩ rfl
  have h2 := h1.snoc (e := .access 0) ⟨_, rfl⟩ rfl
  have h3 := h2.snoc (e := .wipe 0) ⟨_, rfl⟩ rfl
  have h4 := h3.snoc (e := .wipe 0) ⟨_, rfl⟩ rfl
  have h5 := h4.snoc (e := .create 1 7) ⟨rfl, fun e h => by cases h⟩ rfl
  have h6 := h5.snoc (e := .collect 0) ⟨_, rfl⟩ rfl
  exact ⟨_, h6, rfl, rfl⟩

/-- Object 1 can be used after that. -/
example : ∃ evs s, Run evs s ∧ Possible s (.access 1) ∧ Event.wipe 1 ∉ evs ∧ step s (.access 1) ≠ none := by
  obtain ⟨s, hr, h1, _⟩ := lifetime_history
  exact ⟨_, s, hr, ⟨_, h1⟩, by simp, C71_no_undefined _ s hr _ ⟨_, h1⟩ (by rintro i ⟨⟩; simp)⟩

end Example

end Verif
