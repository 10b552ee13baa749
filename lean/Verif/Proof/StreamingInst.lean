import Verif.Proof.Streaming
import Verif.Proof.BlockRun
import Verif.Proof.Padded
import Verif.Proof.StreamGen
import Verif.Proof.GcmAuth
import Verif.Proof.Base64
import Verif.Proof.Hex
/-
How much output transforms produce for a given amount of data.
-/
namespace Verif

open Spec

section
variable {σ ρ : Type} {c : BlockCipher σ} {inv : σ → Prop} {f : σ → Bytes → BRes σ}

theorem lazyBlocks_size (h : Implements c inv f) {s : σ} (hs : inv s) (buf : Bytes) :
    match lazyBlocks c.blocksize f s buf with
    | .ok out p => inv p.1 ∧ p.2.length ≤ c.blocksize ∧ out.length + p.2.length = buf.length
    | .err out _ => out.length ≤ buf.length := by
  have hn := h.pos
  induction hb : buf.length using Nat.strongRecOn generalizing buf s with
  | _ m ih =>
    subst hb
    by_cases hl : buf.length ≤ c.blocksize
    · rw [lazyBlocks_le hl]
      exact ⟨hs, hl, by simp⟩
    · rw [lazyBlocks_gt hn (by omega)]
      have htl : (buf.take c.blocksize).length = c.blocksize := by simp; omega
      have hol := h.out_len hs htl
      cases hexn : (f s (buf.take c.blocksize)).exn with
      | some e => simp only; omega
      | none =>
        simp only [SRes.andThen]
        have ih' := ih (buf.drop c.blocksize).length (by simp; omega) (h.inv_step hs htl)
          (buf.drop c.blocksize) rfl
        simp only [List.length_drop] at ih'
        cases hr : lazyBlocks c.blocksize f (f s (buf.take c.blocksize)).st (buf.drop c.blocksize) with
        | err o e => rw [hr] at ih'; simp only [List.length_append] at ih' ⊢; omega
        | ok o p =>
          rw [hr] at ih'
          simp only [List.length_append] at ih' ⊢
          exact ⟨ih'.1, ih'.2.1, by omega⟩

/-- A block transform produces at most as many bytes as it gets, plus one block that was pending,
plus what the final method adds. -/
theorem blockSpec_bounded (h : Implements c inv f) {S : XSpec (σ × Bytes)}
    (hS : S.put = (blockSpec c.blocksize f).put) {fin : σ × Bytes → SRes ρ} {k : Nat}
    (hfin : ∀ p : σ × Bytes, inv p.1 → p.2.length ≤ c.blocksize → (fin p).size ≤ p.2.length + k) :
    S.Bounded fin (fun p => inv p.1 ∧ p.2.length ≤ c.blocksize) (fun d => d + c.blocksize + k) := by
  have key : ∀ {s : σ × Bytes} (d : Bytes), inv s.1 ∧ s.2.length ≤ c.blocksize →
      match S.put s d with
      | .ok out p => (inv p.1 ∧ p.2.length ≤ c.blocksize)
          ∧ out.length + p.2.length ≤ d.length + c.blocksize
      | .err out _ => out.length ≤ d.length + c.blocksize := by
    intro s d hs
    rw [hS]
    simp only [blockSpec]
    by_cases h0 : d = []
    · rw [if_pos h0]; exact ⟨hs, by simp; omega⟩
    · rw [if_neg h0]
      have := lazyBlocks_size h hs.1 (s.2 ++ d)
      cases hr : lazyBlocks c.blocksize f s.1 (s.2 ++ d) with
      | ok out p =>
        rw [hr] at this
        simp only [List.length_append] at this ⊢
        exact ⟨⟨this.1, this.2.1⟩, by omega⟩
      | err out e =>
        rw [hr] at this
        simp only [List.length_append] at this ⊢
        omega
  refine ⟨fun a b hab => by omega, ?_, ?_, ?_⟩
  · intro s d out s' hs hp
    have := key d hs
    rw [hp] at this
    exact this.1
  · intro s d hs
    have := key d hs
    cases hp : S.put s d with
    | ok out p => rw [hp] at this; simp only [SRes.size]; simp only at this; omega
    | err out p => rw [hp] at this; simp only [SRes.size]; simp only at this; omega
  · intro s d hs
    have := key d hs
    cases hp : S.put s d with
    | ok out p =>
      rw [hp] at this
      simp only at this
      have hf := hfin p this.1.1 this.1.2
      simp only [SRes.andThen]
      cases hfp : fin p <;> rw [hfp] at hf <;>
        simp only [SRes.size, List.length_append] at hf ⊢ <;> omega
    | err out p => rw [hp] at this; simp only [SRes.andThen, SRes.size]; simp only at this; omega

theorem oneBlock_size (s : σ) (b : Bytes) : (oneBlock f s b).size = (f s b).out.length := by
  unfold oneBlock
  simp only
  cases (f s b).exn <;> rfl

theorem oneBlockRest_size (s : σ) (b r : Bytes) : (oneBlockRest f s b r).size = (f s b).out.length := by
  unfold oneBlockRest
  simp only
  cases (f s b).exn <;> rfl

theorem blockFlush_size (h : Implements c inv f) (p : σ × Bytes) (hp : inv p.1) :
    (blockFlush c.blocksize f p).size ≤ p.2.length + 0 := by
  unfold blockFlush
  split
  · simp [SRes.size]
  · split
    · rename_i h1
      rw [oneBlock_size, h.out_len hp h1, h1]; omega
    · simp [SRes.size]

theorem padEncFinish_size (h : Implements c inv f) {pad : Bytes → Bytes}
    (hpad : ∀ x : Bytes, x.length < c.blocksize → (pad x).length = c.blocksize)
    (p : σ × Bytes) (hp : inv p.1) (hl : p.2.length ≤ c.blocksize) :
    (padEncFinish c.blocksize f pad p).size ≤ p.2.length + c.blocksize := by
  unfold padEncFinish
  split
  · rename_i h1
    have e := oneBlock_size (f := f) p.1 p.2
    rw [h.out_len hp h1] at e
    have hi := h.inv_step hp h1
    unfold oneBlock at e ⊢
    simp only at e ⊢
    cases hx : (f p.1 p.2).exn with
    | some e' => rw [hx] at e; simp only [SRes.andThen, SRes.size] at e ⊢; omega
    | none =>
      rw [hx] at e
      simp only [SRes.andThen, SRes.size] at e ⊢
      have e2 := oneBlockRest_size (f := f) (f p.1 p.2).st (pad []) []
      rw [h.out_len hi (hpad [] (by simpa using h.pos))] at e2
      cases hr : oneBlockRest f (f p.1 p.2).st (pad []) [] <;> rw [hr] at e2 <;>
        simp only [SRes.size, List.length_append] at e2 ⊢ <;> omega
  · rw [oneBlockRest_size, h.out_len hp (hpad _ (by omega))]; omega

theorem padDecFinish_size (h : Implements c inv f) {strip : Bytes → Except Exn Nat}
    (p : σ × Bytes) (hp : inv p.1) :
    (padDecFinish c.blocksize f strip p).size ≤ p.2.length + 0 := by
  unfold padDecFinish
  split
  · rename_i h1
    have e := h.out_len hp h1
    simp only
    cases (f p.1 p.2).exn with
    | some e => simp [SRes.size]
    | none =>
      simp only
      cases strip (f p.1 p.2).out with
      | ok v => simp only [SRes.size, List.length_take]; omega
      | error e => simp [SRes.size]
  · simp [SRes.size]

end

theorem streamSpec_bounded (ks : Nat → Byte) :
    (streamSpec ks).Bounded (streamSpec ks).finish (fun _ => True) id where
  mono _ _ h := h
  keep _ _ := trivial
  put d _ := by simp [streamSpec, SRes.size]
  fin d _ := by simp [streamSpec, SRes.size, SRes.andThen]

theorem genSpec_bounded {α ρ : Type} {f : α → Bytes → BRes α}
    (hf : ∀ a b, (f a b).out.length = b.length) {fin : α → SRes ρ} (hfin : ∀ a, (fin a).size = 0) :
    (genSpec f).Bounded fin (fun _ => True) id := by
  refine ⟨fun _ _ h => h, fun _ _ => trivial, fun {s} d _ => ?_, fun {s} d _ => ?_⟩
  · simp only [genSpec, id]
    cases (f s d).exn <;> simp [SRes.size, hf]
  · simp only [genSpec, id]
    cases (f s d).exn with
    | some e => simp [SRes.size, SRes.andThen, hf]
    | none =>
      have := hfin (f s d).st
      simp only [SRes.andThen]
      cases hr : fin (f s d).st <;> rw [hr] at this <;>
        simp only [SRes.size, List.length_append, hf] at this ⊢ <;> omega

section
variable {ρ : Type}

/-- Each character gives at most `k` bytes, and the end at most `k'`. -/
theorem charSpec_bounded {step : ρ → Byte → SRes ρ} {flush finish : ρ → SRes ρ} {I : ρ → Prop}
    {k k' : Nat} (hI : ∀ {s ch out s'}, I s → step s ch = .ok out s' → I s')
    (hs : ∀ s ch, I s → (step s ch).size ≤ k) (hf : ∀ s, I s → (finish s).size ≤ k') :
    (charSpec step flush finish).Bounded finish I (fun d => k * d + k') := by
  have key : ∀ (d : Bytes) {s : ρ}, I s →
      (∀ out s', runChars step s d = .ok out s' → I s') ∧ (runChars step s d).size ≤ k * d.length := by
    intro d
    induction d with
    | nil => intro s h; exact ⟨by intro out s' e; cases e; exact h, by simp [runChars, SRes.size]⟩
    | cons ch d ih =>
      intro s h
      have h1 := hs s ch h
      simp only [runChars]
      cases he : step s ch with
      | err out e =>
        rw [he] at h1
        simp only [SRes.andThen, SRes.size, List.length_cons] at h1 ⊢
        exact ⟨(by intro _ _ e; cases e), by rw [Nat.mul_succ]; omega⟩
      | ok out s1 =>
        rw [he] at h1
        obtain ⟨i1, i2⟩ := ih (hI h he)
        simp only [SRes.andThen]
        cases hr : runChars step s1 d with
        | err o e =>
          rw [hr] at i2
          simp only [SRes.size, List.length_append, List.length_cons] at h1 i2 ⊢
          exact ⟨(by intro _ _ e; cases e), by rw [Nat.mul_succ]; omega⟩
        | ok o s2 =>
          rw [hr] at i2
          simp only [SRes.size, List.length_append, List.length_cons] at h1 i2 ⊢
          refine ⟨?_, by rw [Nat.mul_succ]; omega⟩
          rintro _ _ e
          cases e
          exact i1 _ _ hr
  refine ⟨?_, ?_, ?_, ?_⟩
  · intro a b h
    have := Nat.mul_le_mul_left k h
    omega
  · intro s d out s' h e
    exact (key d h).1 _ _ e
  · intro s d h
    have := (key d h).2
    simp only [charSpec]; omega
  · intro s d h
    obtain ⟨k1, k2⟩ := key d h
    simp only [charSpec]
    cases hr : runChars step s d with
    | err o e =>
      rw [hr] at k2
      simp only [SRes.andThen, SRes.size] at k2 ⊢; omega
    | ok o s' =>
      rw [hr] at k2
      have h2 := hf s' (k1 _ _ hr)
      simp only [SRes.andThen]
      cases hq : finish s' <;> rw [hq] at h2 <;>
        simp only [SRes.size, List.length_append] at k2 h2 ⊢ <;> omega

end

theorem Hex.encSpec_bounded : Hex.encSpec.Bounded Hex.encSpec.finish (fun _ => True)
    (fun d => 2 * d + 0) :=
  charSpec_bounded (fun _ _ => trivial) (fun _ _ _ => by simp [Hex.encStep, SRes.size])
    (fun _ _ => by simp [SRes.size])

theorem Hex.decSpec_bounded : Hex.decSpec.Bounded Hex.decSpec.finish (fun _ => True)
    (fun d => 1 * d + 0) :=
  charSpec_bounded (fun _ _ => trivial)
    (fun s ch _ => by
      unfold Hex.decStep
      cases Hex.value? ch with
      | some v => simp only; split <;> simp [SRes.size]
      | none => simp only; split <;> simp [SRes.size])
    (fun s _ => by split <;> simp [SRes.size])

theorem B64.encSpec_bounded (ml pad : Bool) : (B64.encSpec ml pad).Bounded (B64.encSpec ml pad).finish
    (fun s => s.1.length ≤ 2) (fun d => 5 * d + 6) := by
  refine charSpec_bounded ?_ ?_ ?_
  · intro s ch out s' h he
    unfold B64.encStep at he
    split at he
    · split at he <;> (cases he; simp)
    · cases he; simp; omega
  · intro s ch h
    unfold B64.encStep
    split
    · rename_i h2
      have hl : (Base64.groupDigits (s.1 ++ [ch])).length = 4 := by
        rw [B64.groupDigits_length (by simp; omega)]; simp [h2]
      split <;> simp [SRes.size, hl]
    · simp [SRes.size]
  · intro s h
    simp only [SRes.size, B64.encEnd, List.length_append]
    have hl := B64.groupDigits_length (g := s.1) (by omega)
    have h1 : ((if s.1 = [] then ([] : Bytes) else (Base64.groupDigits s.1).map Base64.digit
        ++ if ml ∨ pad then List.replicate (3 - s.1.length) 61 else [])).length ≤ 5 := by
      split
      · simp
      · split <;> simp [hl] <;> omega
    have h2 : (if ml = true ∧ s.2 > 0 then ([10] : Bytes) else []).length ≤ 1 := by split <;> simp
    omega

theorem B64.decSpec_bounded : B64.decSpec.Bounded B64.decSpec.finish
    (fun s => s.1.length ≤ 3) (fun d => 3 * d + 3) := by
  refine charSpec_bounded ?_ ?_ ?_
  · intro s ch out s' h he
    unfold B64.decStep at he
    split at he
    · cases he; exact h
    · split at he
      · split at he
        · cases he
        · split at he
          · cases he; simp
          · cases he; simp; omega
      · split at he <;> cases he
        exact h
  · intro s ch h
    unfold B64.decStep
    split
    · simp [SRes.size]
    · split
      · split
        · simp [SRes.size]
        · split
          · rename_i v _ _ h3
            simp only [SRes.size]
            rw [B64.groupBytes_length _ (by simp [h3])]
            simp [h3]
          · simp [SRes.size]
      · split <;> simp [SRes.size]
  · intro s h
    unfold B64.decEnd
    split
    · simp [SRes.size]
    · simp only [SRes.size]
      rw [B64.groupBytes_length _ (by omega)]
      omega

end Verif
