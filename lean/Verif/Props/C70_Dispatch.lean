import Verif.Model.Dispatch
import Verif.Props.C33_Ghash
import Verif.Props.C41_C42_Aes
/-
C70: whatever the interleaving of threads that prepare and use keys while the presence of special
instructions is being determined, every result is right.
-/
namespace Verif

open Dispatch

/-- `f` is what both implementations compute, for the keys and blocks in `K` and `B`. -/
structure Dispatch.Agree (I : Impls κ β) (K : κ → Prop) (B : β → Prop) (f : κ → β → β) : Prop where
  soft : ∀ k, K k → ∃ s, I.prepS k = some s ∧ ∀ b, B b → I.runS s b = some (f k b)
  hard : ∀ k, K k → ∃ h, I.prepH k = some h ∧ ∀ b, B b → I.runH h b = some (f k b)

/-- The invariant: once the variable has its final value `v` it keeps it; it has it whenever a
thread is past the test or a key exists; every key was prepared by the code for `v`. -/
structure DispatchInv (I : Impls κ β) (K : κ → Prop) (B : β → Prop) (f : κ → β → β) (v : Int)
    (s : State I) : Prop where
  flag : s.flag = -1 ∨ s.flag = v
  choice : ∀ i k, s.thr i = .atChoice k → s.flag = v
  ctxs : ∀ c ∈ s.ctxs, s.flag = v ∧ c.data = (prepare I v c.key).data
  log : ∀ e ∈ s.log, K e.1 → B e.2.1 → e.2.2 = some (f e.1 e.2.1)

theorem Dispatch.use_prepare {I : Impls κ β} {K : κ → Prop} {B : β → Prop} {f : κ → β → β}
    (hA : Agree I K B f) (v : Int) (c : Ctx I) (hc : c.data = (prepare I v c.key).data)
    (hk : K c.key) (b : β) (hb : B b) : use I v c b = some (f c.key b) := by
  unfold use
  rw [hc]
  unfold prepare
  by_cases h : v = 1
  · obtain ⟨x, h1, h2⟩ := hA.hard c.key hk
    simp [h, h1, h2 b hb]
  · obtain ⟨x, h1, h2⟩ := hA.soft c.key hk
    simp [h, h1, h2 b hb]

theorem dispatch_inv {I : Impls κ β} {K : κ → Prop} {B : β → Prop} {f : κ → β → β}
    (hA : Agree I K B f) (compiled cpu : Bool) (s : State I) (hs : Reach I compiled cpu s) :
    ∃ v, v = (if compiled && cpu then (1 : Int) else 0) ∧ DispatchInv I K B f v s := by
  refine ⟨_, rfl, ?_⟩
  have hcheck : ∀ g : Int, (g = -1 ∨ g = (if compiled && cpu then (1 : Int) else 0)) →
      (compiled = false → g = 0) →
      check compiled cpu g = (if compiled && cpu then (1 : Int) else 0) := by
    intro g _ h0
    unfold check
    cases compiled
    · simpa using h0 rfl
    · cases cpu <;> rfl
  have hcomp : ∀ s, Reach I compiled cpu s → compiled = false → s.flag = 0 := by
    intro s hs hc
    subst hc
    induction hs with
    | start => rfl
    | step _ hst ih =>
      cases hst with
      | call i k h => exact ih
      | test i k h => exact ih
      | check i k h => exact ih
      | prepare i k h => exact ih
      | use i c b h hm => exact ih
  induction hs with
  | start =>
    refine ⟨?_, ?_, ?_, ?_⟩
    · cases compiled <;> simp [Dispatch.start]
    · intro i k h; cases h
    · intro c hc; cases hc
    · intro e he; cases he
  | @step s s' hr hst ih =>
    cases hst with
    | call i k h =>
      refine ⟨ih.flag, ?_, ih.ctxs, ih.log⟩
      intro j k' hj
      simp only [State.put] at hj
      split at hj
      · cases hj
      · exact ih.choice j k' hj
    | test i k h =>
      refine ⟨ih.flag, ?_, ih.ctxs, ih.log⟩
      intro j k' hj
      simp only [State.put] at hj
      split at hj
      · rcases ih.flag with hf | hf
        · rw [if_pos hf] at hj; cases hj
        · exact hf
      · exact ih.choice j k' hj
    | check i k h =>
      have hv := hcheck s.flag ih.flag (hcomp s hr)
      exact ⟨.inr hv, fun _ _ _ => hv, fun c hc => ⟨hv, (ih.ctxs c hc).2⟩, ih.log⟩
    | prepare i k h =>
      have hv := ih.choice i k h
      refine ⟨ih.flag, ?_, ?_, ih.log⟩
      · intro j k' hj
        simp only [State.put] at hj
        split at hj
        · cases hj
        · exact ih.choice j k' hj
      · intro c hc
        rcases List.mem_cons.1 hc with rfl | hc
        · refine ⟨hv, ?_⟩
          show (prepare I s.flag k).data = _
          rw [hv]; rfl
        · exact ih.ctxs c hc
    | use i c b h hm =>
      refine ⟨ih.flag, ih.choice, ih.ctxs, ?_⟩
      intro e he
      rcases List.mem_cons.1 he with rfl | he
      · intro hk hb
        obtain ⟨hv, hd⟩ := ih.ctxs c hm
        show use I s.flag c b = _
        rw [hv]
        exact use_prepare hA _ c hd hk b hb
      · exact ih.log e he

/-- C70, for any two implementations of the same function. -/
theorem C70_dispatch (I : Impls κ β) (K : κ → Prop) (B : β → Prop) (f : κ → β → β)
    (hA : Agree I K B f) (compiled cpu : Bool) (s : State I) (hs : Reach I compiled cpu s)
    (k : κ) (b : β) (r : Option β) (he : (k, b, r) ∈ s.log) (hk : K k) (hb : B b) :
    r = some (f k b) := by
  obtain ⟨v, _, h⟩ := dispatch_inv hA compiled cpu s hs
  exact h.log _ he hk hb

/-- C70, AES: every block encrypted or decrypted by any thread is what FIPS 197 says. -/
theorem C70_aes (compiled cpu : Bool) (s : State Dispatch.aes) (hs : Reach Dispatch.aes compiled cpu s)
    (q : AesReq) (b : Bytes) (r : Option Bytes) (he : (q, b, r) ∈ s.log)
    (hk : q.key.length = 16 ∨ q.key.length = 24 ∨ q.key.length = 32) (hb : b.length = 16) :
    r = some (match q.dir with
      | .encrypt => Spec.Aes.encrypt q.key b
      | .decrypt => Spec.Aes.decrypt q.key b) := by
  refine C70_dispatch Dispatch.aes
    (fun q => q.key.length = 16 ∨ q.key.length = 24 ∨ q.key.length = 32) (fun b => b.length = 16)
    (fun q b => match q.dir with
      | .encrypt => Spec.Aes.encrypt q.key b
      | .decrypt => Spec.Aes.decrypt q.key b) ⟨?_, ?_⟩ compiled cpu s hs q b r he hk hb
  · rintro ⟨dir, key, jS, jH, pad⟩ hk
    cases dir with
    | encrypt => exact ⟨_, rfl, fun b hb => Aes.enc_stub jS hk hb⟩
    | decrypt => exact ⟨_, rfl, fun b hb => Aes.dec_stub jS hk hb⟩
  · rintro ⟨dir, key, jS, jH, pad⟩ hk
    cases dir with
    | encrypt =>
      obtain ⟨k, h1, h2⟩ := Aesni.enc_stub jH pad hk
      exact ⟨(k, .encrypt), by simp [Dispatch.aes, h1], h2⟩
    | decrypt =>
      obtain ⟨k, h1, h2⟩ := Aesni.dec_stub jH pad hk
      exact ⟨(k, .decrypt), by simp [Dispatch.aes, h1], h2⟩

/-- C70, GHASH: every multiplication by any thread is that of SP 800-38D. -/
theorem C70_ghash (compiled cpu : Bool) (s : State Dispatch.ghash)
    (hs : Reach Dispatch.ghash compiled cpu s) (key x : Bytes) (r : Option Bytes)
    (he : (key, x, r) ∈ s.log) (hk : key.length = 16) (hx : x.length = 16) :
    r = some (Spec.ghashMul x key) := by
  refine C70_dispatch Dispatch.ghash (fun k => k.length = 16) (fun x => x.length = 16)
    (fun key x => Spec.ghashMul x key) ⟨?_, ?_⟩ compiled cpu s hs key x r he hk hx
  · intro k hk
    obtain ⟨g, h1, _⟩ := C33_ghash false k (List.replicate 16 0) hk (by simp)
    refine ⟨g, h1, fun x hx => ?_⟩
    obtain ⟨g', h2, h3⟩ := C33_ghash false k x hk hx
    rw [h1] at h2
    rw [Option.some.inj h2]; exact h3
  · intro k hk
    obtain ⟨g, h1, _⟩ := C33_ghash true k (List.replicate 16 0) hk (by simp)
    refine ⟨g, h1, fun x hx => ?_⟩
    obtain ⟨g', h2, h3⟩ := C33_ghash true k x hk hx
    rw [h1] at h2
    rw [Option.some.inj h2]; exact h3

namespace Example

/-- Two threads race: thread 1 finds the variable undetermined, thread 2 determines it, prepares a
key and uses it; then thread 1 determines it again, prepares its key; thread 2 uses it. -/
example : ∃ s : State Dispatch.ghash, Reach Dispatch.ghash true true s ∧ s.log.length = 2
    ∧ ∀ key x r, (key, x, r) ∈ s.log → key.length = 16 ∧ x.length = 16 := by
  have h0 := Reach.start (I := Dispatch.ghash) (compiled := true) (cpu := true)
  have h1 := h0.step (.call 1 gcmH rfl)
  have h2 := h1.step (.call 2 gcmX rfl)
  have h3 := h2.step (.test 1 gcmH rfl)
  have h4 := h3.step (.test 2 gcmX rfl)
  have h5 := h4.step (.check 2 gcmX rfl)
  have h6 := h5.step (.prepare 2 gcmX rfl)
  have h7 := h6.step (.use 2 (prepare Dispatch.ghash 1 gcmX) gcmH rfl (List.mem_cons_self))
  have h8 := h7.step (.check 1 gcmH rfl)
  have h9 := h8.step (.prepare 1 gcmH rfl)
  have h10 := h9.step (.use 2 (prepare Dispatch.ghash 1 gcmH) gcmX rfl (List.mem_cons_self))
  refine ⟨_, h10, rfl, ?_⟩
  intro key x r h
  rcases List.mem_cons.1 h with h | h
  · cases h; decide
  rcases List.mem_cons.1 h with h | h
  · cases h; decide
  cases h

end Example

end Verif
