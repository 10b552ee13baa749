import Verif.Props.C97_UninitHash
import Verif.Props.C29_Blake3
/-
C97 for BLAKE3: neither the stack of the context nor the uninitialised local arrays matter.
-/
namespace Verif

open Spec

/-- The data added by a sequence of calls on a hash. -/
def Spec.addedBy (cs : List HashCall) : Bytes :=
  (cs.map fun | .add op => op.input | .result => []).flatten

theorem stub_add_at {τ τ' : Type} {L0 L : τ → τ' → Prop} {u : τ → Bytes → Option τ} {u' : τ' → Bytes → Option τ'}
    {f : τ → Option (Bytes × τ)} {f' : τ' → Option (Bytes × τ')} {w : τ → τ} {w' : τ' → τ'} {n : Nat} {op : HOp}
    {t : τ} {t' : τ'} (h0 : L0 t t') (hu : SameOpt L (u t op.input) (u' t' op.input)) :
    Sim (fun _ => L) L0 ((stubHash n u f w).call op t) ((stubHash n u' f' w').call op t') := by
  have go : ∀ d, SameOpt L (u t d) (u' t' d) → Sim (fun _ => L) L0
      ((do let c ← M.get
           let c' ← M.orUB (u c d)
           M.modify fun _ => c' : M τ Unit) t)
      ((do let c ← M.get
           let c' ← M.orUB (u' c d)
           M.modify fun _ => c' : M τ' Unit) t') := by
    intro d h
    refine Sim.get ?_
    cases h1 : u t d <;> cases h2 : u' t' d <;> rw [h1, h2] at h
    · trivial
    · exact h.elim
    · exact h.elim
    · exact ⟨rfl, h⟩
  cases op with
  | addSubstring b ofs len =>
    show Sim _ _ ((do if ofs < 0 ∨ len < 0 ∨ ofs > (b.length : Int) - len then M.raise .invalidArg
                      let c ← M.get
                      let c' ← M.orUB (u c (slice b ofs.toNat len.toNat))
                      M.modify fun _ => c' : M τ Unit) t)
      ((do if ofs < 0 ∨ len < 0 ∨ ofs > (b.length : Int) - len then M.raise .invalidArg
           let c ← M.get
           let c' ← M.orUB (u' c (slice b ofs.toNat len.toNat))
           M.modify fun _ => c' : M τ' Unit) t')
    split
    · exact ⟨rfl, h0⟩
    · exact go _ hu
  | addString b => exact go _ hu
  | addChar c => exact go _ hu
  | addByte c => exact go _ hu

theorem b3_trace {e e' : B3Env} (he : 1 ≤ e.maxSimd) (he' : 1 ≤ e'.maxSimd) (sz : Int) {key : List W32} {f : BitVec 8}
    (cs : List HashCall) : ∀ {m : Bytes} {h h' : B3Hasher}, HRep key f m h → HRep key f m h' →
    m.length + (addedBy cs).length < 2 ^ 64 →
    traceBy (performHash (b3Class e sz)) cs (some h) = traceBy (performHash (b3Class e' sz)) cs (some h') := by
  induction cs with
  | nil => intros; rfl
  | cons c cs ih =>
    intro m h h' hr hr' hl
    rw [traceBy, traceBy]
    cases c with
    | result =>
      have r1 := b3Class_result (e := e) (sz := sz) hr
      have r2 := b3Class_result (e := e') (sz := sz) hr'
      simp only [performHash, r1, r2]
      rw [ih hr hr' (by simpa [addedBy] using hl)]
    | add op =>
      have hl' : m.length + op.input.length + (addedBy cs).length < 2 ^ 64 := by
        simp only [addedBy, List.map_cons, List.flatten_cons, List.length_append] at hl ⊢
        omega
      obtain ⟨k, u1, q1⟩ := b3Update_rep he op.input hr (by rw [List.length_append]; omega)
      obtain ⟨k', u2, q2⟩ := b3Update_rep he' op.input hr' (by rw [List.length_append]; omega)
      let L0 : Option B3Hasher → Option B3Hasher → Prop := fun t t' => t = some h ∧ t' = some h'
      let L : Option B3Hasher → Option B3Hasher → Prop := fun t t' => t = some k ∧ t' = some k'
      have hs : Sim (fun _ => L) L0 ((b3Class e sz).call op (some h)) ((b3Class e' sz).call op (some h')) := by
        unfold b3Class
        refine stub_add_at ⟨rfl, rfl⟩ ?_
        simp only [Option.bind_some, u1, u2, Option.map_some]
        exact ⟨rfl, rfl⟩
      simp only [performHash, M.bind_def]
      cases h1 : (b3Class e sz).call op (some h) <;> cases h2 : (b3Class e' sz).call op (some h') <;> rw [h1, h2] at hs
      case ok.ok =>
        obtain ⟨-, rfl, rfl⟩ := hs
        simp only [M.pure_def]
        rw [ih q1 q2 (by rw [List.length_append]; omega)]
      case exn.exn =>
        obtain ⟨rfl, rfl, rfl⟩ := hs
        simp only
        rw [ih hr hr' (by omega)]
      all_goals first | exact hs.elim | rfl

/-- C97, `Hash.blake3`, `Hash.blake3_custom` and `MAC.blake3`, for less than 2^64 bytes in all, the domain of
BLAKE3. The hosts may differ in their SIMD instructions too. -/
theorem C97_blake3 {e e' : B3Env} (he : 1 ≤ e.maxSimd) (he' : 1 ≤ e'.maxSimd) (key : Bytes) (sz : Int)
    {stack stack' : Bytes} (hs : stack.length = 1760) (hs' : stack'.length = 1760) :
    SameResult (fun t t' => ∀ cs : List HashCall, (addedBy cs).length < 2 ^ 64 →
        traceBy (performHash (b3Class e sz)) cs t = traceBy (performHash (b3Class e' sz)) cs t')
      (some (b3New key sz stack)) (some (b3New key sz stack')) := by
  unfold b3New
  split
  · next hk =>
    obtain ⟨f, hf, hr⟩ := b3Init_rep key stack hk.2.2 hs
    obtain ⟨f', hf', hr'⟩ := b3Init_rep key stack' hk.2.2 hs'
    have hff : f = f' := by
      apply BitVec.eq_of_toNat_eq
      have := congrArg BitVec.toNat (hf.trans hf'.symm)
      simp only [BitVec.toNat_setWidth] at this
      omega
    subst hff
    exact fun cs hl => b3_trace he he' sz cs hr hr' (by simpa using hl)
  · rfl

/-- Calls within the bound, on contexts whose memory differs. -/
example (e e' : B3Env) (he : 1 ≤ e.maxSimd) (he' : 1 ≤ e'.maxSimd) :
    (addedBy [.add (.addString [1, 2, 3]), .result]).length < 2 ^ 64 ∧
    SameResult (fun t t' => ∀ cs : List HashCall, (addedBy cs).length < 2 ^ 64 →
        traceBy (performHash (b3Class e 256)) cs t = traceBy (performHash (b3Class e' 256)) cs t')
      (some (b3New [] 256 (List.replicate 1760 0))) (some (b3New [] 256 (List.replicate 1760 0xA5))) :=
  ⟨by decide, C97_blake3 he he' [] 256 List.length_replicate List.length_replicate⟩

end Verif
