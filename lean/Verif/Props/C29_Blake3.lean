import Verif.Proof.Blake3
import Verif.Props.C25_HashSize
import Verif.Props.Example
/-
C29: `Hash.blake3`, `Hash.blake3_custom` and the keyed `MAC.blake3` compute BLAKE3.
-/
namespace Verif

/-- The result of a history of calls, when the data added is shorter than `limit` bytes. -/
def HashObj.ComputesBelow (h : HashObj τ) (limit : Nat) (s : τ) (f : Bytes → Bytes) : Prop :=
  ∀ ops : List HOp, (∀ op ∈ ops, op.Legal) → (hinputOf ops).length < limit →
    (h.digest ops s).observe = some (.ok (f (hinputOf ops)))

theorem b3Class_calls {e : B3Env} (he : 1 ≤ e.maxSimd) (sz : Int) {key : List W32} {f : BitVec 8}
    (ops : List HOp) (hl : ∀ op ∈ ops, op.Legal) {m : Bytes} {h : B3Hasher} (hr : HRep key f m h)
    (hlt : (m ++ hinputOf ops).length < 2 ^ 64) :
    ∃ h', (b3Class e sz).calls ops (some h) = .ok () (some h') ∧ HRep key f (m ++ hinputOf ops) h' := by
  induction ops generalizing m h with
  | nil => exact ⟨h, rfl, by simpa [hinputOf_nil] using hr⟩
  | cons op ops ih =>
    rw [hinputOf_cons, ← List.append_assoc] at hlt ⊢
    have hop := hl op List.mem_cons_self
    obtain ⟨s1, h1, r1⟩ := b3Update_rep he op.input hr (by
      rw [List.length_append] at hlt; omega)
    obtain ⟨s2, h2, r2⟩ := ih (fun o ho => hl o (List.mem_cons_of_mem _ ho)) r1 hlt
    refine ⟨s2, ?_, r2⟩
    rw [HashObj.calls]
    unfold b3Class
    rw [stubHash_call (s' := some s1) hop (by
      show (b3Update e h op.input).map some = _
      rw [h1]; rfl)]
    exact h2

theorem b3Class_result {e : B3Env} {sz : Int} {key : List W32} {f : BitVec 8} {m : Bytes}
    {h : B3Hasher} (hr : HRep key f m h) :
    (b3Class e sz).result (some h) =
      .ok ((Spec.B3.tree key (f.setWidth 32) 0 m).output (sz / 8).toNat) (some h) := by
  simp [b3Class, stubHash, M.bind_def, b3Finalize_rep hr]

/-- C29: any object built by the constructor, after any legal additions of less than 2^64 bytes in
all (the domain of BLAKE3), cut in any way, returns BLAKE3 of the concatenation, for the size and
key given, and whatever the size of the working arrays (`MAX_SIMD_DEGREE`, which depends on the
platform) and the bytes found in uninitialised memory. -/
theorem C29_blake3 (e : B3Env) (he : 1 ≤ e.maxSimd) (key : Bytes) (sz : Int) (stack0 : Bytes)
    (hs : stack0.length = 1760) (s : Option B3Hasher) (h : b3New key sz stack0 = .ok s) :
    (b3Class e sz).ComputesBelow (2 ^ 64) s (Spec.BLAKE3 (sz / 8).toNat key) := by
  intro ops hl hlt
  unfold b3New at h
  split at h
  · next hk =>
    cases h
    obtain ⟨f, hf, hr⟩ := b3Init_rep key stack0 hk.2.2 hs
    obtain ⟨h', h1, h2⟩ := b3Class_calls he sz ops hl hr hlt
    rw [List.nil_append] at h2
    rw [HashObj.digest, h1]
    simp only [b3Class_result h2, Out.observe, hf]
    rfl
  · cases h

/-- C29, second part: `result` may be called several times, and does not prevent from adding more
data. -/
theorem C29_blake3_incremental (e : B3Env) (he : 1 ≤ e.maxSimd) (key : Bytes) (sz : Int)
    (stack0 : Bytes) (hs : stack0.length = 1760) (s : Option B3Hasher)
    (h : b3New key sz stack0 = .ok s) (ops : List HOp) (hl : ∀ op ∈ ops, op.Legal)
    (hlt : (hinputOf ops).length < 2 ^ 64) :
    ∃ s', (b3Class e sz).calls ops s = .ok () s' ∧
      (b3Class e sz).result s' = .ok (Spec.BLAKE3 (sz / 8).toNat key (hinputOf ops)) s' := by
  unfold b3New at h
  split at h
  · next hk =>
    cases h
    obtain ⟨f, hf, hr⟩ := b3Init_rep key stack0 hk.2.2 hs
    obtain ⟨h', h1, h2⟩ := b3Class_calls he sz ops hl hr hlt
    rw [List.nil_append] at h2
    refine ⟨_, h1, ?_⟩
    rw [b3Class_result h2, hf]
    rfl
  · cases h

/-- C14 for BLAKE3: digest sizes are the positive multiples of 8 bits, keys have 0 or 32 bytes;
everything else raises `Wrong_key_size`. -/
theorem C14_blake3_args (key : Bytes) (sz : Int) (stack0 : Bytes) :
    b3New key sz stack0 = .error (.error .wrongKeySize) ↔
      ¬ ((∃ n : Nat, 1 ≤ n ∧ sz = 8 * n) ∧ (key.length = 0 ∨ key.length = 32)) := by
  have hm : sz > 0 → (sz.tmod 8 = 0 ↔ sz % 8 = 0) := fun h => by
    rw [Int.tmod_eq_emod_of_nonneg (by omega)]
  unfold b3New
  split
  · next h =>
    simp only [reduceCtorEq, false_iff, Classical.not_not]
    have := (hm h.1).1 h.2.1
    exact ⟨⟨(sz / 8).toNat, by omega, by omega⟩, h.2.2⟩
  · next h =>
    simp only [true_iff]
    rintro ⟨⟨n, h1, h2⟩, h3⟩
    exact h ⟨by omega, (hm (by omega)).2 (by omega), h3⟩

theorem b3output_length (n : Spec.B3.Node) (k : Nat) : (n.output k).length = k := by
  unfold Spec.B3.Node.output
  rw [List.length_take, flatten_length_of _ (n := 64) (by
    intro b hb
    obtain ⟨i, _, rfl⟩ := List.mem_map.1 hb
    exact rootBlock_length n i)]
  simp
  omega

/-- C25, BLAKE3, with or without key: the result has `hash_size` bytes. -/
theorem C25_blake3_partial (e : B3Env) (he : 1 ≤ e.maxSimd) (key : Bytes) (sz : Int) (stack0 : Bytes)
    (hs : stack0.length = 1760) (s : Option B3Hasher) (h : b3New key sz stack0 = .ok s)
    (ops : List HOp) (hl : ∀ op ∈ ops, op.Legal) (hlt : (hinputOf ops).length < 2 ^ 64) :
    ∃ r, ((b3Class e sz).digest ops s).observe = some (.ok r) ∧
      r.length = (b3Class e sz).hashSize :=
  ⟨_, C29_blake3 e he key sz stack0 hs s h ops hl hlt, b3output_length _ _⟩

/-- C63 is false of BLAKE3: any addition, or `result`, after `wipe` dereferences a null pointer
(src/stubs-blake3.c:61-86). -/
theorem C63_blake3_after_wipe (e : B3Env) (sz : Int) (s : Option B3Hasher) :
    ∃ s', (b3Class e sz).wipe s = .ok () s' ∧
      (∀ d, (b3Class e sz).addString d s' = .ub) ∧ (b3Class e sz).result s' = .ub :=
  ⟨none, rfl, fun _ => rfl, rfl⟩

/-- The same holds of SHA-3 and Keccak. -/
theorem C63_sha3_after_wipe (sz : Nat) (official : Bool) (s : Option Sha3Ctx) :
    ∃ s', (sha3Class sz official).wipe s = .ok () s' ∧
      (∀ d, (sha3Class sz official).addString d s' = .ub) ∧
      (sha3Class sz official).result s' = .ub :=
  ⟨none, rfl, fun _ => rfl, rfl⟩

namespace Example

set_option maxRecDepth 100000 in
/-- BLAKE3 of "abc", obtained by running the model on `hops`. -/
theorem blake3_abc : Spec.BLAKE3 32 [] (ascii "abc") = natToBE 32
    0x6437b3ac38465133ffb63b75273a8db548c558465d79db03fd359c6cd5bd9d85 := by
  have h := C29_blake3 ⟨2, 0xaa⟩ (by decide) [] 256 (List.replicate 1760 0x55) (by decide) _ rfl hops
    hops_legal (by rw [hops_input]; decide)
  have e : ((b3Class ⟨2, 0xaa⟩ 256).digest hops (some (b3Init [] (List.replicate 1760 0x55)))).observe
      = some (.ok (natToBE 32
    0x6437b3ac38465133ffb63b75273a8db548c558465d79db03fd359c6cd5bd9d85)) := by
    decide +kernel
  rw [show (256 / 8 : Int).toNat = 32 by decide] at h
  rw [h, hops_input] at e
  exact Except.ok.inj (Option.some.inj e)

/-- A keyed 1000-byte BLAKE3 is accepted. -/
example : (b3New (List.replicate 32 7) 8000 (List.replicate 1760 0)).toOption.isSome = true := by
  decide +kernel

end Example

end Verif
