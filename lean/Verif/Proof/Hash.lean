import Verif.Spec.Hash
import Verif.Proof.Bytes
/-
A context relation preserved by `update` and consumed by `final` gives `Computes`.
-/
namespace Verif

/-- `update` preserves `R` (which ties the context to the data added so far) and `final` returns
`f` of that data. -/
structure StubSpec (R : Bytes → τ → Prop) (update : τ → Bytes → Option τ)
    (final : τ → Option (Bytes × τ)) (f : Bytes → Bytes) : Prop where
  update : ∀ m c d, R m c → d.length ≤ maxString → ∃ c', update c d = some c' ∧ R (m ++ d) c'
  final : ∀ m c, R m c → ∃ c', final c = some (f m, c')

theorem hinputOf_nil : hinputOf [] = [] := rfl
theorem hinputOf_cons (op : HOp) (ops : List HOp) :
    hinputOf (op :: ops) = op.input ++ hinputOf ops := by simp [hinputOf]

theorem HOp.input_le {op : HOp} (h : op.Legal) : op.input.length ≤ maxString := by
  cases op with
  | addSubstring b ofs len =>
    obtain ⟨h1, _, _, h4⟩ := h
    simp only [HOp.input, slice_length]; omega
  | addString s => exact h
  | addChar c => simp [HOp.input, maxString]
  | addByte b => simp [HOp.input, maxString]

theorem stubHash_call {size : Nat} {update : τ → Bytes → Option τ}
    {final : τ → Option (Bytes × τ)} {wipe : τ → τ} {op : HOp} (h : op.Legal) {s s' : τ}
    (hu : update s op.input = some s') :
    (stubHash size update final wipe).call op s = .ok () s' := by
  cases op with
  | addSubstring b ofs len =>
    obtain ⟨_, h1, h2, h3⟩ := h
    simp only [HOp.input] at hu
    simp only [HashObj.call, stubHash]
    rw [if_neg (by omega)]
    simp [M.bind_def, hu]
  | addString _ | addChar _ | addByte _ =>
    simp only [HOp.input] at hu
    simp [HashObj.call, stubHash, M.bind_def, hu]

/-- An out-of-range `add_substring` raises `Invalid_argument` and changes nothing. -/
theorem stubHash_addSubstring_bad {size : Nat} {update : τ → Bytes → Option τ}
    {final : τ → Option (Bytes × τ)} {wipe : τ → τ} {b : Bytes} {ofs len : Int}
    (h : ¬ InRange b ofs len) (s : τ) :
    (stubHash size update final wipe).addSubstring b ofs len s = .exn .invalidArg s := by
  simp only [stubHash]
  rw [if_pos (by unfold InRange at h; omega)]
  rfl

theorem stubHash_calls {R : Bytes → τ → Prop} {size : Nat} {update : τ → Bytes → Option τ}
    {final : τ → Option (Bytes × τ)} {wipe : τ → τ} {f : Bytes → Bytes}
    (hs : StubSpec R update final f) (ops : List HOp) (hl : ∀ op ∈ ops, op.Legal) {m : Bytes}
    {s : τ} (hr : R m s) :
    ∃ s', (stubHash size update final wipe).calls ops s = .ok () s' ∧ R (m ++ hinputOf ops) s' := by
  induction ops generalizing m s with
  | nil => exact ⟨s, rfl, by simpa [hinputOf_nil] using hr⟩
  | cons op ops ih =>
    have hop := hl op List.mem_cons_self
    obtain ⟨s1, h1, r1⟩ := hs.update m s op.input hr (HOp.input_le hop)
    obtain ⟨s2, h2, r2⟩ := ih (fun o ho => hl o (List.mem_cons_of_mem _ ho)) r1
    refine ⟨s2, ?_, ?_⟩
    · rw [HashObj.calls, stubHash_call hop h1]; exact h2
    · rw [hinputOf_cons, ← List.append_assoc]; exact r2

theorem stubHash_computes {R : Bytes → τ → Prop} {size : Nat} {update : τ → Bytes → Option τ}
    {final : τ → Option (Bytes × τ)} {wipe : τ → τ} {f : Bytes → Bytes}
    (hs : StubSpec R update final f) {s : τ} (hr : R [] s) :
    (stubHash size update final wipe).Computes s f := by
  intro ops hl
  obtain ⟨s1, h1, r1⟩ := stubHash_calls (size := size) (wipe := wipe) hs ops hl hr
  obtain ⟨s2, h2⟩ := hs.final _ _ r1
  rw [HashObj.digest, h1]
  simp [stubHash, M.bind_def, h2, Out.observe]

/-- `hash_string` returns the function computed. -/
theorem hashString_ok {R : Bytes → τ → Prop} {size : Nat} {update : τ → Bytes → Option τ}
    {final : τ → Option (Bytes × τ)} {wipe : τ → τ} {f : Bytes → Bytes}
    (hs : StubSpec R update final f) {s : τ} (hr : R [] s) (x : Bytes) (hx : x.length ≤ maxString) :
    (hashString (stubHash size update final wipe) x s).observe = some (.ok (f x)) := by
  obtain ⟨s1, h1, r1⟩ := hs.update [] s x hr hx
  obtain ⟨s2, h2⟩ := hs.final _ _ r1
  simp [hashString, stubHash, M.bind_def, h1, h2, Out.observe]

end Verif
