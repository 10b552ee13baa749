import Verif.Spec.OneUse
import Verif.Props.C57_C58_DH
/-
C107: `DH.shared_secret` destroys the private secret, which can no longer be used afterwards.
-/
namespace Verif

open Spec

/-- The values of the secrets `xs` after the calls `before`. -/
private def remains (xs : List Nat) (before : List DhCall) : List Int :=
  xs.mapIdx fun (i x : Nat) => if before.any (consumes i) then zWipe (x : Int) else (x : Int)

private theorem remains_get {xs : List Nat} {before : List DhCall} {i : Nat} :
    (remains xs before)[i]? = xs[i]?.map fun (x : Nat) => if before.any (consumes i) then zWipe (x : Int) else (x : Int) := by
  simp [remains]

private theorem zWipe_zWipe (n : Int) : zWipe (zWipe n) = zWipe n := by
  unfold zWipe
  by_cases h : -2 ^ 62 ≤ n ∧ n < 2 ^ 62
  · rw [if_pos h, if_pos h]
  · rw [if_neg h]; decide

private theorem dhMessage_zero (e : BnEnv) (params : DhParams) :
    dhMessage e params 0 = .error .invalidArg := rfl

private theorem dhShared_zero (e : BnEnv) (params : DhParams) (m : Bytes) :
    dhSharedSecret e params 0 m = .error .invalidArg := rfl

private theorem remains_message {xs : List Nat} {before : List DhCall} {i : Nat} :
    remains xs (before ++ [.message i]) = remains xs before := by
  simp [remains, consumes]

private theorem remains_shared {xs : List Nat} {before : List DhCall} {i : Nat} {m : Bytes} {x : Nat}
    (hx : xs[i]? = some x) :
    remains xs (before ++ [.sharedSecret i m]) = (remains xs before).set i (zWipe x) := by
  apply List.ext_getElem?
  intro j
  rw [remains_get, List.getElem?_set]
  by_cases hj : i = j
  · subst hj
    rw [if_pos rfl, hx]
    have hl : i < (remains xs before).length := by
      have := (List.getElem?_eq_some_iff.1 hx).1
      simpa [remains] using this
    rw [if_pos hl]
    simp [consumes]
  · rw [if_neg hj, remains_get]
    have : (before ++ [DhCall.sharedSecret i m]).any (consumes j) = before.any (consumes j) := by
      have : (j == i) = false := by simpa using fun h => hj h.symm
      simp [consumes, this]
    rw [this]

private theorem remains_shared_none {xs : List Nat} {before : List DhCall} {i : Nat} {m : Bytes}
    (hx : xs[i]? = none) :
    remains xs (before ++ [.sharedSecret i m]) = remains xs before := by
  apply List.ext_getElem?
  intro j
  rw [remains_get, remains_get]
  by_cases hj : j = i
  · subst hj; rw [hx]; rfl
  · have : (before ++ [DhCall.sharedSecret i m]).any (consumes j) = before.any (consumes j) := by
      have : (j == i) = false := by simpa using hj
      simp [consumes, this]
    rw [this]

/-- The outcome of a call as the model has it. -/
private def asOut (r : Except Exn α) (s : σ) : Out σ α :=
  match r with
  | .ok a => .ok a s
  | .error x => .exn x s

private theorem outcome_none {p g : Bytes} {d : Nat → Bool} {xs : List Nat} {before : List DhCall}
    {c : DhCall} (hx : xs[secretOf c]? = none) : dhOutcome p g d xs before c = .ok [] := by
  unfold dhOutcome; rw [hx]

private theorem outcome_dead {p g : Bytes} {d : Nat → Bool} {xs : List Nat} {before : List DhCall}
    {c : DhCall} {x : Nat} (hx : xs[secretOf c]? = some x) (hd : d x = true)
    (hb : before.any (consumes (secretOf c)) = true) :
    dhOutcome p g d xs before c = .error .invalidArg := by
  unfold dhOutcome; rw [hx]; exact if_pos (by rw [hd, hb]; rfl)

private theorem outcome_alive {p g : Bytes} {d : Nat → Bool} {xs : List Nat} {before : List DhCall}
    {c : DhCall} {x : Nat} (hx : xs[secretOf c]? = some x)
    (hd : ¬ (d x = true ∧ before.any (consumes (secretOf c)) = true)) :
    dhOutcome p g d xs before c = .ok (natToBE p.length (dhBase g c ^ x % beNat p)) := by
  unfold dhOutcome; rw [hx]; exact if_neg (by rw [Bool.and_eq_true]; exact hd)

private theorem call_step {e : BnEnv} (he : 0 < e.limb) {params : DhParams}
    (hl : e.limb ∣ params.p.length) (hodd : beNat params.p % 2 = 1) {xs : List Nat}
    (hpos : ∀ x ∈ xs, 0 < x) (before : List DhCall) (c : DhCall) :
    c.run e params (remains xs before)
      = asOut (dhOutcome params.p params.g (decide <| 2 ^ 62 ≤ ·) xs before c)
          (remains xs (before ++ [c])) := by
  have hlive : ∀ {i x : Nat}, ¬ (decide (2 ^ 62 ≤ x) = true ∧ before.any (consumes i) = true) →
      (if before.any (consumes i) = true then zWipe (x : Int) else (x : Int)) = x := by
    intro i x hd
    split
    · next hu =>
      refine if_pos ⟨by omega, ?_⟩
      have : ¬ 2 ^ 62 ≤ x := fun h => hd ⟨decide_eq_true h, hu⟩
      omega
    · rfl
  cases c with
  | message i =>
    rw [remains_message]
    simp only [DhCall.run, remains_get]
    cases hx : xs[i]? with
    | none => rw [outcome_none hx]; rfl
    | some x =>
      have hx0 := hpos x (List.mem_of_getElem? hx)
      simp only [Option.map_some]
      by_cases hd : decide (2 ^ 62 ≤ x) = true ∧ before.any (consumes i) = true
      · have hb := of_decide_eq_true hd.1
        rw [outcome_dead (c := .message i) hx hd.1 hd.2, if_pos hd.2,
          show zWipe (x : Int) = 0 from if_neg (by omega), dhMessage_zero]
        rfl
      · rw [outcome_alive (c := .message i) hx hd, hlive hd, (dhMessage_eq he hl hodd hx0).1]
        rfl
  | sharedSecret i m =>
    simp only [DhCall.run, remains_get]
    cases hx : xs[i]? with
    | none => rw [remains_shared_none hx, outcome_none hx]; rfl
    | some x =>
      have hx0 := hpos x (List.mem_of_getElem? hx)
      simp only [Option.map_some]
      rw [remains_shared hx]
      by_cases hd : decide (2 ^ 62 ≤ x) = true ∧ before.any (consumes i) = true
      · have hb := of_decide_eq_true hd.1
        have h0 : zWipe (x : Int) = 0 := if_neg (by omega)
        rw [outcome_dead (c := .sharedSecret i m) hx hd.1 hd.2, if_pos hd.2, h0, dhShared_zero]
        have : (remains xs before).set i 0 = remains xs before := by
          apply List.ext_getElem?
          intro j
          rw [List.getElem?_set]
          by_cases hj : i = j
          · subst hj
            rw [if_pos rfl, remains_get, hx, Option.map_some, if_pos hd.2, h0, if_pos]
            have := (List.getElem?_eq_some_iff.1 hx).1
            simpa [remains] using this
          · rw [if_neg hj]
        rw [this]
        rfl
      · rw [outcome_alive (c := .sharedSecret i m) hx hd, hlive hd, dhSharedSecret_eq he hl hodd hx0]
        rfl

private theorem calls_run {e : BnEnv} (he : 0 < e.limb) {params : DhParams}
    (hl : e.limb ∣ params.p.length) (hodd : beNat params.p % 2 = 1) {xs : List Nat}
    (hpos : ∀ x ∈ xs, 0 < x) : ∀ (calls before : List DhCall),
    DhCall.runAll e params calls (remains xs before)
      = .ok (calls.mapIdx fun k c =>
          dhOutcome params.p params.g (decide <| 2 ^ 62 ≤ ·) xs (before ++ calls.take k) c)
        (remains xs (before ++ calls))
  | [], before => by simp [DhCall.runAll]
  | c :: cs, before => by
    have ih := calls_run he hl hodd hpos cs (before ++ [c])
    have hs := call_step he hl hodd hpos before c
    rw [List.mapIdx_cons]
    simp only [DhCall.runAll]
    rw [hs]
    simp only [List.take_zero, List.append_nil, List.take_succ_cons]
    simp only [List.append_assoc, List.singleton_append] at ih
    cases hd : dhOutcome params.p params.g (decide <| 2 ^ 62 ≤ ·) xs before c with
    | ok b => simp only [asOut, ih]
    | error x => simp only [asOut, ih]

/-- The values of secrets that `private_secret` can return, with any generators. -/
def DrawnSecrets (params : DhParams) (xs : List Nat) : Prop :=
  ∀ x ∈ xs, ∃ (σ : Type) (rng : RandomBytes σ) (s s' : σ), dhPrivateSecret rng params s = .ok (x : Int) s'

/-- What the code does, in every history of calls of `message` and `shared_secret` on any number of
secrets: `shared_secret` destroys the secrets that have 63 bits or more, and no others. -/
theorem C107_secret_use_exact (e : BnEnv) (he : 0 < e.limb) (hn : e.PrimeOk) (rng : RandomBytes σ)
    (fuel : Nat) (privlen numbits : Int) (s s' : σ) (params : DhParams)
    (hp : dhNewParameters e rng fuel privlen numbits s = .ok params s')
    (xs : List Nat) (hx : DrawnSecrets params xs) (calls : List DhCall) :
    ∃ left, DhCall.runAll e params calls (xs.map Int.ofNat)
      = .ok (dhOutcomes params.p params.g (decide <| 2 ^ 62 ≤ ·) xs calls) left := by
  have hg := dhNewParameters_good he hn hp
  have hpos : ∀ x ∈ xs, 0 < x := fun x h => by
    obtain ⟨τ, r, t, t', h⟩ := hx x h
    have := bnRandom_pos h
    omega
  have h0 : xs.map Int.ofNat = remains xs [] := by
    apply List.ext_getElem?
    intro j
    rw [remains_get, List.getElem?_map]
    rfl
  refine ⟨remains xs calls, ?_⟩
  have := calls_run he hg.1 hg.2.1 hpos calls []
  rw [h0, this]
  rfl

private theorem drawn_bits {params : DhParams} {xs : List Nat} (hx : DrawnSecrets params xs) {x : Nat}
    (h : x ∈ xs) : (zNumbits (x : Int) : Int) = params.privlen ∧ 0 < x := by
  obtain ⟨τ, r, t, t', h⟩ := hx x h
  have := bnRandom_pos h
  exact ⟨(bnRandom_ok h).2.1, by omega⟩

private theorem outcomes_congr {p g : Bytes} {d d' : Nat → Bool}
    {xs : List Nat} (h : ∀ x ∈ xs, d x = d' x) (calls : List DhCall) :
    dhOutcomes p g d xs calls = dhOutcomes p g d' xs calls := by
  unfold dhOutcomes
  congr 1
  funext k c
  unfold dhOutcome
  cases hx : xs[secretOf c]? with
  | none => rfl
  | some x =>
    simp only [h x (List.mem_of_getElem? hx)]

/-- C107 for secrets of 63 bits or more (the default is 160): a secret that has been used for
`shared_secret` can no longer be used, in any history of calls. What is missing: shorter secrets
(`C107_short_secret_survives`, `C107_secret_use_fails`). -/
theorem C107_secret_use_partial (e : BnEnv) (he : 0 < e.limb) (hn : e.PrimeOk) (rng : RandomBytes σ)
    (fuel : Nat) (privlen numbits : Int) (s s' : σ) (params : DhParams)
    (hp : dhNewParameters e rng fuel privlen numbits s = .ok params s') (h63 : 63 ≤ params.privlen)
    (xs : List Nat) (hx : DrawnSecrets params xs) (calls : List DhCall) :
    ∃ left, DhCall.runAll e params calls (xs.map Int.ofNat)
      = .ok (dhOutcomes params.p params.g (fun _ => true) xs calls) left := by
  obtain ⟨left, h⟩ := C107_secret_use_exact e he hn rng fuel privlen numbits s s' params hp xs hx calls
  refine ⟨left, ?_⟩
  rw [h, outcomes_congr (d' := fun _ => true)]
  intro x hm
  obtain ⟨hb, h0⟩ := drawn_bits hx hm
  rw [decide_eq_true_iff]
  obtain ⟨k, hk⟩ : ∃ k, zNumbits (x : Int) = k + 1 := ⟨zNumbits (x : Int) - 1, by omega⟩
  have h1 := zNumbits_pos hk
  rw [Int.natAbs_natCast] at h1
  exact Nat.le_trans (Nat.pow_le_pow_right (by decide) (by omega)) h1

/-- The property fails for all the secrets of 62 bits or less: they are never destroyed, and every call
succeeds however often they have been used. -/
theorem C107_short_secret_survives (e : BnEnv) (he : 0 < e.limb) (hn : e.PrimeOk) (rng : RandomBytes σ)
    (fuel : Nat) (privlen numbits : Int) (s s' : σ) (params : DhParams)
    (hp : dhNewParameters e rng fuel privlen numbits s = .ok params s') (h62 : params.privlen ≤ 62)
    (xs : List Nat) (hx : DrawnSecrets params xs) (calls : List DhCall) :
    ∃ left, DhCall.runAll e params calls (xs.map Int.ofNat)
      = .ok (dhOutcomes params.p params.g (fun _ => false) xs calls) left := by
  obtain ⟨left, h⟩ := C107_secret_use_exact e he hn rng fuel privlen numbits s s' params hp xs hx calls
  refine ⟨left, ?_⟩
  rw [h, outcomes_congr (d' := fun _ => false)]
  intro x hm
  obtain ⟨hb, h0⟩ := drawn_bits hx hm
  rw [decide_eq_false_iff_not]
  intro hbig
  have hlt : x < 2 ^ zNumbits (x : Int) := by
    unfold zNumbits
    rw [if_neg (by omega), Int.natAbs_natCast]
    exact Nat.lt_log2_self
  have : 2 ^ zNumbits (x : Int) ≤ 2 ^ 62 := Nat.pow_le_pow_right (by decide) (by omega)
  omega

/-- With any parameters, also unsuitable ones given by the user: a call that raises an exception leaves
all the secrets as they were, so that `shared_secret` destroys a secret only if it returns. -/
theorem C107_exception_keeps (e : BnEnv) (params : DhParams) (c : DhCall) (secrets left : List Int)
    (x : Exn) (h : c.run e params secrets = .exn x left) : left = secrets := by
  cases c with
  | message i =>
    simp only [DhCall.run] at h
    split at h
    · cases h
    · split at h <;> cases h
      rfl
  | sharedSecret i m =>
    simp only [DhCall.run] at h
    split at h
    · cases h
    · split at h <;> cases h
      rfl

namespace Example

/-- A modulus of one byte, on a 64-bit machine: `shared_secret` raises an exception. -/
example : (DhCall.sharedSecret 0 [7]).run ⟨8, fun n => n⟩ ⟨[23], [5], 3⟩ [6] = .exn .invalidArg [6] := by
  decide +kernel

/-- Parameters with secrets of 63 bits. -/
theorem dhParams63 : dhNewParameters bnEnv listRng 1 63 64
    [natToLE 8 (primeP - 2), natToLE 8 12345] = .ok ⟨natToBE 8 primeP, natToBE 8 (2 ^ 62 + 12345), 63⟩ [] := by
  decide +kernel

theorem dhDrawn63 : DrawnSecrets ⟨natToBE 8 primeP, natToBE 8 (2 ^ 62 + 12345), 63⟩
    [2 ^ 62 + 1234, 2 ^ 62 + 4321] := by
  intro x hx
  rcases List.mem_cons.1 hx with rfl | hx
  · exact ⟨_, listRng, [natToLE 8 1234], [], by decide +kernel⟩
  · rw [List.mem_singleton] at hx
    subst hx
    exact ⟨_, listRng, [natToLE 8 4321], [], by decide +kernel⟩

theorem dhDrawn20 : DrawnSecrets ⟨natToBE 8 primeP, natToBE 8 (2 ^ 62 + 12345), 20⟩ [2 ^ 19 + 1234] := by
  intro x hx
  rw [List.mem_singleton] at hx
  subst hx
  exact ⟨_, listRng, [natToLE 3 1234], [], by decide +kernel⟩

/-- A history with two secrets, in which the second use of the first one fails. -/
def dhHistory : List DhCall :=
  [.message 0, .sharedSecret 0 [5], .message 0, .sharedSecret 0 [7], .sharedSecret 1 [7]]

/-- Its outcomes: the other secret is not affected. -/
theorem dhHistory_outcomes (p g : Bytes) (x y : Nat) :
    Spec.dhOutcomes p g (fun _ => true) [x, y] dhHistory
    = [.ok (natToBE p.length (beNat g ^ x % beNat p)), .ok (natToBE p.length (beNat [5] ^ x % beNat p)),
        .error .invalidArg, .error .invalidArg, .ok (natToBE p.length (beNat [7] ^ y % beNat p))] := rfl

example : ∃ left, DhCall.runAll bnEnv ⟨natToBE 8 primeP, natToBE 8 (2 ^ 62 + 12345), 63⟩ dhHistory
    ([2 ^ 62 + 1234, 2 ^ 62 + 4321].map Int.ofNat)
    = .ok (Spec.dhOutcomes (natToBE 8 primeP) (natToBE 8 (2 ^ 62 + 12345)) (fun _ => true)
        [2 ^ 62 + 1234, 2 ^ 62 + 4321] dhHistory) left :=
  C107_secret_use_partial bnEnv (by decide) bnEnv_primeOk _ _ _ _ _ _ _ dhParams63 (by decide) _
    dhDrawn63 _

/-- With short secrets all calls succeed. -/
theorem dhTwice_outcomes (p g : Bytes) (x : Nat) :
    Spec.dhOutcomes p g (fun _ => false) [x] [.sharedSecret 0 [5], .sharedSecret 0 [7]]
    = [.ok (natToBE p.length (beNat [5] ^ x % beNat p)), .ok (natToBE p.length (beNat [7] ^ x % beNat p))] :=
  rfl

end Example

/-- C107 is false: a secret of 20 bits, used for `shared_secret`, can be used again. -/
theorem C107_secret_use_fails : ∃ (params : DhParams) (x : Nat) (left : List Int),
    DrawnSecrets params [x] ∧
    DhCall.runAll Example.bnEnv params [.sharedSecret 0 [5], .sharedSecret 0 [7]] ([x].map Int.ofNat)
      = .ok [.ok (natToBE params.p.length (beNat [5] ^ x % beNat params.p)),
          .ok (natToBE params.p.length (beNat [7] ^ x % beNat params.p))] left := by
  obtain ⟨left, h⟩ := C107_short_secret_survives Example.bnEnv (by decide) Example.bnEnv_primeOk _ _ _ _ _ _ _
    Example.dhParams (by decide) _ Example.dhDrawn20 [.sharedSecret 0 [5], .sharedSecret 0 [7]]
  refine ⟨_, _, left, Example.dhDrawn20, ?_⟩
  rw [h, Example.dhTwice_outcomes]

end Verif
