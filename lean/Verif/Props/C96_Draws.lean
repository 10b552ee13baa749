import Verif.Spec.Draw
import Verif.Props.C78_Uniform
import Verif.Props.C83_C84_KeyGen
/-
C96: keys, parameters and secrets are made of the first suitable numbers drawn from the generator.
-/
namespace Verif
open Spec

variable {σ α : Type}

/-! ### Draws -/

theorem drawn_number (n : Nat) (b : Bytes) : drawn false n (leNat b) = numberFrom n b := rfl

theorem drawn_oddNumber {n : Nat} (hn : 2 ≤ n) (b : Bytes) :
    drawn true n (leNat b) = numberFrom n b - numberFrom n b % 2 + 1 := by
  unfold drawn numberFrom
  simp only [if_true]
  have e : 2 ^ (n - 1) = 2 * 2 ^ (n - 2) := by rw [← Nat.pow_succ']; congr 1; omega
  rw [e]
  generalize 2 ^ (n - 2) = k
  generalize leNat b = x
  rw [Nat.mod_mul, Nat.mod_mul, show (x - x % 2 + 1) / 2 = x / 2 by omega]
  omega

theorem bnRandom_draw {rng : RandomBytes σ} (hx : ExactLength rng) {odd : Bool} {n : Nat} (hn : 1 ≤ n)
    {s s' : σ} {v : Int} (h : bnRandom rng odd n s = .ok v s') :
    ∃ b, rng ((n + 7) / 8) s = .ok b s' ∧ v = drawn odd n (leNat b) := by
  have h0 := h
  unfold bnRandom at h
  have e1 : ((n : Int) + 7).tdiv 8 = (((n + 7) / 8 : Nat) : Int) := by
    rw [show ((n : Int) + 7) = ((n + 7 : Nat) : Int) by omega]; rfl
  simp only [e1] at h
  rw [if_neg (by omega), Int.toNat_natCast, m_bind_ok] at h
  obtain ⟨b, s1, h1, _⟩ := h
  rw [bnRandom_eq odd hn h1 (hx _ _ _ _ h1)] at h0
  simp only [Out.ok.injEq] at h0
  exact ⟨b, h0.2 ▸ h1, h0.1.symm⟩

theorem bnRandom_number {rng : RandomBytes σ} (hx : ExactLength rng) {n : Nat} (hn : 1 ≤ n)
    {s s' : σ} {v : Int} (h : bnRandom rng false n s = .ok v s') : ∃ k : Nat, v = k ∧ number rng n s k s' := by
  obtain ⟨b, h1, rfl⟩ := bnRandom_draw hx hn h
  exact ⟨_, rfl, b, h1, drawn_number n b⟩

theorem bnRandom_oddNumber {rng : RandomBytes σ} (hx : ExactLength rng) {n : Nat} (hn : 2 ≤ n)
    {s s' : σ} {v : Int} (h : bnRandom rng true n s = .ok v s') :
    ∃ k : Nat, v = k ∧ oddNumber rng n s k s' := by
  obtain ⟨b, h1, rfl⟩ := bnRandom_draw hx (by omega) h
  exact ⟨_, rfl, _, ⟨b, h1, rfl⟩, drawn_oddNumber hn b⟩

/-- Trying again and again finds the first suitable draw. -/
theorem retry_first {β : Type} {body : M σ (Option α)} {draw : σ → β → σ → Prop} {ok : β → Prop} {f : β → α}
    (hs : ∀ s a s', body s = .ok (some a) s' → ∃ b, a = f b ∧ draw s b s' ∧ ok b)
    (hn : ∀ s s', body s = .ok none s' → ∃ b, draw s b s' ∧ ¬ ok b) :
    ∀ {fuel : Nat} {s s' : σ} {a : α}, retry fuel body s = .ok a s' → ∃ b, a = f b ∧ FirstOf draw ok s b s'
  | 0, _, _, _, h => by simp [retry, M.diverge] at h
  | fuel + 1, s, s', a, h => by
    rw [retry, M.bind_def] at h
    cases hb : body s with
    | ok o s1 =>
      rw [hb] at h
      cases o with
      | none =>
        obtain ⟨b, h1, h2⟩ := hn _ _ hb
        obtain ⟨c, h3, h4⟩ := retry_first hs hn h
        exact ⟨c, h3, .again h1 h2 h4⟩
      | some a' =>
        simp only at h
        cases h
        obtain ⟨b, h1, h2, h3⟩ := hs _ _ _ hb
        exact ⟨b, h1, .found h2 h3⟩
    | exn x s1 => rw [hb] at h; cases h
    | ub => rw [hb] at h; cases h
    | loop => rw [hb] at h; cases h

theorem numbits_lt {n p : Nat} (h : p < 2 ^ n) (h' : 2 ^ (n - 1) ≤ p) (hn : 1 ≤ n) : zNumbits (p : Int) = n := by
  apply Nat.le_antisymm
  · rw [zNumbits_le]; simpa using h
  · by_contra hlt
    have := (zNumbits_le (n := (p : Int)) (k := n - 1)).1 (by omega)
    simp only [Int.natAbs_natCast] at this
    omega

theorem bnRandomPrime_draw {e : BnEnv} (hp : e.PrimeOk) {rng : RandomBytes σ} (hx : ExactLength rng) {n : Nat}
    (hn : 2 ≤ n) {fuel : Nat} {s s' : σ} {p : Int} (h : bnRandomPrime e rng fuel n s = .ok p s') :
    ∃ k : Nat, p = k ∧ prime e rng n s k s' := by
  unfold bnRandomPrime at h
  have key : ∀ {s s' : σ} {m : Int}, bnRandom rng true n s = .ok m s' →
      ∃ k : Nat, e.nextprime m = k ∧ (∃ m, oddNumber rng n s m s' ∧ (k : Int) = e.nextprime m) ∧ 2 ^ (n - 1) ≤ k := by
    intro s s' m hm
    obtain ⟨k, rfl, hk⟩ := bnRandom_oddNumber hx hn hm
    have h1 := hp k (by omega)
    obtain ⟨q, hq⟩ := Int.eq_ofNat_of_zero_le (a := e.nextprime k) (by omega)
    refine ⟨q, hq, ⟨k, hk, hq.symm⟩, ?_⟩
    obtain ⟨v, ⟨b, _, h2⟩, h3⟩ := hk
    have : 2 ^ (n - 1) ≤ v := by rw [h2]; exact Nat.le_add_right _ _
    omega
  refine retry_first (f := fun k : Nat => (k : Int)) ?_ ?_ h
  · intro s a s' h
    simp only [m_bind_ok, m_pure_ok] at h
    obtain ⟨m, s1, h1, h2, rfl⟩ := h
    obtain ⟨k, e1, h3, h4⟩ := key h1
    split at h2
    · next hb =>
      simp only [Option.some.injEq] at h2
      rw [e1] at h2 hb
      refine ⟨k, h2.symm, h3, ?_⟩
      have := (zNumbits_le (n := (k : Int)) (k := n)).1 (by omega)
      simpa using this
    · cases h2
  · intro s s' h
    simp only [m_bind_ok, m_pure_ok] at h
    obtain ⟨m, s1, h1, h2, rfl⟩ := h
    obtain ⟨k, e1, h3, h4⟩ := key h1
    split at h2
    · cases h2
    · next hb =>
      rw [e1] at hb
      exact ⟨k, h3, fun hlt => hb (by rw [numbits_lt hlt h4 (by omega)])⟩

theorem relPrime_pred {p : Nat} (h1 : 1 ≤ p) (v : Int) :
    bnRelativePrime ((p : Int) - 1) v = true ↔ Nat.Coprime (p - 1) v.natAbs := by
  unfold bnRelativePrime
  rw [show ((p : Int) - 1) = ((p - 1 : Nat) : Int) by omega]
  simp [Nat.Coprime, Int.gcd]

theorem FirstOf.last {draw : σ → α → σ → Prop} {ok : α → Prop} {s s' : σ} {a : α}
    (h : FirstOf draw ok s a s') : ok a ∧ ∃ s0, draw s0 a s' := by
  induction h with
  | found h1 h2 => exact ⟨h2, _, h1⟩
  | again _ _ _ ih => exact ih

theorem prime_pos {e : BnEnv} (hp : e.PrimeOk) {rng : RandomBytes σ} {n : Nat} {s s' : σ} {k : Nat}
    (h : prime e rng n s k s') : 1 ≤ k := by
  obtain ⟨_, _, m, _, h⟩ := FirstOf.last h
  have := hp m (by omega)
  omega

theorem rsaGenFactor_draw {e : BnEnv} (hp : e.PrimeOk) {rng : RandomBytes σ} (hx : ExactLength rng) {n : Nat}
    (hn : 2 ≤ n) {fuel : Nat} {x : Option Int} {s s' : σ} {p : Int}
    (h : rsaGenFactor e rng fuel x n s = .ok p s') : ∃ k : Nat, p = k ∧ rsaFactor e rng x n s k s' := by
  unfold rsaGenFactor at h
  refine retry_first (f := fun k : Nat => (k : Int)) ?_ ?_ h
  · intro s a s' h
    simp only [m_bind_ok, m_pure_ok] at h
    obtain ⟨m, s1, h1, h2, rfl⟩ := h
    obtain ⟨k, rfl, h3⟩ := bnRandomPrime_draw hp hx hn h1
    cases x with
    | none =>
      simp only [Option.some.injEq] at h2
      exact ⟨k, h2.symm, h3, fun v hv => by cases hv⟩
    | some x =>
      simp only at h2
      split at h2
      · next hb =>
        simp only [Option.some.injEq] at h2
        refine ⟨k, h2.symm, h3, fun v hv => ?_⟩
        cases hv
        exact (relPrime_pred (prime_pos hp h3) _).1 hb
      · cases h2
  · intro s s' h
    simp only [m_bind_ok, m_pure_ok] at h
    obtain ⟨m, s1, h1, h2, rfl⟩ := h
    obtain ⟨k, rfl, h3⟩ := bnRandomPrime_draw hp hx hn h1
    cases x with
    | none => cases h2
    | some x =>
      simp only at h2
      split at h2
      · cases h2
      · next hb =>
        exact ⟨k, h3, fun hc => hb ((relPrime_pred (prime_pos hp h3) _).2 (hc x rfl))⟩

theorem rsaGenFactors_draw {e : BnEnv} (hp : e.PrimeOk) {rng : RandomBytes σ} (hx : ExactLength rng) {n : Nat}
    (hn : 2 ≤ n) {fuel : Nat} {x : Option Int} {s s' : σ} {pq : Int × Int}
    (h : rsaGenFactors e rng fuel x n s = .ok pq s') :
    ∃ k : Nat × Nat, pq = (((max k.1 k.2 : Nat) : Int), ((min k.1 k.2 : Nat) : Int))
      ∧ rsaFactors e rng x n s k s' := by
  unfold rsaGenFactors at h
  refine retry_first (f := fun k : Nat × Nat => (((max k.1 k.2 : Nat) : Int), ((min k.1 k.2 : Nat) : Int))) ?_ ?_ h
  · intro s a s' h
    simp only [m_bind_ok, m_pure_ok] at h
    obtain ⟨m, s1, h1, m2, s2, h2, h3, rfl⟩ := h
    obtain ⟨k, rfl, f1⟩ := rsaGenFactor_draw hp hx hn h1
    obtain ⟨l, rfl, f2⟩ := rsaGenFactor_draw hp hx hn h2
    refine ⟨(k, l), ?_, ⟨s1, f1, f2⟩, ?_⟩
    · split at h3
      · cases h3
      · split at h3
        · simp only [Option.some.injEq] at h3
          rw [← h3]
          simp only [Prod.mk.injEq, Int.natCast_inj]
          omega
        · simp only [Option.some.injEq] at h3
          rw [← h3]
          simp only [Prod.mk.injEq, Int.natCast_inj]
          omega
    · rintro (rfl : k = l)
      simp at h3
  · intro s s' h
    simp only [m_bind_ok, m_pure_ok] at h
    obtain ⟨m, s1, h1, m2, s2, h2, h3, rfl⟩ := h
    obtain ⟨k, rfl, f1⟩ := rsaGenFactor_draw hp hx hn h1
    obtain ⟨l, rfl, f2⟩ := rsaGenFactor_draw hp hx hn h2
    refine ⟨(k, l), ⟨s1, f1, f2⟩, fun hne => ?_⟩
    rw [if_neg (fun h => hne (by exact_mod_cast h))] at h3
    split at h3 <;> cases h3

theorem rsaGenExponent_draw {rng : RandomBytes σ} (hx : ExactLength rng) {n p q : Nat}
    (hn : 1 ≤ n) (h1p : 1 ≤ p) (h1q : 1 ≤ q) {fuel : Nat} {s s' : σ} {v : Int}
    (h : rsaGenExponent rng fuel n ((p : Int) - 1) ((q : Int) - 1) s = .ok v s') :
    ∃ k : Nat, v = k ∧ rsaExponent rng n p q s k s' := by
  unfold rsaGenExponent at h
  have hc : ∀ k p : Nat, 1 ≤ p → (bnRelativePrime (k : Int) ((p : Int) - 1) = true ↔ Nat.Coprime k (p - 1)) := by
    intro k p h
    unfold bnRelativePrime
    rw [show ((p : Int) - 1) = ((p - 1 : Nat) : Int) by omega]
    simp [Nat.Coprime, Int.gcd]
  refine retry_first (f := fun k : Nat => (k : Int)) ?_ ?_ h
  · intro s a s' h
    simp only [m_bind_ok, m_pure_ok] at h
    obtain ⟨m, s1, h1, h2, rfl⟩ := h
    obtain ⟨k, rfl, h3⟩ := bnRandom_number hx hn h1
    split at h2
    · next hb =>
      simp only [Option.some.injEq] at h2
      rw [Bool.and_eq_true, hc _ _ h1p, hc _ _ h1q] at hb
      exact ⟨k, h2.symm, h3, hb⟩
    · cases h2
  · intro s s' h
    simp only [m_bind_ok, m_pure_ok] at h
    obtain ⟨m, s1, h1, h2, rfl⟩ := h
    obtain ⟨k, rfl, h3⟩ := bnRandom_number hx hn h1
    split at h2
    · cases h2
    · next hb =>
      rw [Bool.and_eq_true, hc _ _ h1p, hc _ _ h1q] at hb
      exact ⟨k, h3, hb⟩

theorem paillierGenFactors_draw {e : BnEnv} (hp : e.PrimeOk) {rng : RandomBytes σ} (hx : ExactLength rng)
    {n : Nat} (hn : 2 ≤ n) {fuel : Nat} {s s' : σ} {pq : Int × Int}
    (h : paillierGenFactors e rng fuel n s = .ok pq s') :
    ∃ k : Nat × Nat, pq = ((k.1 : Int), (k.2 : Int)) ∧ paillierFactors e rng n s k s' := by
  unfold paillierGenFactors at h
  have hc : ∀ k l : Nat, 1 ≤ k → 1 ≤ l → (bnRelativePrime ((k : Int) * l) (((k : Int) - 1) * ((l : Int) - 1)) = true
      ↔ Nat.Coprime (k * l) ((k - 1) * (l - 1))) := by
    intro k l hk hl
    unfold bnRelativePrime
    rw [show ((k : Int) - 1) = ((k - 1 : Nat) : Int) by omega, show ((l : Int) - 1) = ((l - 1 : Nat) : Int) by omega,
      ← Nat.cast_mul, ← Nat.cast_mul]
    simp only [Nat.Coprime, Int.gcd, Int.natAbs_natCast, beq_iff_eq]
  refine retry_first (f := fun k : Nat × Nat => ((k.1 : Int), (k.2 : Int))) ?_ ?_ h
  · intro s a s' h
    simp only [m_bind_ok, m_pure_ok] at h
    obtain ⟨m, s1, h1, m2, s2, h2, h3, rfl⟩ := h
    obtain ⟨k, rfl, f1⟩ := bnRandomPrime_draw hp hx hn h1
    obtain ⟨l, rfl, f2⟩ := bnRandomPrime_draw hp hx hn h2
    split at h3
    · cases h3
    · next hne =>
      split at h3
      · next hb =>
        simp only [Option.some.injEq] at h3
        exact ⟨(k, l), h3.symm, ⟨s1, f1, f2⟩, fun h => hne (by exact_mod_cast h),
          (hc k l (prime_pos hp f1) (prime_pos hp f2)).1 hb⟩
      · cases h3
  · intro s s' h
    simp only [m_bind_ok, m_pure_ok] at h
    obtain ⟨m, s1, h1, m2, s2, h2, h3, rfl⟩ := h
    obtain ⟨k, rfl, f1⟩ := bnRandomPrime_draw hp hx hn h1
    obtain ⟨l, rfl, f2⟩ := bnRandomPrime_draw hp hx hn h2
    refine ⟨(k, l), ⟨s1, f1, f2⟩, fun hok => ?_⟩
    rw [if_neg (fun h => hok.1 (by exact_mod_cast h)),
      if_pos ((hc k l (prime_pos hp f1) (prime_pos hp f2)).2 hok.2)] at h3
    cases h3

theorem ofExcept_state {x : Except Exn α} {s s' : σ} {a : α} (h : ofExcept x s = .ok a s') : s = s' := by
  cases x with
  | error e => cases h
  | ok b =>
    simp only [ofExcept] at h
    have : Out.ok b s = Out.ok a s' := h
    cases this
    rfl

theorem max_mul_min (p q : Nat) : max p q * min p q = p * q := by
  rcases Nat.le_total p q with hle | hle
  · rw [Nat.max_eq_right hle, Nat.min_eq_left hle, Nat.mul_comm]
  · rw [Nat.max_eq_left hle, Nat.min_eq_right hle]

theorem rsaFactors_pos {e : BnEnv} (hp : e.PrimeOk) {rng : RandomBytes σ} {x : Option Int} {n p q : Nat} {s s' : σ}
    (h : rsaFactors e rng x n s (p, q) s') : 1 ≤ p ∧ 1 ≤ q := by
  obtain ⟨_, _, _, h1, h2⟩ := FirstOf.last h
  obtain ⟨_, _, h1⟩ := FirstOf.last h1
  obtain ⟨_, _, h2⟩ := FirstOf.last h2
  exact ⟨prime_pos hp h1, prime_pos hp h2⟩

theorem rsaExponent_comm {rng : RandomBytes σ} {n p q x : Nat} {s s' : σ} (h : rsaExponent rng n p q s x s') :
    rsaExponent rng n q p s x s' := by
  unfold rsaExponent at h ⊢
  have e : (fun x => Nat.Coprime x (q - 1) ∧ Nat.Coprime x (p - 1))
      = fun x => Nat.Coprime x (p - 1) ∧ Nat.Coprime x (q - 1) := by
    funext x
    exact propext And.comm
  rw [e]
  exact h

theorem rsaBuild_exponent {e : BnEnv} (he : 0 < e.limb) {numbits x : Int} {p q : Nat}
    {priv : RsaPrivate} {pub : RsaPublic} (h : rsaBuild e numbits p q x = .ok (priv, pub)) :
    beNat pub.e = x.natAbs := by
  unfold rsaBuild at h
  simp only [except_bind_ok] at h
  obtain ⟨d, hd, dp, hdp, dq, hdq, qinv, hqi, bn, hbn, bd, hbd, bp, hbp, bq, hbq, bdp, hbdp, bdq,
    hbdq, bqi, hbqi, be, hbe, hk⟩ := h
  cases hk
  exact (bnToBytes_val he hbe).1

/-! ### The properties -/

/-- C96, `RSA.new_key numbits` without `~e`: the factors of the modulus are the first two different
primes drawn, the exponent is the first suitable number drawn after them, and nothing else is drawn. -/
theorem C96_rsa_new_key (e : BnEnv) (he : 0 < e.limb) (hp : e.PrimeOk) (rng : RandomBytes σ)
    (hx : ExactLength rng) (fuel numbits : Nat) (s s' : σ) (priv : RsaPrivate) (pub : RsaPublic)
    (hk : rsaNewKey e rng fuel none numbits s = .ok (priv, pub) s') :
    ∃ p q s1, rsaFactors e rng none (numbits / 2) s (p, q) s1
      ∧ rsaExponent rng numbits p q s1 (beNat pub.e) s'
      ∧ beNat priv.p = max p q ∧ beNat priv.q = min p q ∧ beNat pub.n = p * q := by
  unfold rsaNewKey at hk
  split at hk
  · cases hk
  · next hb =>
    rw [not_or] at hb
    have e2 : (numbits : Int).tdiv 2 = ((numbits / 2 : Nat) : Int) := by
      rw [Int.tdiv_eq_ediv_of_nonneg (by omega)]; omega
    simp only [m_bind_ok, e2] at hk
    obtain ⟨pq, s1, h1, v, s2, h2, h3⟩ := hk
    obtain ⟨⟨p, q⟩, rfl, hd⟩ := rsaGenFactors_draw hp hx (by omega) h1
    obtain ⟨hpos1, hpos2⟩ := rsaFactors_pos hp hd
    obtain ⟨x, rfl, hexp⟩ := rsaGenExponent_draw hx (by omega) (by simp only; omega) (by simp only; omega) h2
    have hs : s2 = s' := ofExcept_state h3
    subst hs
    obtain ⟨f1, f2, f3, f4⟩ := rsaBuild_numbers he (ofExcept_ok h3)
    have f5 := rsaBuild_exponent he (ofExcept_ok h3)
    rw [Int.natAbs_natCast] at f5
    refine ⟨p, q, s1, hd, ?_, f3, f4, by rw [f1]; exact max_mul_min p q⟩
    rw [f5]
    simp only at hexp
    rcases Nat.le_total p q with hle | hle
    · rw [Nat.max_eq_right hle, Nat.min_eq_left hle] at hexp
      exact rsaExponent_comm hexp
    · rwa [Nat.max_eq_left hle, Nat.min_eq_right hle] at hexp

/-- C96, `RSA.new_key ~e numbits`: the factors are the first two different primes drawn that suit the
exponent, and nothing else is drawn. -/
theorem C96_rsa_new_key_fixed (e : BnEnv) (he : 0 < e.limb) (hp : e.PrimeOk) (rng : RandomBytes σ)
    (hx : ExactLength rng) (fuel numbits : Nat) (x : Int) (s s' : σ) (priv : RsaPrivate) (pub : RsaPublic)
    (hk : rsaNewKey e rng fuel (some x) numbits s = .ok (priv, pub) s') :
    ∃ p q, rsaFactors e rng (some x) (numbits / 2) s (p, q) s'
      ∧ beNat priv.p = max p q ∧ beNat priv.q = min p q ∧ beNat pub.n = p * q := by
  unfold rsaNewKey at hk
  split at hk
  · cases hk
  · next hb =>
    rw [not_or] at hb
    have e2 : (numbits : Int).tdiv 2 = ((numbits / 2 : Nat) : Int) := by
      rw [Int.tdiv_eq_ediv_of_nonneg (by omega)]; omega
    simp only [m_bind_ok, e2] at hk
    obtain ⟨pq, s1, h1, v, s2, h2, h3⟩ := hk
    obtain ⟨⟨p, q⟩, rfl, hd⟩ := rsaGenFactors_draw hp hx (by omega) h1
    have hs : s2 = s' := ofExcept_state h3
    subst hs
    obtain ⟨rfl, rfl⟩ := m_pure_ok.1 h2
    obtain ⟨f1, f2, f3, f4⟩ := rsaBuild_numbers he (ofExcept_ok h3)
    exact ⟨p, q, hd, f3, f4, by rw [f1]; exact max_mul_min p q⟩

/-- C96, `Paillier.new_key numbits`. -/
theorem C96_paillier_new_key (e : BnEnv) (he : 0 < e.limb) (hp : e.PrimeOk) (rng : RandomBytes σ)
    (hx : ExactLength rng) (fuel numbits : Nat) (s s' : σ) (priv : PaillierPrivate) (pub : PaillierPublic)
    (hk : paillierNewKey e rng fuel numbits s = .ok (priv, pub) s') :
    ∃ p q, paillierFactors e rng (numbits / 2) s (p, q) s'
      ∧ beNat priv.p = p ∧ beNat priv.q = q ∧ beNat pub.n = p * q := by
  unfold paillierNewKey at hk
  split at hk
  · cases hk
  · next hb =>
    rw [not_or] at hb
    have e2 : (numbits : Int).tdiv 2 = ((numbits / 2 : Nat) : Int) := by
      rw [Int.tdiv_eq_ediv_of_nonneg (by omega)]; omega
    simp only [m_bind_ok, e2] at hk
    obtain ⟨pq, s1, h1, h3⟩ := hk
    obtain ⟨⟨p, q⟩, rfl, hd⟩ := paillierGenFactors_draw hp hx (by omega) h1
    have hs : s1 = s' := ofExcept_state h3
    subst hs
    have hb' := ofExcept_ok h3
    unfold paillierBuild at hb'
    simp only [except_bind_ok] at hb'
    obtain ⟨mu, hmu, bn, hbn, bn2, hbn2, bp, hbp, bq, hbq, bl, hbl, bmu, hbmu, bg, hbg, hk⟩ := hb'
    cases hk
    rw [← Nat.cast_mul] at hbn
    have b1 := bnToBytes_val he hbn
    have b3 := bnToBytes_val he hbp
    have b4 := bnToBytes_val he hbq
    rw [Int.natAbs_natCast] at b1 b3 b4
    exact ⟨p, q, hd, b3.1, b4.1, b1.1⟩

/-- C96, `Paillier.encrypt`: the ciphertext is that of the message blinded by the first suitable number
drawn. -/
theorem C96_paillier_encrypt (e : BnEnv) (he : 0 < e.limb) (rng : RandomBytes σ)
    (hx : ExactLength rng) (fuel : Nat) (key : PaillierPublic) (size : Nat) (hsz : key.size = size)
    (h2 : 2 ≤ size) (msg c : Bytes) (s s' : σ) (h : paillierEncrypt e rng fuel key msg s = .ok c s')
    (hm : 0 < beNat msg) (hn : 0 < beNat key.n) (hodd : beNat key.n2 % 2 = 1) :
    ∃ r, paillierBlind rng (size - 1) (beNat key.n) s r s'
      ∧ beNat c = beNat key.g ^ beNat msg * r ^ beNat key.n % beNat key.n2 := by
  unfold paillierEncrypt paillierGetR at h
  rw [hsz, show (size : Int) - 1 = ((size - 1 : Nat) : Int) by omega] at h
  simp only [m_bind_ok] at h
  obtain ⟨rb, s1, ⟨r, s2, h1, h3⟩, h4⟩ := h
  have hd := retry_first (f := fun k : Nat => (k : Int)) (draw := number rng (size - 1))
    (ok := fun r => Nat.Coprime r (beNat key.n) ∧ r < beNat key.n) ?_ ?_ h1
  · obtain ⟨k, rfl, hd⟩ := hd
    have e1 : s2 = s1 := ofExcept_state h3
    have e2 : s1 = s' := ofExcept_state h4
    subst e1 e2
    have b1 := (bnToBytes_none_val he (ofExcept_ok h3)).1
    rw [Int.natAbs_natCast] at b1
    refine ⟨k, hd, ?_⟩
    have h5 := ofExcept_ok h4
    unfold paillierEncryptWith at h5
    simp only [except_bind_ok] at h5
    obtain ⟨gm, h6, rn, h7, h8⟩ := h5
    rw [modPower_of hm hodd] at h6
    rw [modPower_of hn hodd] at h7
    rw [modMult_of (by omega)] at h8
    have v6 := (bnToBytes_val he h6).1
    have v7 := (bnToBytes_val he h7).1
    have v8 := (bnToBytes_val he h8).1
    rw [Int.natAbs_natCast] at v6 v7 v8
    rw [v8, v6, v7, b1, ← Nat.mul_mod]
  · intro s a s' h
    simp only [m_bind_ok, m_pure_ok] at h
    obtain ⟨m, s1, h1, h2, rfl⟩ := h
    obtain ⟨k, rfl, h3⟩ := bnRandom_number hx (by omega) h1
    split at h2
    · next hb =>
      simp only [Option.some.injEq] at h2
      rw [bnOfBytes_eq, Bool.and_eq_true, decide_eq_true_eq] at hb
      refine ⟨k, h2.symm, h3, ?_, by exact_mod_cast hb.2⟩
      have := hb.1
      simpa [bnRelativePrime, Nat.Coprime, Int.gcd] using this
    · cases h2
  · intro s s' h
    simp only [m_bind_ok, m_pure_ok] at h
    obtain ⟨m, s1, h1, h2, rfl⟩ := h
    obtain ⟨k, rfl, h3⟩ := bnRandom_number hx (by omega) h1
    split at h2
    · cases h2
    · next hb =>
      refine ⟨k, h3, fun hc => hb ?_⟩
      rw [bnOfBytes_eq, Bool.and_eq_true, decide_eq_true_eq]
      refine ⟨?_, by exact_mod_cast hc.2⟩
      simpa [bnRelativePrime, Nat.Coprime, Int.gcd] using hc.1

/-- C96, `DH.new_parameters`: the first prime drawn, then one number. -/
theorem C96_dh_new_parameters (e : BnEnv) (he : 0 < e.limb) (hp : e.PrimeOk) (rng : RandomBytes σ)
    (hx : ExactLength rng) (fuel : Nat) (privlen : Int) (numbits : Nat) (s s' : σ) (params : DhParams)
    (h : dhNewParameters e rng fuel privlen numbits s = .ok params s') :
    ∃ s1, prime e rng numbits s (beNat params.p) s1 ∧ number rng (numbits - 1) s1 (beNat params.g) s' := by
  unfold dhNewParameters at h
  split at h
  · cases h
  · next hb =>
    rw [not_or] at hb
    simp only [m_bind_ok, m_pure_ok] at h
    obtain ⟨np, s1, h1, ng, s2, h2, p, s3, h3, g, s4, h4, h5, rfl⟩ := h
    subst h5
    obtain ⟨k, rfl, hk⟩ := bnRandomPrime_draw hp hx (by omega) h1
    rw [show (numbits : Int) - 1 = ((numbits - 1 : Nat) : Int) by omega] at h2
    have e1 : s2 = s3 := ofExcept_state h3
    have e2 : s3 = s4 := ofExcept_state h4
    subst e1 e2
    have h32 : (2 : Nat) ^ 1 ≤ 2 ^ (numbits - 1 - 1) := Nat.pow_le_pow_right (by decide) (by omega)
    have hge : ∀ {s s' : σ} {k : Nat}, number rng (numbits - 1) s k s' → 1 < k := by
      rintro s s' k ⟨b, _, rfl⟩
      unfold numberFrom
      omega
    have hd := retry_first (f := fun k : Nat => (k : Int)) (draw := number rng (numbits - 1))
      (ok := fun _ => True) ?_ ?_ h2
    · obtain ⟨g', rfl, hg⟩ := hd
      have b1 := (bnToBytes_val he (ofExcept_ok h3)).1
      have b2 := (bnToBytes_val he (ofExcept_ok h4)).1
      rw [Int.natAbs_natCast] at b1 b2
      simp only [b1, b2]
      refine ⟨s1, hk, ?_⟩
      cases hg with
      | found h _ => exact h
      | again _ h _ => exact absurd trivial h
    · intro s a s' h
      simp only [m_bind_ok, m_pure_ok] at h
      obtain ⟨m, s1, h1, h2, rfl⟩ := h
      obtain ⟨k, rfl, h3⟩ := bnRandom_number hx (by omega) h1
      split at h2
      · cases h2
      · simp only [Option.some.injEq] at h2
        exact ⟨k, h2.symm, h3, trivial⟩
    · intro s s' h
      simp only [m_bind_ok, m_pure_ok] at h
      obtain ⟨m, s1, h1, h2, rfl⟩ := h
      obtain ⟨k, rfl, h3⟩ := bnRandom_number hx (by omega) h1
      have := hge h3
      rw [if_neg (by omega)] at h2
      cases h2

/-- C96, `DH.private_secret`: one number. -/
theorem C96_dh_private_secret (rng : RandomBytes σ) (hx : ExactLength rng) (params : DhParams) (n : Nat)
    (hl : params.privlen = n) (hn : 1 ≤ n) (s s' : σ) (a : Int) (h : dhPrivateSecret rng params s = .ok a s') :
    number rng n s a.toNat s' := by
  unfold dhPrivateSecret at h
  rw [hl] at h
  obtain ⟨k, rfl, h3⟩ := bnRandom_number hx hn h
  exact h3

/-! ### Non-vacuity -/

namespace Example

/-- A generator that gives the bytes of the numbers of a list. -/
def numRng : RandomBytes (List Nat) := fun n l =>
  match l with
  | [] => .exn (.error .noEntropySource) []
  | x :: l => .ok (natToLE n x) l

theorem numRng_exact : ExactLength numRng := by
  intro n s b s' h
  cases s with
  | nil => cases h
  | cons x l =>
    simp only [numRng, Out.ok.injEq] at h
    rw [← h.1]
    exact natToLE_length _ _

/-- A 128-bit RSA key with a random exponent: the first exponent drawn is even. -/
def draws : List Nat := [primeQ - 2, primeP - 2, 12344, 12345]

theorem drawnKey : ∃ priv pub, rsaNewKey bnEnv numRng 3 none 128 draws = .ok (priv, pub) [] := by
  have h : (match rsaNewKey bnEnv numRng 3 none 128 draws with | .ok _ [] => true | _ => false) = true := by
    decide +kernel
  split at h
  · next k hk => exact ⟨k.1, k.2, hk⟩
  · cases h

example : ∃ priv pub, rsaNewKey bnEnv numRng 3 none 128 draws = .ok (priv, pub) []
    ∧ ∃ p q s1, Spec.rsaFactors bnEnv numRng none 64 draws (p, q) s1 ∧ rsaExponent numRng 128 p q s1 (beNat pub.e) []
      ∧ beNat priv.p = max p q ∧ beNat priv.q = min p q ∧ beNat pub.n = p * q := by
  obtain ⟨priv, pub, h⟩ := drawnKey
  exact ⟨priv, pub, h, C96_rsa_new_key bnEnv (by decide) bnEnv_primeOk _ numRng_exact _ _ _ _ _ _ h⟩

/-- The exponent is made of the second one of the numbers that follow the primes. -/
example : (match rsaNewKey bnEnv numRng 3 none 128 draws with
    | .ok k [] => beNat k.2.e == 2 ^ 127 + 12345
    | _ => false) = true := by
  decide +kernel

example : ∃ k, rsaNewKey bnEnv numRng 3 (some 65537) 128 [primeQ - 2, primeQ - 2, primeQ - 2, primeP - 2] = .ok k []
    ∧ ∃ p q, Spec.rsaFactors bnEnv numRng (some 65537) 64 [primeQ - 2, primeQ - 2, primeQ - 2, primeP - 2] (p, q) []
      ∧ beNat k.1.p = max p q ∧ beNat k.1.q = min p q ∧ beNat k.2.n = p * q := by
  have h : (match rsaNewKey bnEnv numRng 3 (some 65537) 128 [primeQ - 2, primeQ - 2, primeQ - 2, primeP - 2] with
      | .ok _ [] => true | _ => false) = true := by decide +kernel
  split at h
  · next k hk =>
    exact ⟨k, hk, C96_rsa_new_key_fixed bnEnv (by decide) bnEnv_primeOk _ numRng_exact _ 128 _ _ _ k.1 k.2 hk⟩
  · cases h

example : ∃ k, paillierNewKey bnEnv numRng 3 128 [primeQ - 2, primeP - 2] = .ok k []
    ∧ ∃ p q, paillierFactors bnEnv numRng 64 [primeQ - 2, primeP - 2] (p, q) []
      ∧ beNat k.1.p = p ∧ beNat k.1.q = q ∧ beNat k.2.n = p * q := by
  have h : (match paillierNewKey bnEnv numRng 3 128 [primeQ - 2, primeP - 2] with
      | .ok _ [] => true | _ => false) = true := by decide +kernel
  split at h
  · next k hk =>
    exact ⟨k, hk, C96_paillier_new_key bnEnv (by decide) bnEnv_primeOk _ numRng_exact _ 128 _ _ k.1 k.2 hk⟩
  · cases h

/-- A small Paillier key, with modulus 15. -/
def smallKey : PaillierPublic := ⟨4, natToBE 8 15, natToBE 8 225, natToBE 8 16⟩

/-- The first number drawn is 6, that is not prime to 15. -/
example : ∃ c, paillierEncrypt bnEnv numRng 3 smallKey [7] [2, 3] = .ok c []
    ∧ ∃ r, paillierBlind numRng 3 15 [2, 3] r [] ∧ beNat c = 16 ^ 7 * r ^ 15 % 225 := by
  have h : (match paillierEncrypt bnEnv numRng 3 smallKey [7] [2, 3] with
      | .ok _ [] => true | _ => false) = true := by decide +kernel
  split at h
  · next c hc =>
    obtain ⟨r, h1, h2⟩ := C96_paillier_encrypt bnEnv (by decide) _ numRng_exact _ smallKey 4 rfl (by decide) [7] c _ _
      hc (by decide) (by decide) (by decide)
    exact ⟨c, hc, r, h1, h2⟩
  · cases h

example : ∃ params, dhNewParameters bnEnv numRng 2 20 64 [primeP - 2, 5] = .ok params []
    ∧ ∃ s1, prime bnEnv numRng 64 [primeP - 2, 5] (beNat params.p) s1 ∧ number numRng 63 s1 (beNat params.g) [] := by
  have h : (match dhNewParameters bnEnv numRng 2 20 64 [primeP - 2, 5] with
      | .ok _ [] => true | _ => false) = true := by decide +kernel
  split at h
  · next k hk =>
    exact ⟨k, hk, C96_dh_new_parameters bnEnv (by decide) bnEnv_primeOk _ numRng_exact _ _ 64 _ _ k hk⟩
  · cases h

example : number numRng 20 [77] (2 ^ 19 + 77) [] :=
  C96_dh_private_secret numRng numRng_exact ⟨[], [], 20⟩ 20 rfl (by decide) [77] [] (2 ^ 19 + 77 : Nat)
    (by decide +kernel)

end Example
end Verif
