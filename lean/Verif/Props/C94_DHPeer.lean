import Verif.Props.C57_C58_DH
import Mathlib.Data.ZMod.Basic
import Mathlib.GroupTheory.OrderOfElement
import Mathlib.FieldTheory.Finite.Basic
/-
C94 What the other party of a Diffie-Hellman exchange can make of the shared secret.
-/
namespace Verif

theorem dh_pow_mod_iff {p x a b : Nat} :
    x ^ a % p = x ^ b % p ↔ (x : ZMod p) ^ a = (x : ZMod p) ^ b := by
  rw [← Nat.cast_pow, ← Nat.cast_pow, ZMod.natCast_eq_natCast_iff']

theorem dh_secret_inj {l p x y : Nat} (hp : p ≤ 256 ^ l) (h0 : 0 < p) :
    natToBE l (x % p) = natToBE l (y % p) ↔ x % p = y % p := by
  refine ⟨fun h => ?_, fun h => by rw [h]⟩
  have := congrArg beNat h
  rwa [beNat_natToBE' (Nat.lt_of_lt_of_le (Nat.mod_lt _ h0) hp),
    beNat_natToBE' (Nat.lt_of_lt_of_le (Nat.mod_lt _ h0) hp)] at this

/-- The property C94 is false of the code: the messages that are 0, 1 or -1 modulo `p` are accepted, and the
shared secret is then 0, 1, or one of 1 and -1 (according to the parity of the private secret), whatever the
private secret. Whoever can replace the messages by one of these knows the shared secret, or guesses it
one time out of two. -/
theorem C94_forced_secret (e : BnEnv) (he : 0 < e.limb) (params : DhParams)
    (hl : e.limb ∣ params.p.length) (hodd : beNat params.p % 2 = 1) (h3 : 3 ≤ beNat params.p)
    (a : Int) (ha : 0 < a) (msg : Bytes) :
    ∃ secret x, dhSharedSecret e params a msg = .ok (secret, x) ∧
      (beNat msg % beNat params.p = 0 → beNat secret = 0) ∧
      (beNat msg % beNat params.p = 1 → beNat secret = 1) ∧
      (beNat msg % beNat params.p = beNat params.p - 1 →
        beNat secret = if a % 2 = 0 then 1 else beNat params.p - 1) := by
  obtain ⟨a, rfl⟩ := Int.eq_ofNat_of_zero_le (a := a) (by omega)
  have hlt : beNat msg ^ a % beNat params.p < 256 ^ params.p.length :=
    Nat.lt_trans (Nat.mod_lt _ (by omega)) (beNat_lt' _)
  refine ⟨_, _, dhSharedSecret_eq he hl hodd (a := a) (by omega) msg, ?_, ?_, ?_⟩
  all_goals
    intro hm
    rw [beNat_natToBE' hlt, Nat.pow_mod, hm]
  · rw [Nat.zero_pow (by omega)]; exact Nat.zero_mod _
  · rw [Nat.one_pow]; exact Nat.mod_eq_of_lt (by omega)
  · generalize beNat params.p = p at *
    have hsq : (p - 1) ^ 2 % p = 1 := by
      obtain ⟨q, rfl⟩ : ∃ q, p = q + 1 := ⟨p - 1, by omega⟩
      rw [Nat.add_sub_cancel, show q ^ 2 = 1 + (q + 1) * (q - 1) by
        obtain ⟨r, rfl⟩ : ∃ r, q = r + 1 := ⟨q - 1, by omega⟩
        rw [Nat.add_sub_cancel]; ring, Nat.add_mul_mod_self_left]
      exact Nat.mod_eq_of_lt (by omega)
    rcases Nat.mod_two_eq_zero_or_one a with hp | hp
    · rw [if_pos (by omega), show a = 2 * (a / 2) by omega, Nat.pow_mul, Nat.pow_mod, hsq, Nat.one_pow]
      exact Nat.mod_eq_of_lt (by omega)
    · rw [if_neg (by omega), show a = 2 * (a / 2) + 1 by omega, Nat.pow_succ, Nat.pow_mul, Nat.mul_mod,
        Nat.pow_mod, hsq, Nat.one_pow, Nat.mod_eq_of_lt (a := 1) (by omega), Nat.one_mul,
        Nat.mod_mod, Nat.mod_eq_of_lt (by omega)]

/-- How much of the private secret the shared secret depends on: if the message is prime to the modulus, two
private secrets give the same shared secret if and only if they are equal modulo the multiplicative
order of the message. -/
theorem C94_same_secret_iff (e : BnEnv) (he : 0 < e.limb) (params : DhParams)
    (hl : e.limb ∣ params.p.length) (hodd : beNat params.p % 2 = 1) (a b : Nat) (ha : 0 < a) (hb : 0 < b)
    (msg : Bytes) (hm : (beNat msg).Coprime (beNat params.p)) :
    ∃ sa sb x y, dhSharedSecret e params a msg = .ok (sa, x) ∧ dhSharedSecret e params b msg = .ok (sb, y) ∧
      (sa = sb ↔ a ≡ b [MOD orderOf (beNat msg : ZMod (beNat params.p))]) := by
  refine ⟨_, _, _, _, dhSharedSecret_eq he hl hodd ha msg, dhSharedSecret_eq he hl hodd hb msg, ?_⟩
  rw [dh_secret_inj (Nat.le_of_lt (beNat_lt' _)) (by omega), dh_pow_mod_iff]
  have hu := ZMod.coe_unitOfCoprime _ hm
  rw [← hu, ← Units.val_pow_eq_pow_val, ← Units.val_pow_eq_pow_val, Units.val_inj, pow_eq_pow_iff_modEq,
    orderOf_units]

theorem safe_prime_order {p q x : Nat} (hp : p.Prime) (hq : q.Prime) (hpq : p = 2 * q + 1)
    (h0 : x % p ≠ 0) (h1 : x % p ≠ 1) (h2 : x % p ≠ p - 1) : q ∣ orderOf (x : ZMod p) := by
  haveI : Fact p.Prime := ⟨hp⟩
  have hx0 : (x : ZMod p) ≠ 0 := by
    rw [Ne, ZMod.natCast_eq_zero_iff]
    exact fun h => h0 (Nat.mod_eq_zero_of_dvd h)
  have hd : orderOf (x : ZMod p) ∣ p - 1 := orderOf_dvd_of_pow_eq_one (ZMod.pow_card_sub_one_eq_one hx0)
  have hd1 : orderOf (x : ZMod p) ∣ 2 * q := by
    have : p - 1 = 2 * q := by omega
    exact this ▸ hd
  by_contra hn
  have hc : (orderOf (x : ZMod p)).Coprime q := ((Nat.Prime.coprime_iff_not_dvd hq).2 hn).symm
  have hsq : (x : ZMod p) ^ 2 = 1 := orderOf_dvd_iff_pow_eq_one.1 (hc.dvd_of_dvd_mul_right hd1)
  have h1p := hp.one_lt
  rcases sq_eq_one_iff.1 hsq with h | h
  · rw [← Nat.cast_one, ZMod.natCast_eq_natCast_iff', Nat.mod_eq_of_lt h1p] at h
    exact h1 h
  · have h3 : ((x + 1 : Nat) : ZMod p) = 0 := by push_cast; rw [h]; simp
    rw [ZMod.natCast_eq_zero_iff] at h3
    have h4 := Nat.mod_eq_zero_of_dvd h3
    rw [Nat.add_mod, Nat.mod_eq_of_lt h1p] at h4
    have h5 := Nat.mod_lt x (Nat.lt_trans Nat.zero_lt_one h1p)
    by_cases h6 : x % p + 1 < p
    · rw [Nat.mod_eq_of_lt h6] at h4; omega
    · omega

/-- C94, the part that holds: if `p` is a safe prime (`p = 2 q + 1` where `q` is prime too) and the message is
neither 0, 1 nor -1 modulo `p`, private secrets below `q` give different shared secrets, and none of them
gives the shared secret 1. What is missing: a check of the message, and of the modulus, by the
library (`C94_forced_secret`). `new_parameters` generates any prime. -/
theorem C94_shared_secret_partial (e : BnEnv) (he : 0 < e.limb) (params : DhParams)
    (hl : e.limb ∣ params.p.length) (q : Nat) (hp : (beNat params.p).Prime) (hq : q.Prime)
    (hpq : beNat params.p = 2 * q + 1) (msg : Bytes) (h0 : beNat msg % beNat params.p ≠ 0)
    (h1 : beNat msg % beNat params.p ≠ 1) (h2 : beNat msg % beNat params.p ≠ beNat params.p - 1)
    (a b : Nat) (ha : 0 < a) (hb : 0 < b) (haq : a < q) (hbq : b < q) :
    ∃ sa sb x y, dhSharedSecret e params a msg = .ok (sa, x) ∧ dhSharedSecret e params b msg = .ok (sb, y) ∧
      beNat sa ≠ 0 ∧ beNat sa ≠ 1 ∧ (sa = sb → a = b) := by
  have hodd : beNat params.p % 2 = 1 := by omega
  have ho := safe_prime_order hp hq hpq h0 h1 h2
  have hlt : beNat msg ^ a % beNat params.p < 256 ^ params.p.length :=
    Nat.lt_trans (Nat.mod_lt _ (by omega)) (beNat_lt' _)
  have hm : (beNat msg).Coprime (beNat params.p) :=
    ((Nat.Prime.coprime_iff_not_dvd hp).2 fun h => h0 (Nat.mod_eq_zero_of_dvd h)).symm
  obtain ⟨sa, sb, x, y, e1, e2, e3⟩ := C94_same_secret_iff e he params hl hodd a b ha hb msg hm
  have e1' := dhSharedSecret_eq he hl hodd ha msg
  rw [e1] at e1'
  cases e1'
  refine ⟨_, _, _, _, e1, e2, ?_, ?_, ?_⟩
  · rw [beNat_natToBE' hlt]
    intro h
    exact h0 (Nat.mod_eq_zero_of_dvd (hp.dvd_of_dvd_pow (Nat.dvd_of_mod_eq_zero h)))
  · rw [beNat_natToBE' hlt]
    intro h
    have : (beNat msg : ZMod (beNat params.p)) ^ a = 1 := by
      have h3 : beNat msg ^ a % beNat params.p = beNat msg ^ 0 % beNat params.p := by
        rw [h, Nat.pow_zero, Nat.mod_eq_of_lt hp.one_lt]
      rw [dh_pow_mod_iff.1 h3, pow_zero]
    exact absurd (Nat.le_of_dvd ha (ho.trans (orderOf_dvd_of_pow_eq_one this))) (by omega)
  · intro h
    have h4 := (e3.1 h).of_dvd ho
    unfold Nat.ModEq at h4
    rwa [Nat.mod_eq_of_lt haq, Nat.mod_eq_of_lt hbq] at h4

/-! ### Examples -/

namespace Example

/-- The safe prime 23 = 2 * 11 + 1, as a string of eight characters, and the message 5: the hypotheses of
`C94_shared_secret_partial` hold, and the private secrets 3 and 7 give different secrets. -/
example : ∃ sa sb x y, dhSharedSecret bnEnv ⟨natToBE 8 23, natToBE 8 5, 3⟩ 3 (natToBE 8 5) = .ok (sa, x) ∧
    dhSharedSecret bnEnv ⟨natToBE 8 23, natToBE 8 5, 3⟩ 7 (natToBE 8 5) = .ok (sb, y) ∧
    beNat sa ≠ 0 ∧ beNat sa ≠ 1 ∧ (sa = sb → 3 = 7) :=
  C94_shared_secret_partial bnEnv (by decide) ⟨natToBE 8 23, natToBE 8 5, 3⟩ (by decide) 11
    (by rw [show beNat (natToBE 8 23) = 23 by decide]; decide) (by decide) (by decide) (natToBE 8 5) (by decide) (by decide) (by decide) 3 7
    (by decide) (by decide) (by decide) (by decide)

/-- With parameters from `new_parameters`, the message 1 forces the secret 1, whatever the private secret. -/
example (a : Int) (ha : 0 < a) : ∃ secret x,
    dhSharedSecret bnEnv ⟨natToBE 8 primeP, natToBE 8 (2 ^ 62 + 12345), 20⟩ a [1] = .ok (secret, x) ∧
      beNat secret = 1 := by
  obtain ⟨s, x, h1, _, h2, _⟩ := C94_forced_secret bnEnv (by decide)
    ⟨natToBE 8 primeP, natToBE 8 (2 ^ 62 + 12345), 20⟩ (by decide) (by decide +kernel) (by decide +kernel) a ha [1]
  exact ⟨s, x, h1, h2 (by decide +kernel)⟩

end Example
end Verif
