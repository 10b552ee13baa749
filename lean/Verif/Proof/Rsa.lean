import Verif.Model.Pubkey
import Verif.Proof.Bignum
import Verif.Proof.Bytes
import Mathlib.FieldTheory.Finite.Basic
/-
RSA.
-/
namespace Verif

theorem except_bind_ok {x : Except ε α} {f : α → Except ε β} {b : β} :
    (x >>= f) = .ok b ↔ ∃ a, x = .ok a ∧ f a = .ok b := by
  cases x with
  | error e => simp [bind, Except.bind]
  | ok a => simp [bind, Except.bind]

theorem except_ok_bind (a : α) (f : α → Except ε β) : (Except.ok a >>= f) = f a := rfl

/-! ### Arithmetic -/

theorem fermat_pow {p : Nat} (hp : p.Prime) (m j : Nat) : m ^ (1 + (p - 1) * j) ≡ m [MOD p] := by
  by_cases h : p ∣ m
  · have h0 : m ≡ 0 [MOD p] := (Nat.modEq_zero_iff_dvd).2 h
    refine Nat.ModEq.trans ?_ h0.symm
    rw [Nat.modEq_zero_iff_dvd]
    exact Dvd.dvd.trans h (dvd_pow_self m (by omega))
  · have hc : Nat.Coprime m p := ((Nat.Prime.coprime_iff_not_dvd hp).2 h).symm
    have hf := Nat.ModEq.pow_totient hc
    rw [Nat.totient_prime hp] at hf
    rw [pow_add, pow_one, pow_mul]
    have := (hf.pow j).mul_left m
    rwa [one_pow, mul_one] at this

theorem rsa_pow {p q : Nat} (hp : p.Prime) (hq : q.Prime) (hne : p ≠ q) {k : Nat} (h0 : 0 < k)
    (hk : k ≡ 1 [MOD (p - 1) * (q - 1)]) (m : Nat) : m ^ k ≡ m [MOD p * q] := by
  obtain ⟨j, hj⟩ : ∃ j, k = 1 + (p - 1) * (q - 1) * j := by
    have := (Nat.modEq_iff_dvd' (show 1 ≤ k by omega)).1 hk.symm
    obtain ⟨j, hj⟩ := this
    exact ⟨j, by omega⟩
  have hc : Nat.Coprime p q := (Nat.coprime_primes hp hq).2 hne
  rw [← Nat.modEq_and_modEq_iff_modEq_mul hc, hj]
  constructor
  · rw [mul_assoc]; exact fermat_pow hp m _
  · rw [mul_comm (p - 1), mul_assoc]; exact fermat_pow hq m _

/-- `m ^ e` then `^ d`, modulo `p q`. -/
theorem rsa_inverse {p q : Nat} (hp : p.Prime) (hq : q.Prime) (hne : p ≠ q) {e d : Nat}
    (h0 : 0 < e * d) (hk : e * d ≡ 1 [MOD (p - 1) * (q - 1)]) {m : Nat} (hm : m < p * q) :
    (m ^ e % (p * q)) ^ d % (p * q) = m := by
  have h1 : (m ^ e % (p * q)) ^ d ≡ m [MOD p * q] := by
    refine Nat.ModEq.trans ((Nat.mod_modEq _ _).pow d) ?_
    rw [← pow_mul]
    exact rsa_pow hp hq hne h0 hk m
  have := h1
  unfold Nat.ModEq at this
  rwa [Nat.mod_eq_of_lt hm] at this

/-- `y` is `c ^ d mod p q` if it is so modulo `p` and modulo `q`. -/
theorem crt_unique {p q : Nat} (hp : p.Prime) (hq : q.Prime) (hne : p ≠ q) {y z : Nat}
    (h1 : y ≡ z [MOD p]) (h2 : y ≡ z [MOD q]) (hy : y < p * q) : y = z % (p * q) := by
  have hc : Nat.Coprime p q := (Nat.coprime_primes hp hq).2 hne
  have := (Nat.modEq_and_modEq_iff_modEq_mul hc).1 ⟨h1, h2⟩
  unfold Nat.ModEq at this
  rwa [Nat.mod_eq_of_lt hy] at this

/-- An exponent can be reduced modulo `p - 1`. -/
theorem pow_mod_exp {p : Nat} (hp : p.Prime) (a : Nat) {d : Nat} (hd : 0 < d % (p - 1)) :
    a ^ (d % (p - 1)) ≡ a ^ d [MOD p] := by
  obtain ⟨k, hk⟩ : ∃ k, d % (p - 1) = k + 1 := ⟨d % (p - 1) - 1, by omega⟩
  have hdm := Nat.mod_add_div d (p - 1)
  have h1 : d = k + (1 + (p - 1) * (d / (p - 1))) := by omega
  rw [hk]
  conv_rhs => rw [h1]
  rw [pow_add, pow_one, pow_add a k]
  exact (fermat_pow hp a _).symm.mul_left _

/-! ### Zarith functions on natural numbers -/

theorem zRem_nat (a b : Nat) (hb : 0 < b) : zRem a b = .ok ((a % b : Nat) : Int) := by
  unfold zRem
  rw [if_neg (by omega), Int.tmod_eq_emod_of_nonneg (by omega)]
  rfl

theorem zDiv_nat (a b : Nat) (hb : 0 < b) : zDiv a b = .ok ((a / b : Nat) : Int) := by
  unfold zDiv
  rw [if_neg (by omega), Int.tdiv_eq_ediv_of_nonneg (by omega)]
  rfl

theorem powm_nat (a x n : Nat) (hx : 0 < x) (hn : n % 2 = 1) :
    bnModPower a x n = .ok ((a ^ x % n : Nat) : Int) := by
  unfold bnModPower zPowmSec
  rw [if_neg (by omega), if_neg (by omega), Int.toNat_natCast, Int.natAbs_natCast]
  congr 2
  rw [← Int.natCast_mod, Int.toNat_natCast, ← Nat.pow_mod]

theorem zInvert_nat {a m : Nat} {r : Int} (h : zInvert a m = .ok r) :
    ∃ k : Nat, r = k ∧ a * k ≡ 1 [MOD m] ∧ k < m := by
  unfold zInvert at h
  split at h
  · cases h
  · next hg =>
    cases h
    rw [not_or, not_not] at hg
    obtain ⟨h0, hg⟩ := hg
    have hm : (0 : Int) < m := by omega
    refine ⟨(Int.gcdA a m % m).toNat, (Int.toNat_of_nonneg (Int.emod_nonneg _ h0)).symm, ?_, ?_⟩
    · rw [← Int.natCast_modEq_iff]
      push_cast
      rw [Int.toNat_of_nonneg (Int.emod_nonneg _ h0)]
      have hab := Int.gcd_eq_gcd_ab a m
      rw [hg] at hab
      have h1 : (a : Int) * (Int.gcdA a m % m) ≡ a * Int.gcdA a m [ZMOD m] :=
        (Int.mod_modEq _ _).mul_left _
      refine h1.trans ?_
      have h2 : (a : Int) * Int.gcdA a m = 1 - m * Int.gcdB a m := by
        push_cast at hab; omega
      rw [h2]
      exact Int.modEq_iff_dvd.2 ⟨Int.gcdB a m, by ring⟩
    · have := Int.emod_lt_of_pos (Int.gcdA a m) hm
      omega

/-! ### Keys -/

/-- A key pair with its factors, exponents and sizes. -/
structure RsaGood (e : BnEnv) (priv : RsaPrivate) (pub : RsaPublic) (p q x d i : Nat) : Prop where
  pprime : p.Prime
  qprime : q.Prime
  qltp : q < p
  q2 : 2 < q
  x0 : 0 < x
  pubn : beNat pub.n = p * q
  pube : beNat pub.e = x
  privn : beNat priv.n = p * q
  privd : beNat priv.d = d
  privp : beNat priv.p = p
  privq : beNat priv.q = q
  privdp : beNat priv.dp = d % (p - 1)
  privdq : beNat priv.dq = d % (q - 1)
  privqinv : beNat priv.qinv = i
  ed : x * d ≡ 1 [MOD (p - 1) * (q - 1)]
  qi : q * i ≡ 1 [MOD p]
  sizes : pub.size = priv.size
  size1 : (zNumbits (p * q : Nat) : Int) ≤ pub.size
  size2 : limbBytes e (p * q : Nat) ≤ (pub.size.toNat + 7) / 8

theorem rsaBuild_good {e : BnEnv} (he : 0 < e.limb) {numbits : Int} {p q x : Nat} (hp : p.Prime)
    (hq : q.Prime) (hlt : q < p) (hq2 : 2 < q) (hx : 0 < x) {priv : RsaPrivate} {pub : RsaPublic}
    (h : rsaBuild e numbits p q x = .ok (priv, pub)) :
    (∃ d i, RsaGood e priv pub p q x d i) ∧ pub.size = numbits := by
  unfold rsaBuild at h
  simp only [except_bind_ok] at h
  obtain ⟨d, hd, dp, hdp, dq, hdq, qinv, hqi, bn, hbn, bd, hbd, bp, hbp, bq, hbq, bdp, hbdp, bdq,
    hbdq, bqi, hbqi, be, hbe, hk⟩ := h
  cases hk
  have ep : (p : Int) - 1 = ((p - 1 : Nat) : Int) := by omega
  have eq : (q : Int) - 1 = ((q - 1 : Nat) : Int) := by omega
  rw [ep, eq] at hd
  rw [ep] at hdp
  rw [eq] at hdq
  rw [← Nat.cast_mul] at hd hbn
  obtain ⟨d, rfl, hed, _⟩ := zInvert_nat hd
  obtain ⟨i, rfl, hqi, _⟩ := zInvert_nat hqi
  rw [zRem_nat _ _ (by omega)] at hdp hdq
  cases hdp
  cases hdq
  have b1 := bnToBytes_val he hbn
  have b2 := bnToBytes_val he hbd
  have b3 := bnToBytes_val he hbp
  have b4 := bnToBytes_val he hbq
  have b5 := bnToBytes_val he hbdp
  have b6 := bnToBytes_val he hbdq
  have b7 := bnToBytes_val he hbqi
  have b8 := bnToBytes_val he hbe
  rw [Int.natAbs_natCast] at b1 b2 b3 b4 b5 b6 b7 b8
  exact ⟨⟨d, i, ⟨hp, hq, hlt, hq2, hx, b1.1, b8.1, b1.1, b2.1, b3.1, b4.1, b5.1, b6.1, b7.1, hed, hqi,
    rfl, b1.2.2.1, b1.2.2.2⟩⟩, rfl⟩

section good
variable {e : BnEnv} {priv : RsaPrivate} {pub : RsaPublic} {p q x d i : Nat}

theorem RsaGood.nodd (h : RsaGood e priv pub p q x d i) : (p * q) % 2 = 1 := by
  have h1 := h.pprime.eq_two_or_odd
  have h2 := h.qprime.eq_two_or_odd
  have := h.q2; have := h.qltp
  rw [Nat.mul_mod]
  rcases h1 with h1 | h1
  · omega
  · rcases h2 with h2 | h2
    · omega
    · rw [h1, h2]

theorem RsaGood.pos (h : RsaGood e priv pub p q x d i) : 0 < x * d := by
  rcases Nat.eq_zero_or_pos (x * d) with h0 | h0
  · have := h.ed
    rw [h0] at this
    have h2 := h.q2; have h3 := h.qltp
    have h4 : 1 < (p - 1) * (q - 1) := by
      calc 1 < 1 * 2 := by decide
        _ ≤ (p - 1) * (q - 1) := Nat.mul_le_mul (by omega) (by omega)
    unfold Nat.ModEq at this
    rw [Nat.zero_mod, Nat.mod_eq_of_lt h4] at this
    omega
  · exact h0

theorem RsaGood.d0 (h : RsaGood e priv pub p q x d i) : 0 < d := by
  have := h.pos
  rcases Nat.eq_zero_or_pos d with h0 | h0
  · subst h0; simp at this
  · exact h0

theorem RsaGood.dcop (h : RsaGood e priv pub p q x d i) {k : Nat} (hk : k ∣ (p - 1) * (q - 1))
    (h1 : 1 < k) : 0 < d % k := by
  have := h.ed.of_dvd hk
  rcases Nat.eq_zero_or_pos (d % k) with h0 | h0
  · unfold Nat.ModEq at this
    rw [Nat.mul_mod, h0, Nat.mul_zero, Nat.zero_mod, Nat.mod_eq_of_lt h1] at this
    omega
  · exact h0

theorem RsaGood.n0 (h : RsaGood e priv pub p q x d i) : 0 < p * q :=
  Nat.mul_pos h.pprime.pos h.qprime.pos

/-- Conversion of a result. -/
theorem RsaGood.conv (h : RsaGood e priv pub p q x d i) (he : 0 < e.limb) {r : Nat} (hr : r < p * q) :
    bnToBytes e (some pub.size) r = .ok (natToBE ((pub.size.toNat + 7) / 8) r) ∧
      beNat (natToBE ((pub.size.toNat + 7) / 8) r) = r := by
  have hc := bnToBytes_fits he (m := (r : Int)) (n := ((p * q : Nat) : Int))
    (by rw [Int.natAbs_natCast, Int.natAbs_natCast]; omega) h.size1 h.size2
  rw [Int.natAbs_natCast] at hc
  refine ⟨hc, ?_⟩
  have := (bnToBytes_val he hc).1
  rwa [Int.natAbs_natCast] at this

theorem rsaEncrypt_eq (h : RsaGood e priv pub p q x d i) (he : 0 < e.limb) {msg : Bytes}
    (hm : beNat msg < p * q) :
    rsaEncrypt e pub msg = .ok (natToBE ((pub.size.toNat + 7) / 8) (beNat msg ^ x % (p * q))) := by
  unfold rsaEncrypt
  simp only [bnOfBytes_eq, h.pubn, h.pube]
  rw [if_neg (by omega), powm_nat _ _ _ h.x0 h.nodd, except_ok_bind]
  exact (h.conv he (Nat.mod_lt _ h.n0)).1

theorem rsaDecrypt_eq (h : RsaGood e priv pub p q x d i) (he : 0 < e.limb) {msg : Bytes}
    (hm : beNat msg < p * q) :
    rsaDecrypt e priv msg = .ok (natToBE ((pub.size.toNat + 7) / 8) (beNat msg ^ d % (p * q))) := by
  unfold rsaDecrypt
  simp only [bnOfBytes_eq, h.privn, h.privd, ← h.sizes]
  rw [if_neg (by omega), powm_nat _ _ _ h.d0 h.nodd, except_ok_bind]
  exact (h.conv he (Nat.mod_lt _ h.n0)).1

theorem bnModPowerCRT_eq (h : RsaGood e priv pub p q x d i) (a : Nat) :
    bnModPowerCRT a p q (d % (p - 1) : Nat) (d % (q - 1) : Nat) i
      = .ok ((a ^ d % (p * q) : Nat) : Int) := by
  have h2 := h.q2; have h3 := h.qltp
  have hp0 := h.pprime.pos; have hq0 := h.qprime.pos
  have hdp := h.dcop (k := p - 1) (Nat.dvd_mul_right _ _) (by omega)
  have hdq := h.dcop (k := q - 1) (Nat.dvd_mul_left _ _) (by omega)
  have podd : p % 2 = 1 := by
    rcases h.pprime.eq_two_or_odd with h1 | h1 <;> omega
  have qodd : q % 2 = 1 := by
    rcases h.qprime.eq_two_or_odd with h1 | h1 <;> omega
  unfold bnModPowerCRT
  rw [zRem_nat _ _ hp0, except_ok_bind, zRem_nat _ _ hq0, except_ok_bind, powm_nat _ _ _ hdp podd,
    except_ok_bind, powm_nat _ _ _ hdq qodd, except_ok_bind]
  have emp : (a % p) ^ (d % (p - 1)) % p = a ^ d % p := by
    rw [← Nat.pow_mod]; exact pow_mod_exp h.pprime a hdp
  have emq : (a % q) ^ (d % (q - 1)) % q = a ^ d % q := by
    rw [← Nat.pow_mod]; exact pow_mod_exp h.qprime a hdq
  rw [emp, emq]
  have hmp : a ^ d % p < p := Nat.mod_lt _ hp0
  have hmq : a ^ d % q < q := Nat.mod_lt _ hq0
  obtain ⟨s, hs1, hs2⟩ : ∃ s : Nat, bnSubMod (a ^ d % p : Nat) (a ^ d % q : Nat) p = s ∧
      s + a ^ d % q ≡ a ^ d [MOD p] := by
    unfold bnSubMod
    split
    · next hneg =>
      refine ⟨a ^ d % p + p - a ^ d % q, by omega, ?_⟩
      rw [Nat.sub_add_cancel (by omega)]
      have := (Nat.add_modEq_right (n := p) (a := a ^ d % p))
      exact this.trans (Nat.mod_modEq _ _)
    · next hneg =>
      refine ⟨a ^ d % p - a ^ d % q, by omega, ?_⟩
      rw [Nat.sub_add_cancel (by omega)]
      exact Nat.mod_modEq _ _
  rw [hs1, ← Nat.cast_mul, zRem_nat _ _ hp0, except_ok_bind, ← Nat.cast_mul, ← Nat.cast_add]
  show Except.ok _ = Except.ok _
  congr 2
  refine crt_unique h.pprime h.qprime (by omega) ?_ ?_ ?_
  · have hqi : q * (s * i % p) ≡ s [MOD p] := by
      have h1 : q * (s * i % p) ≡ q * (s * i) [MOD p] := (Nat.mod_modEq _ _).mul_left _
      refine h1.trans ?_
      rw [show q * (s * i) = s * (q * i) by ring]
      have := h.qi.mul_left s
      rwa [Nat.mul_one] at this
    exact (hqi.add_right _).trans hs2
  · have h1 : q * (s * i % p) + a ^ d % q ≡ 0 + a ^ d % q [MOD q] :=
      Nat.ModEq.add_right _ ((Nat.modEq_zero_iff_dvd).2 (Nat.dvd_mul_right _ _))
    rw [Nat.zero_add] at h1
    exact h1.trans (Nat.mod_modEq _ _)
  · have hlt : s * i % p < p := Nat.mod_lt _ hp0
    calc q * (s * i % p) + a ^ d % q < q * (s * i % p) + q := by omega
      _ = q * (s * i % p + 1) := by ring
      _ ≤ q * p := Nat.mul_le_mul_left _ hlt
      _ = p * q := Nat.mul_comm _ _

theorem rsaDecryptCRT_eq (h : RsaGood e priv pub p q x d i) (msg : Bytes) :
    rsaDecryptCRT e priv msg = rsaDecrypt e priv msg := by
  unfold rsaDecryptCRT rsaDecrypt
  simp only [bnOfBytes_eq, h.privn, h.privd, h.privp, h.privq, h.privdp, h.privdq, h.privqinv]
  split
  · rfl
  · rw [bnModPowerCRT_eq h, powm_nat _ _ _ h.d0 h.nodd]

end good

/-! ### Key generation -/

theorem retry_ok {fuel : Nat} {body : M σ (Option α)} {s s' : σ} {a : α}
    (h : retry fuel body s = .ok a s') : ∃ s0, body s0 = .ok (some a) s' := by
  induction fuel generalizing s with
  | zero => exact absurd h (by simp [retry, M.diverge])
  | succ k ih =>
    rw [retry, M.bind_def] at h
    cases hb : body s with
    | ok o s1 =>
      rw [hb] at h
      cases o with
      | none => exact ih h
      | some a' =>
        simp only at h
        cases h
        exact ⟨s, hb⟩
    | exn x s1 => rw [hb] at h; cases h
    | ub => rw [hb] at h; cases h
    | loop => rw [hb] at h; cases h

theorem m_bind_ok {m : M σ α} {k : α → M σ β} {s s' : σ} {b : β} :
    (m >>= k) s = .ok b s' ↔ ∃ a s1, m s = .ok a s1 ∧ k a s1 = .ok b s' := by
  rw [M.bind_def]
  cases m s <;> simp

theorem m_pure_ok {s s' : σ} {a b : α} : (pure a : M σ α) s = .ok b s' ↔ a = b ∧ s = s' := by
  show Out.ok a s = Out.ok b s' ↔ _
  simp

theorem bnRandom_ok {rng : RandomBytes σ} {odd : Bool} {nb : Int} {s s' : σ} {n : Int}
    (h : bnRandom rng odd nb s = .ok n s') :
    0 ≤ n ∧ (zNumbits n : Int) = nb ∧ (odd = true → n % 2 = 1) := by
  unfold bnRandom at h
  simp only at h
  split at h
  · cases h
  · simp only [m_bind_ok] at h
    obtain ⟨b1, s1, _, b2, s2, _, b3, s3, _, h⟩ := h
    split at h
    · cases h
    · next h1 =>
      split at h
      · cases h
      · next h2 =>
        obtain ⟨rfl, _⟩ := m_pure_ok.1 h
        refine ⟨?_, not_not.1 h1, fun ho => ?_⟩
        · exact Int.natCast_nonneg _
        · rw [ho] at h2
          have := Int.emod_two_eq (zOfBits b3)
          simp only [true_and] at h2
          omega

/-- `Z.nextprime` returns a prime larger than its argument (with certainty; the documentation only
promises a very high probability). -/
def BnEnv.PrimeOk (e : BnEnv) : Prop :=
  ∀ n : Int, 0 ≤ n → n < e.nextprime n ∧ (e.nextprime n).toNat.Prime

theorem bnRandomPrime_ok {e : BnEnv} (hn : e.PrimeOk) {rng : RandomBytes σ} {fuel : Nat} {nb : Int}
    {s s' : σ} {p : Int} (h : bnRandomPrime e rng fuel nb s = .ok p s') :
    ∃ k : Nat, p = k ∧ k.Prime ∧ (zNumbits p : Int) = nb := by
  unfold bnRandomPrime at h
  obtain ⟨s0, h⟩ := retry_ok h
  simp only [m_bind_ok, m_pure_ok] at h
  obtain ⟨n, s1, h1, h2, _⟩ := h
  split at h2
  · next hb =>
    cases h2
    have := bnRandom_ok h1
    have := hn n this.1
    exact ⟨(e.nextprime n).toNat, by omega, this.2, hb⟩
  · cases h2

theorem rsaGenFactor_ok {e : BnEnv} (hn : e.PrimeOk) {rng : RandomBytes σ} {fuel : Nat}
    {x : Option Int} {nb : Int} {s s' : σ} {p : Int} (h : rsaGenFactor e rng fuel x nb s = .ok p s') :
    ∃ k : Nat, p = k ∧ k.Prime ∧ (zNumbits p : Int) = nb := by
  unfold rsaGenFactor at h
  obtain ⟨s0, h⟩ := retry_ok h
  simp only [m_bind_ok, m_pure_ok] at h
  obtain ⟨n, s1, h1, h2, _⟩ := h
  have := bnRandomPrime_ok hn h1
  cases x with
  | none => cases h2; exact this
  | some x =>
    simp only at h2
    split at h2
    · cases h2; exact this
    · cases h2

theorem rsaGenFactors_ok {e : BnEnv} (hn : e.PrimeOk) {rng : RandomBytes σ} {fuel : Nat}
    {x : Option Int} {nb : Int} {s s' : σ} {pq : Int × Int}
    (h : rsaGenFactors e rng fuel x nb s = .ok pq s') :
    ∃ p q : Nat, pq = (↑p, ↑q) ∧ p.Prime ∧ q.Prime ∧ q < p ∧ (zNumbits p : Int) = nb ∧
      (zNumbits q : Int) = nb := by
  unfold rsaGenFactors at h
  obtain ⟨s0, h⟩ := retry_ok h
  simp only [m_bind_ok, m_pure_ok] at h
  obtain ⟨a, s1, h1, b, s2, h2, h3, _⟩ := h
  obtain ⟨p, rfl, pp, pb⟩ := rsaGenFactor_ok hn h1
  obtain ⟨q, rfl, qp, qb⟩ := rsaGenFactor_ok hn h2
  split at h3
  · cases h3
  · split at h3
    · cases h3; exact ⟨q, p, rfl, qp, pp, by omega, qb, pb⟩
    · cases h3; exact ⟨p, q, rfl, pp, qp, by omega, pb, qb⟩

theorem zNumbits_large {n : Nat} {nb : Int} (h : (zNumbits n : Int) = nb) (h16 : 16 ≤ nb) :
    2 ^ 15 ≤ n := by
  obtain ⟨k, hk⟩ : ∃ k, zNumbits n = k + 1 := ⟨zNumbits n - 1, by omega⟩
  have h1 := zNumbits_pos hk
  rw [Int.natAbs_natCast] at h1
  exact Nat.le_trans (Nat.pow_le_pow_right (by decide) (by omega)) h1

theorem ofExcept_ok {x : Except Exn α} {s s' : σ} {a : α} (h : ofExcept x s = .ok a s') : x = .ok a := by
  cases x with
  | error e => cases h
  | ok b =>
    simp only [ofExcept] at h
    have : Out.ok b s = Out.ok a s' := h
    cases this
    rfl

theorem rsaNewKey_good {e : BnEnv} (he : 0 < e.limb) (hn : e.PrimeOk) {rng : RandomBytes σ}
    {fuel : Nat} {x : Option Int} (hx : ∀ v, x = some v → 0 < v) {numbits : Int} {s s' : σ}
    {priv : RsaPrivate} {pub : RsaPublic}
    (h : rsaNewKey e rng fuel x numbits s = .ok (priv, pub) s') :
    (∃ p q v d i, RsaGood e priv pub p q v d i ∧ (∀ w, x = some w → (v : Int) = w)) ∧
      pub.size = numbits := by
  unfold rsaNewKey at h
  split at h
  · cases h
  · next hb =>
    rw [not_or] at hb
    simp only [m_bind_ok] at h
    obtain ⟨pq, s1, h1, v, s2, h2, h3⟩ := h
    obtain ⟨p, q, rfl, pp, qp, hlt, pb, qb⟩ := rsaGenFactors_ok hn h1
    have h16 : 16 ≤ numbits.tdiv 2 := by
      rw [Int.tdiv_eq_ediv_of_nonneg (by omega)]; omega
    have hq := zNumbits_large qb h16
    have hv : 0 < v ∧ ∀ w, x = some w → v = w := by
      cases x with
      | some w =>
        obtain ⟨rfl, _⟩ := m_pure_ok.1 h2
        exact ⟨hx w rfl, fun _ h => by cases h; rfl⟩
      | none =>
        obtain ⟨s3, h4⟩ := retry_ok h2
        simp only [m_bind_ok, m_pure_ok] at h4
        obtain ⟨n, s4, h5, h6, _⟩ := h4
        have hr := bnRandom_ok h5
        split at h6
        · cases h6
          refine ⟨?_, fun _ h => by cases h⟩
          rcases lt_or_eq_of_le hr.1 with h0 | h0
          · exact h0
          · rw [← h0] at hr
            have : zNumbits 0 = 0 := rfl
            omega
        · cases h6
    obtain ⟨v, rfl⟩ := Int.eq_ofNat_of_zero_le (a := v) (by omega)
    obtain ⟨⟨d, i, hg⟩, hs⟩ := rsaBuild_good he pp qp hlt (by omega) (by omega) (ofExcept_ok h3)
    exact ⟨⟨p, q, v, d, i, hg, hv.2⟩, hs⟩

end Verif
