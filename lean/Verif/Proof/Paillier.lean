import Verif.Proof.Rsa
/-
Paillier and Diffie-Hellman.
-/
namespace Verif

/-! ### `mod_power` and `mod_mult` -/

theorem modPower_of {e : BnEnv} {a b c : Bytes} (hb : 0 < beNat b) (hc : beNat c % 2 = 1) :
    modPower e a b c
      = bnToBytes e (some (c.length * 8 : Nat)) (beNat a ^ beNat b % beNat c : Nat) := by
  unfold modPower
  rw [bnOfBytes_eq, bnOfBytes_eq, bnOfBytes_eq, powm_nat _ _ _ hb hc, except_ok_bind]
  push_cast
  rfl

theorem modMult_of {e : BnEnv} {a b c : Bytes} (hc : 0 < beNat c) :
    modMult e a b c
      = bnToBytes e (some (c.length * 8 : Nat)) (beNat a * beNat b % beNat c : Nat) := by
  unfold modMult
  rw [bnOfBytes_eq, bnOfBytes_eq, bnOfBytes_eq, ← Nat.cast_mul, zRem_nat _ _ hc, except_ok_bind]
  push_cast
  rfl

/-- Numbers below `c` can be written over the length of `c` if that is a number of limbs. -/
theorem toBytes_aligned {e : BnEnv} (he : 0 < e.limb) {c : Bytes} (hl : e.limb ∣ c.length) {r : Nat}
    (hr : r < 256 ^ c.length) :
    bnToBytes e (some (c.length * 8 : Nat)) r = .ok (natToBE c.length r) := by
  have h8 : ((c.length * 8 : Nat) : Int).toNat = c.length * 8 := Int.toNat_natCast _
  have e1 : (c.length * 8 + 7) / 8 = c.length := by omega
  rw [bnToBytes_some he, if_pos, if_pos, h8, e1, Int.natAbs_natCast]
  · rw [h8, e1]
    obtain ⟨k, hk⟩ := hl
    rw [hk] at hr ⊢
    exact (limbBytes_le he).2 (by rwa [Int.natAbs_natCast])
  · have : zNumbits (r : Int) ≤ c.length * 8 := by
      rw [zNumbits_le, Int.natAbs_natCast, Nat.mul_comm, ← pow256]; exact hr
    exact_mod_cast this

theorem beNat_natToBE' {n x : Nat} (h : x < 256 ^ n) : beNat (natToBE n x) = x := by
  rw [bn_beNat, Nat.mod_eq_of_lt h]

theorem beNat_lt' (s : Bytes) : beNat s < 256 ^ s.length := beNat_lt s

theorem modPower_ok {e : BnEnv} (he : 0 < e.limb) {a b c : Bytes} (hl : e.limb ∣ c.length)
    (hb : 0 < beNat b) (hc : beNat c % 2 = 1) :
    modPower e a b c = .ok (natToBE c.length (beNat a ^ beNat b % beNat c)) ∧
      beNat (natToBE c.length (beNat a ^ beNat b % beNat c)) = beNat a ^ beNat b % beNat c := by
  have : beNat a ^ beNat b % beNat c < 256 ^ c.length :=
    Nat.lt_trans (Nat.mod_lt _ (by omega)) (beNat_lt' c)
  exact ⟨(modPower_of hb hc).trans (toBytes_aligned he hl this), beNat_natToBE' this⟩

theorem modMult_ok {e : BnEnv} (he : 0 < e.limb) {a b c : Bytes} (hl : e.limb ∣ c.length)
    (hc : 0 < beNat c) :
    modMult e a b c = .ok (natToBE c.length (beNat a * beNat b % beNat c)) ∧
      beNat (natToBE c.length (beNat a * beNat b % beNat c)) = beNat a * beNat b % beNat c := by
  have : beNat a * beNat b % beNat c < 256 ^ c.length :=
    Nat.lt_trans (Nat.mod_lt _ (by omega)) (beNat_lt' c)
  exact ⟨(modMult_of hc).trans (toBytes_aligned he hl this), beNat_natToBE' this⟩

/-! ### Arithmetic of the Paillier cryptosystem -/

theorem one_add_pow_mod (n j k : Nat) : (1 + j * n) ^ k ≡ 1 + k * j * n [MOD n * n] := by
  induction k with
  | zero => simp; rfl
  | succ k ih =>
    rw [pow_succ]
    refine (ih.mul_right _).trans ?_
    have : (1 + k * j * n) * (1 + j * n) = 1 + (k + 1) * j * n + n * n * (k * j * j) := by ring
    rw [this]
    have h := Nat.ModEq.add_left (1 + (k + 1) * j * n)
      ((Nat.modEq_zero_iff_dvd (n := n * n)).2 (Nat.dvd_mul_right (n * n) (k * j * j)))
    exact h

/-- The exponent `l` of the private key: all units have order dividing it. -/
def Carm (n l : Nat) : Prop := ∀ c, Nat.Coprime c n → c ^ l ≡ 1 [MOD n]

/-- The quotient computed by decryption. -/
def paiL (n l c : Nat) : Nat := (c ^ l % (n * n) - 1) / n

theorem paiL_spec {n l : Nat} (hn : 1 < n) (hl : Carm n l) {c : Nat} (hc : Nat.Coprime c n) :
    paiL n l c < n ∧ c ^ l % (n * n) = 1 + paiL n l c * n := by
  have h1 : c ^ l % (n * n) % n = 1 := by
    rw [Nat.mod_mul_right_mod]
    have := hl c hc
    unfold Nat.ModEq at this
    rwa [Nat.mod_eq_of_lt hn] at this
  have h2 : c ^ l % (n * n) < n * n := Nat.mod_lt _ (Nat.mul_pos (by omega) (by omega))
  unfold paiL
  generalize c ^ l % (n * n) = y at h1 h2
  have hy := Nat.mod_add_div y n
  rw [h1] at hy
  have h3 : (y - 1) / n = y / n := by
    rw [← hy, Nat.add_sub_cancel_left, Nat.mul_div_cancel_left _ (by omega)]
    rw [Nat.add_mul_div_left _ _ (by omega), Nat.div_eq_of_lt hn, Nat.zero_add]
  rw [h3]
  exact ⟨Nat.div_lt_of_lt_mul h2, by rw [Nat.mul_comm]; omega⟩

theorem paiL_of {n l : Nat} (hn : 1 < n) (hl : Carm n l) {c j : Nat} (hc : Nat.Coprime c n)
    (h : c ^ l ≡ 1 + j * n [MOD n * n]) : paiL n l c ≡ j [MOD n] := by
  have h1 := (paiL_spec hn hl hc).2
  have h2 : 1 + paiL n l c * n ≡ 1 + j * n [MOD n * n] := by
    rw [← h1]; exact (Nat.mod_modEq _ _).trans h
  exact Nat.ModEq.mul_right_cancel' (by omega) (Nat.ModEq.add_left_cancel' 1 h2)

theorem paiL_mul {n l : Nat} (hn : 1 < n) (hl : Carm n l) {a b : Nat} (ha : Nat.Coprime a n)
    (hb : Nat.Coprime b n) : paiL n l (a * b) ≡ paiL n l a + paiL n l b [MOD n] := by
  refine paiL_of hn hl (Nat.Coprime.mul_left ha hb) ?_
  have h1 : a ^ l ≡ 1 + paiL n l a * n [MOD n * n] := by
    rw [← (paiL_spec hn hl ha).2]; exact (Nat.mod_modEq _ _).symm
  have h2 : b ^ l ≡ 1 + paiL n l b * n [MOD n * n] := by
    rw [← (paiL_spec hn hl hb).2]; exact (Nat.mod_modEq _ _).symm
  rw [mul_pow]
  refine (h1.mul h2).trans ?_
  have : (1 + paiL n l a * n) * (1 + paiL n l b * n)
      = 1 + (paiL n l a + paiL n l b) * n + n * n * (paiL n l a * paiL n l b) := by ring
  rw [this]
  exact Nat.ModEq.add_left _ ((Nat.modEq_zero_iff_dvd (n := n * n)).2 (Nat.dvd_mul_right _ _))

theorem paiL_mod {n l : Nat} (c : Nat) : paiL n l (c % (n * n)) = paiL n l c := by
  unfold paiL
  rw [← Nat.pow_mod]

theorem coprime_mod_sq {n c : Nat} : Nat.Coprime (c % (n * n)) n ↔ Nat.Coprime c n := by
  unfold Nat.Coprime
  rw [Nat.gcd_comm (c % (n * n)), Nat.gcd_rec, Nat.mod_mul_right_mod, ← Nat.gcd_rec, Nat.gcd_comm]

theorem coprime_succ (n : Nat) : Nat.Coprime (n + 1) n := by simp

/-- The powers of the generator `n + 1`. -/
theorem paiL_gen {n l : Nat} (hn : 1 < n) (hl : Carm n l) (m : Nat) :
    paiL n l ((n + 1) ^ m) ≡ m * l [MOD n] := by
  refine paiL_of hn hl (Nat.Coprime.pow_left _ (coprime_succ n)) ?_
  rw [← pow_mul, Nat.add_comm n 1]
  have := one_add_pow_mod n 1 (m * l)
  rwa [Nat.one_mul, Nat.mul_one] at this

/-- The blinding factor. -/
theorem paiL_blind {n l : Nat} (hn : 1 < n) (hl : Carm n l) {r : Nat} (hr : Nat.Coprime r n) :
    paiL n l (r ^ n) ≡ 0 [MOD n] := by
  refine paiL_of hn hl (Nat.Coprime.pow_left _ hr) ?_
  rw [← pow_mul, Nat.mul_comm n l, pow_mul]
  have h1 : r ^ l ≡ 1 + paiL n l r * n [MOD n * n] := by
    rw [← (paiL_spec hn hl hr).2]; exact (Nat.mod_modEq _ _).symm
  refine (h1.pow n).trans ((one_add_pow_mod n _ n).trans ?_)
  have : n * paiL n l r * n = n * n * paiL n l r := by ring
  rw [this, Nat.zero_mul]
  exact Nat.ModEq.add_left _ ((Nat.modEq_zero_iff_dvd (n := n * n)).2 (Nat.dvd_mul_right _ _))

theorem carm_lcm {p q : Nat} (hp : p.Prime) (hq : q.Prime) (hne : p ≠ q) :
    Carm (p * q) (Nat.lcm (p - 1) (q - 1)) := by
  intro c hc
  have hc1 : Nat.Coprime c p := Nat.Coprime.coprime_mul_right_right hc
  have hc2 : Nat.Coprime c q := Nat.Coprime.coprime_mul_left_right hc
  have hcop : Nat.Coprime p q := (Nat.coprime_primes hp hq).2 hne
  rw [← Nat.modEq_and_modEq_iff_modEq_mul hcop]
  constructor
  · obtain ⟨k, hk⟩ := Nat.dvd_lcm_left (p - 1) (q - 1)
    have := Nat.ModEq.pow_totient hc1
    rw [Nat.totient_prime hp] at this
    rw [hk, pow_mul]
    have h2 := this.pow k
    rwa [one_pow] at h2
  · obtain ⟨k, hk⟩ := Nat.dvd_lcm_right (p - 1) (q - 1)
    have := Nat.ModEq.pow_totient hc2
    rw [Nat.totient_prime hq] at this
    rw [hk, pow_mul]
    have h2 := this.pow k
    rwa [one_pow] at h2

/-! ### Keys -/

/-- A key pair with its modulus and exponents. -/
structure PaiGood (e : BnEnv) (priv : PaillierPrivate) (pub : PaillierPublic) (n l mu : Nat) : Prop where
  n1 : 1 < n
  nodd : n % 2 = 1
  l0 : 0 < l
  carm : Carm n l
  lmu : l * mu ≡ 1 [MOD n]
  pubn : beNat pub.n = n
  pubn2 : beNat pub.n2 = n * n
  pubg : beNat pub.g = n + 1
  privn : beNat priv.n = n
  privn2 : beNat priv.n2 = n * n
  privl : beNat priv.lambda = l
  privmu : beNat priv.mu = mu
  limb : e.limb ∣ pub.n2.length

theorem paillierBuild_good {e : BnEnv} (he : 0 < e.limb) {numbits : Int} {p q : Nat} (hp : p.Prime)
    (hq : q.Prime) (hne : p ≠ q) (hp2 : 2 < p) (hq2 : 2 < q) {priv : PaillierPrivate}
    {pub : PaillierPublic} (h : paillierBuild e numbits p q = .ok (priv, pub)) :
    ∃ l mu, PaiGood e priv pub (p * q) l mu := by
  unfold paillierBuild at h
  simp only [except_bind_ok] at h
  obtain ⟨mu, hmu, bn, hbn, bn2, hbn2, bp, hbp, bq, hbq, bl, hbl, bmu, hbmu, bg, hbg, hk⟩ := h
  cases hk
  have ep : (p : Int) - 1 = ((p - 1 : Nat) : Int) := by omega
  have eq : (q : Int) - 1 = ((q - 1 : Nat) : Int) := by omega
  rw [ep, eq] at hmu hbl
  have el : Int.lcm ((p - 1 : Nat) : Int) ((q - 1 : Nat) : Int) = Nat.lcm (p - 1) (q - 1) := by
    unfold Int.lcm; rw [Int.natAbs_natCast, Int.natAbs_natCast]
  rw [el] at hmu hbl
  have en : (p : Int) * q = ((p * q : Nat) : Int) := by push_cast; rfl
  rw [en] at hmu hbn hbn2 hbg
  obtain ⟨mu, rfl, hlm, _⟩ := zInvert_nat hmu
  have b1 := (bnToBytes_val he hbn).1
  have b2 := bnToBytes_none_val he hbn2
  have b3 := (bnToBytes_none_val he hbl).1
  have b4 := (bnToBytes_none_val he hbmu).1
  have b5 := (bnToBytes_none_val he hbg).1
  rw [Int.natAbs_natCast] at b1 b3 b4
  have e2 : (((p * q : Nat) : Int) * ((p * q : Nat) : Int)).natAbs = p * q * (p * q) := by
    rw [← Nat.cast_mul, Int.natAbs_natCast]
  have e5 : (((p * q : Nat) : Int) + 1).natAbs = p * q + 1 := by omega
  rw [e2] at b2
  rw [e5] at b5
  have hodd : (p * q) % 2 = 1 := by
    rcases hp.eq_two_or_odd with h1 | h1
    · omega
    · rcases hq.eq_two_or_odd with h2 | h2
      · omega
      · rw [Nat.mul_mod, h1, h2]
  have h1 : 1 < p * q := by
    calc 1 < 3 * 3 := by decide
      _ ≤ p * q := Nat.mul_le_mul hp2 hq2
  refine ⟨_, _, ⟨h1, hodd, Nat.lcm_pos (by omega) (by omega), carm_lcm hp hq hne, hlm, b1, b2.1, b5,
    b1, b2.1, b3, b4, ?_⟩⟩
  show e.limb ∣ bn2.length
  rw [b2.2]
  exact limb_dvd e _

theorem paillierGenFactors_ok {e : BnEnv} (hn : e.PrimeOk) {rng : RandomBytes σ} {fuel : Nat}
    {nb : Int} {s s' : σ} {pq : Int × Int} (h : paillierGenFactors e rng fuel nb s = .ok pq s') :
    ∃ p q : Nat, pq = (↑p, ↑q) ∧ p.Prime ∧ q.Prime ∧ p ≠ q ∧ (zNumbits p : Int) = nb ∧
      (zNumbits q : Int) = nb := by
  unfold paillierGenFactors at h
  obtain ⟨s0, h⟩ := retry_ok h
  simp only [m_bind_ok, m_pure_ok] at h
  obtain ⟨a, s1, h1, b, s2, h2, h3, _⟩ := h
  obtain ⟨p, rfl, pp, pb⟩ := bnRandomPrime_ok hn h1
  obtain ⟨q, rfl, qp, qb⟩ := bnRandomPrime_ok hn h2
  split at h3
  · cases h3
  · next hne =>
    split at h3
    · cases h3; exact ⟨p, q, rfl, pp, qp, by omega, pb, qb⟩
    · cases h3

theorem paillierNewKey_good {e : BnEnv} (he : 0 < e.limb) (hn : e.PrimeOk) {rng : RandomBytes σ}
    {fuel : Nat} {numbits : Int} {s s' : σ} {priv : PaillierPrivate} {pub : PaillierPublic}
    (h : paillierNewKey e rng fuel numbits s = .ok (priv, pub) s') :
    ∃ n l mu, PaiGood e priv pub n l mu := by
  unfold paillierNewKey at h
  split at h
  · cases h
  · next hb =>
    rw [not_or] at hb
    simp only [m_bind_ok] at h
    obtain ⟨pq, s1, h1, h3⟩ := h
    obtain ⟨p, q, rfl, pp, qp, hne, pb, qb⟩ := paillierGenFactors_ok hn h1
    have h16 : 16 ≤ numbits.tdiv 2 := by
      rw [Int.tdiv_eq_ediv_of_nonneg (by omega)]; omega
    have hq := zNumbits_large qb h16
    have hp := zNumbits_large pb h16
    obtain ⟨l, mu, hg⟩ := paillierBuild_good he pp qp hne (by omega) (by omega) (ofExcept_ok h3)
    exact ⟨_, l, mu, hg⟩

section good
variable {e : BnEnv} {priv : PaillierPrivate} {pub : PaillierPublic} {n l mu : Nat}

theorem PaiGood.n2 (h : PaiGood e priv pub n l mu) : 0 < n * n :=
  Nat.mul_pos (by have := h.n1; omega) (by have := h.n1; omega)

theorem PaiGood.n2odd (h : PaiGood e priv pub n l mu) : (n * n) % 2 = 1 := by
  rw [Nat.mul_mod, h.nodd]

theorem paillierEncryptWith_eq (h : PaiGood e priv pub n l mu) (he : 0 < e.limb) {r msg : Bytes}
    (hm : 0 < beNat msg) :
    ∃ c, paillierEncryptWith e pub r msg = .ok c ∧ c.length = pub.n2.length ∧
      beNat c = (n + 1) ^ beNat msg * beNat r ^ n % (n * n) := by
  unfold paillierEncryptWith
  have hg := modPower_ok he (a := pub.g) (b := msg) h.limb hm (by rw [h.pubn2]; exact h.n2odd)
  have hr := modPower_ok he (a := r) (b := pub.n) h.limb (by rw [h.pubn]; have := h.n1; omega)
    (by rw [h.pubn2]; exact h.n2odd)
  rw [hg.1, except_ok_bind, hr.1, except_ok_bind]
  have hm := modMult_ok he (a := natToBE pub.n2.length (beNat pub.g ^ beNat msg % beNat pub.n2))
    (b := natToBE pub.n2.length (beNat r ^ beNat pub.n % beNat pub.n2)) h.limb
    (by rw [h.pubn2]; exact h.n2)
  refine ⟨_, hm.1, natToBE_length _ _, hm.2.trans ?_⟩
  rw [hg.2, hr.2, h.pubn2, h.pubg, h.pubn, ← Nat.mul_mod]

/-- What decryption computes on the numbers prime with `n`. -/
theorem paillierDecrypt_eq (h : PaiGood e priv pub n l mu) (he : 0 < e.limb) {c : Bytes}
    (hc : Nat.Coprime (beNat c) n) :
    ∃ m, paillierDecrypt e priv c = .ok m ∧ beNat m = paiL n l (beNat c) * mu % n := by
  unfold paillierDecrypt
  simp only [bnOfBytes_eq, h.privn, h.privn2, h.privl, h.privmu]
  rw [powm_nat _ _ _ h.l0 h.n2odd, except_ok_bind]
  have hL := paiL_spec h.n1 h.carm hc
  have e1 : ((beNat c ^ l % (n * n) : Nat) : Int) - 1 = ((beNat c ^ l % (n * n) - 1 : Nat) : Int) := by
    have := hL.2; omega
  rw [e1, zDiv_nat _ _ (by have := h.n1; omega), except_ok_bind, ← Nat.cast_mul,
    zRem_nat _ _ (by have := h.n1; omega), except_ok_bind, bnToBytes_none]
  refine ⟨_, rfl, ?_⟩
  have := (bnToBytes_none_val he (bnToBytes_none (e := e)
    ((((beNat c ^ l % (n * n) - 1) / n * mu) % n : Nat) : Int))).1
  rw [Int.natAbs_natCast] at this
  rw [Int.natAbs_natCast]
  exact this

theorem PaiGood.cancel (h : PaiGood e priv pub n l mu) (m : Nat) : m * l * mu % n = m % n := by
  rw [Nat.mul_assoc]
  have := h.lmu.mul_left m
  rwa [Nat.mul_one] at this

end good

theorem paillierGetR_ok {e : BnEnv} (he : 0 < e.limb) {rng : RandomBytes σ} {fuel : Nat}
    {pub : PaillierPublic} {s s' : σ} {r : Bytes} (h : paillierGetR e rng fuel pub s = .ok r s') :
    Nat.Coprime (beNat r) (beNat pub.n) ∧ beNat r < beNat pub.n := by
  unfold paillierGetR at h
  simp only [m_bind_ok] at h
  obtain ⟨v, s1, h1, h2⟩ := h
  obtain ⟨s0, h3⟩ := retry_ok h1
  simp only [m_bind_ok, m_pure_ok] at h3
  obtain ⟨w, s2, h4, h5, _⟩ := h3
  split at h5
  · next hc =>
    cases h5
    have hr := bnRandom_ok h4
    obtain ⟨v, rfl⟩ := Int.eq_ofNat_of_zero_le hr.1
    have hb := (bnToBytes_none_val he (ofExcept_ok h2)).1
    rw [Int.natAbs_natCast] at hb
    rw [Bool.and_eq_true] at hc
    obtain ⟨hc1, hc2⟩ := hc
    unfold bnRelativePrime at hc1
    rw [bnOfBytes_eq] at hc1 hc2
    rw [beq_iff_eq] at hc1
    rw [decide_eq_true_eq] at hc2
    rw [hb]
    refine ⟨?_, by exact_mod_cast hc2⟩
    have hg : Int.gcd (v : Int) (beNat pub.n : Int) = Nat.gcd v (beNat pub.n) := Int.gcd_natCast_natCast _ _
    rw [hg] at hc1
    exact_mod_cast hc1
  · cases h5

end Verif
