import Verif.Props.C55_C56_Paillier
import Verif.Props.C57_C58_DH
import Verif.Proof.Uniform
/-
C83 (generated keys and parameters have the requested size) and C84 (RSA key generation with a fixed
exponent).
-/
namespace Verif

namespace Spec

/-- `n` is a number of exactly `k` bits. -/
def HasBits (n k : Nat) : Prop := 1 ≤ k ∧ 2 ^ (k - 1) ≤ n ∧ n < 2 ^ k

/-- A generator that always gives the number of bytes it is asked for. -/
def Supplies (rng : RandomBytes σ) : Prop := ∀ n s, ∃ b s', rng n s = .ok b s' ∧ b.length = n

/-- The powers of `g` modulo `p` are all the numbers between 1 and `p - 1`. -/
def IsGenerator (g p : Nat) : Prop := ∀ y, 0 < y → y < p → ∃ k, g ^ k % p = y

end Spec

open Spec

theorem hasBits_of {n : Nat} {nb : Int} (h : (zNumbits n : Int) = nb) (h1 : 1 ≤ nb) :
    HasBits n nb.toNat := by
  have h2 : zNumbits (n : Int) = nb.toNat := by omega
  refine ⟨by omega, ?_, ?_⟩
  · have := zNumbits_pos (n := (n : Int)) (k := nb.toNat - 1) (by omega)
    rwa [Int.natAbs_natCast] at this
  · have := (zNumbits_le (n := (n : Int)) (k := nb.toNat)).1 (by omega)
    rwa [Int.natAbs_natCast] at this

/-- The product of two numbers of `k` bits has `2 k - 1` or `2 k` bits. -/
theorem hasBits_mul {p q k : Nat} (hp : HasBits p k) (hq : HasBits q k) :
    HasBits (p * q) (2 * k) ∨ HasBits (p * q) (2 * k - 1) := by
  obtain ⟨hk, hp1, hp2⟩ := hp
  obtain ⟨_, hq1, hq2⟩ := hq
  have hlo : 2 ^ (2 * k - 2) ≤ p * q := by
    rw [show 2 * k - 2 = (k - 1) + (k - 1) by omega, Nat.pow_add]
    exact Nat.mul_le_mul hp1 hq1
  have hhi : p * q < 2 ^ (2 * k) := by
    rw [show 2 * k = k + k by omega, Nat.pow_add]
    exact Nat.mul_lt_mul'' hp2 hq2
  by_cases h : 2 ^ (2 * k - 1) ≤ p * q
  · exact .inl ⟨by omega, h, hhi⟩
  · exact .inr ⟨by omega, by rw [show 2 * k - 1 - 1 = 2 * k - 2 by omega]; exact hlo, by omega⟩

theorem rsaBuild_numbers {e : BnEnv} (he : 0 < e.limb) {numbits x : Int} {p q : Nat}
    {priv : RsaPrivate} {pub : RsaPublic} (h : rsaBuild e numbits p q x = .ok (priv, pub)) :
    beNat pub.n = p * q ∧ beNat priv.n = p * q ∧ beNat priv.p = p ∧ beNat priv.q = q := by
  unfold rsaBuild at h
  simp only [except_bind_ok] at h
  obtain ⟨d, hd, dp, hdp, dq, hdq, qinv, hqi, bn, hbn, bd, hbd, bp, hbp, bq, hbq, bdp, hbdp, bdq,
    hbdq, bqi, hbqi, be, hbe, hk⟩ := h
  cases hk
  rw [← Nat.cast_mul] at hbn
  have b1 := bnToBytes_val he hbn
  have b3 := bnToBytes_val he hbp
  have b4 := bnToBytes_val he hbq
  rw [Int.natAbs_natCast] at b1 b3 b4
  exact ⟨b1.1, b1.1, b3.1, b4.1⟩

/-! ### C83 -/

/-- C83 for `RSA.new_key numbits`, with any exponent: the modulus is the product of two different
primes of exactly `numbits / 2` bits, found in the private key. It has `numbits` bits or one less.
What is missing: the latter happens (`C83_rsa_short_modulus`). -/
theorem C83_rsa_partial (e : BnEnv) (he : 0 < e.limb) (hn : e.PrimeOk) (rng : RandomBytes σ)
    (fuel : Nat) (x : Option Int) (numbits : Nat) (s s' : σ) (priv : RsaPrivate) (pub : RsaPublic)
    (hk : rsaNewKey e rng fuel x numbits s = .ok (priv, pub) s') :
    (beNat priv.p).Prime ∧ (beNat priv.q).Prime ∧ beNat priv.p ≠ beNat priv.q ∧
      HasBits (beNat priv.p) (numbits / 2) ∧ HasBits (beNat priv.q) (numbits / 2) ∧
      beNat pub.n = beNat priv.p * beNat priv.q ∧ beNat priv.n = beNat pub.n ∧
      (HasBits (beNat pub.n) numbits ∨ HasBits (beNat pub.n) (numbits - 1)) := by
  unfold rsaNewKey at hk
  split at hk
  · cases hk
  · next hb =>
    rw [not_or] at hb
    simp only [m_bind_ok] at hk
    obtain ⟨pq, s1, h1, v, s2, h2, h3⟩ := hk
    obtain ⟨p, q, rfl, pp, qp, hlt, pb, qb⟩ := rsaGenFactors_ok hn h1
    have h2 : ((numbits : Int).tdiv 2).toNat = numbits / 2 := by
      rw [Int.tdiv_eq_ediv_of_nonneg (by omega)]; omega
    have h16 : 1 ≤ (numbits : Int).tdiv 2 := by
      rw [Int.tdiv_eq_ediv_of_nonneg (by omega)]; omega
    have hp := hasBits_of pb h16
    have hq := hasBits_of qb h16
    rw [h2] at hp hq
    obtain ⟨e1, e2, e3, e4⟩ := rsaBuild_numbers he (ofExcept_ok h3)
    rw [e1, e2, e3, e4]
    refine ⟨pp, qp, by omega, hp, hq, rfl, rfl, ?_⟩
    have := hasBits_mul hp hq
    rwa [show 2 * (numbits / 2) = numbits by omega] at this

/-- C83 for `Paillier.new_key numbits`: as for RSA. What is missing: the modulus can have
`numbits - 1` bits (`C83_paillier_short_modulus`). -/
theorem C83_paillier_partial (e : BnEnv) (he : 0 < e.limb) (hn : e.PrimeOk) (rng : RandomBytes σ)
    (fuel : Nat) (numbits : Nat) (s s' : σ) (priv : PaillierPrivate) (pub : PaillierPublic)
    (hk : paillierNewKey e rng fuel numbits s = .ok (priv, pub) s') :
    ∃ p q : Nat, p.Prime ∧ q.Prime ∧ p ≠ q ∧ HasBits p (numbits / 2) ∧ HasBits q (numbits / 2) ∧
      beNat pub.n = p * q ∧ beNat priv.n = p * q ∧ beNat priv.p = p ∧ beNat priv.q = q ∧
      (HasBits (p * q) numbits ∨ HasBits (p * q) (numbits - 1)) := by
  unfold paillierNewKey at hk
  split at hk
  · cases hk
  · next hb =>
    rw [not_or] at hb
    simp only [m_bind_ok] at hk
    obtain ⟨pq, s1, h1, h3⟩ := hk
    obtain ⟨p, q, rfl, pp, qp, hne, pb, qb⟩ := paillierGenFactors_ok hn h1
    have h2 : ((numbits : Int).tdiv 2).toNat = numbits / 2 := by
      rw [Int.tdiv_eq_ediv_of_nonneg (by omega)]; omega
    have h16 : 1 ≤ (numbits : Int).tdiv 2 := by
      rw [Int.tdiv_eq_ediv_of_nonneg (by omega)]; omega
    have hp := hasBits_of pb h16
    have hq := hasBits_of qb h16
    rw [h2] at hp hq
    have hb' := ofExcept_ok h3
    unfold paillierBuild at hb'
    simp only [except_bind_ok] at hb'
    obtain ⟨mu, hmu, bn, hbn, bn2, hbn2, bp, hbp, bq, hbq, bl, hbl, bmu, hbmu, bg, hbg, hk⟩ := hb'
    cases hk
    rw [← Nat.cast_mul] at hbn
    have b1 := bnToBytes_val he hbn
    have b3 := bnToBytes_val he hbp
    have b4 := bnToBytes_val he hbq
    rw [Int.natAbs_natCast] at b1 b3 b4
    refine ⟨p, q, pp, qp, hne, hp, hq, b1.1, b1.1, b3.1, b4.1, ?_⟩
    have := hasBits_mul hp hq
    rwa [show 2 * (numbits / 2) = numbits by omega] at this

/-- C83 for `DH.new_parameters ~privlen numbits`: the modulus is a prime of exactly `numbits` bits,
the base `g` is larger than 1 and has one bit less. What is missing: `g` need not be a generator
(`C83_dh_not_generator`). -/
theorem C83_dh_partial (e : BnEnv) (he : 0 < e.limb) (hn : e.PrimeOk) (rng : RandomBytes σ)
    (fuel : Nat) (privlen : Int) (numbits : Nat) (s s' : σ) (params : DhParams)
    (hp : dhNewParameters e rng fuel privlen numbits s = .ok params s') :
    (beNat params.p).Prime ∧ HasBits (beNat params.p) numbits ∧ params.privlen = privlen ∧
      1 < beNat params.g ∧ beNat params.g < beNat params.p ∧
      HasBits (beNat params.g) (numbits - 1) := by
  unfold dhNewParameters at hp
  split at hp
  · cases hp
  · next hb =>
    rw [not_or] at hb
    simp only [m_bind_ok, m_pure_ok] at hp
    obtain ⟨np, s1, h1, ng, s2, h2, p, s3, h3, g, s4, h4, h5, _⟩ := hp
    subst h5
    obtain ⟨k, rfl, pp, hk⟩ := bnRandomPrime_ok hn h1
    obtain ⟨s0, h2⟩ := retry_ok h2
    simp only [m_bind_ok, m_pure_ok] at h2
    obtain ⟨g', s5, h6, h7, _⟩ := h2
    have hr := bnRandom_ok h6
    split at h7
    · cases h7
    · next hg1 =>
      cases h7
      obtain ⟨g', rfl⟩ := Int.eq_ofNat_of_zero_le hr.1
      have b1 := (bnToBytes_val he (ofExcept_ok h3)).1
      have b2 := (bnToBytes_val he (ofExcept_ok h4)).1
      rw [Int.natAbs_natCast] at b1 b2
      have hp := hasBits_of hk (by omega)
      have hg := hasBits_of hr.2.1 (by omega)
      rw [Int.toNat_natCast] at hp
      rw [show ((numbits : Int) - 1).toNat = numbits - 1 by omega] at hg
      simp only [b1, b2]
      exact ⟨pp, hp, trivial, by omega, Nat.lt_of_lt_of_le hg.2.2 hp.2.1, hg⟩

/-- C83 for `DH.private_secret`: a number of exactly `privlen` bits. -/
theorem C83_dh_secret (rng : RandomBytes σ) (params : DhParams) (n : Nat) (h : params.privlen = n)
    (hn : 1 ≤ n) (s s' : σ) (a : Int) (ha : dhPrivateSecret rng params s = .ok a s') :
    0 < a ∧ HasBits a.toNat n := by
  have hr := bnRandom_ok ha
  obtain ⟨a, rfl⟩ := Int.eq_ofNat_of_zero_le hr.1
  rw [h] at hr
  have := hasBits_of hr.2.1 (by omega)
  rw [Int.toNat_natCast] at this
  refine ⟨?_, by rwa [Int.toNat_natCast]⟩
  have h2 := this.2.1
  have := Nat.two_pow_pos (n - 1)
  omega

open Example in
/-- C83 is false for RSA moduli: a 128-bit key whose modulus has 127 bits. -/
theorem C83_rsa_short_modulus : ∃ (e : BnEnv) (priv : RsaPrivate) (pub : RsaPublic),
    0 < e.limb ∧ e.PrimeOk ∧ rsaNewKey e listRng 1 (some 65537) 128 rsaRandom = .ok (priv, pub) [] ∧
    pub.size = 128 ∧ HasBits (beNat pub.n) 127 := by
  obtain ⟨priv, pub, hk⟩ := rsaKey
  have hk' := hk
  unfold rsaNewKey at hk
  rw [if_neg (by decide), M.bind_def, show (128 : Int).tdiv 2 = 64 from rfl, rsaFactors] at hk
  have hb : rsaBuild bnEnv 128 primeP primeQ (65537 : Nat) = .ok (priv, pub) := ofExcept_ok hk
  obtain ⟨⟨d, i, hg⟩, hs⟩ := rsaBuild_good (by decide) primeP_prime primeQ_prime (by decide +kernel)
    (by decide +kernel) (by decide) hb
  refine ⟨bnEnv, priv, pub, by decide, bnEnv_primeOk, hk', hs, ?_⟩
  rw [hg.pubn]
  exact ⟨by decide, by decide +kernel, by decide +kernel⟩

open Example in
/-- C83 is false for Paillier moduli too. -/
theorem C83_paillier_short_modulus : ∃ (e : BnEnv) (priv : PaillierPrivate) (pub : PaillierPublic),
    0 < e.limb ∧ e.PrimeOk ∧ paillierNewKey e listRng 1 128 rsaRandom = .ok (priv, pub) [] ∧
    pub.size = 128 ∧ HasBits (beNat pub.n) 127 := by
  obtain ⟨priv, pub, hk, hs, hn⟩ := paiKey
  refine ⟨bnEnv, priv, pub, by decide, bnEnv_primeOk, hk, hs, ?_⟩
  rw [hn]
  exact ⟨by decide, by decide +kernel, by decide +kernel⟩

theorem pow_square_exp (k t : Nat) :
    (((2 : Nat) ^ 62) ^ k) ^ (27 * t) = (2 ^ (27 * (t * 2))) ^ (31 * k) := by
  rw [← pow_mul, ← pow_mul, ← pow_mul]
  congr 1
  ring

open Example in
/-- C83 is false for the base of DH parameters: a run of `new_parameters` where the powers of `g`
modulo `p` do not reach 5. -/
theorem C83_dh_not_generator : ∃ (e : BnEnv) (r : List Bytes) (params : DhParams),
    0 < e.limb ∧ e.PrimeOk ∧ dhNewParameters e listRng 1 20 64 r = .ok params [] ∧
    ¬ IsGenerator (beNat params.g) (beNat params.p) := by
  refine ⟨bnEnv, [natToLE 8 (primeP - 2), natToLE 8 0], ⟨natToBE 8 primeP, natToBE 8 (2 ^ 62), 20⟩,
    by decide, bnEnv_primeOk, by decide +kernel, ?_⟩
  have e1 : beNat (natToBE 8 primeP) = primeP := by decide +kernel
  have e2 : beNat (natToBE 8 (2 ^ 62)) = 2 ^ 62 := by decide +kernel
  simp only [e1, e2]
  intro h
  obtain ⟨k, hk⟩ := h 5 (by decide) (by decide +kernel)
  have hp := primeP_prime
  have h5 : (((2 : Nat) ^ 62) ^ k) ≡ 5 [MOD primeP] := by
    unfold Nat.ModEq
    rw [hk]; decide +kernel
  have h6 := h5.pow (27 * 2 ^ 58)
  have h7 : (2 : Nat) ^ (primeP - 1) ≡ 1 [MOD primeP] := by
    have := Nat.ModEq.pow_totient (n := primeP) (x := 2) (by
      rw [Nat.coprime_comm, Nat.Prime.coprime_iff_not_dvd hp]; decide +kernel)
    rwa [Nat.totient_prime hp] at this
  have h9 := pow_square_exp k (2 ^ 58)
  rw [show 27 * (2 ^ 58 * 2) = primeP - 1 by decide +kernel] at h9
  rw [h9] at h6
  have h10 := (h7.pow (31 * k)).symm.trans h6
  rw [one_pow] at h10
  have h11 := zmod_pow (p := primeP) (b := 5) (k := 27) 58
    (r := (fun x => x * x % primeP)^[58] (5 ^ 27 % primeP)) (by decide +kernel)
  have h12 : ((5 : Nat) : ZMod primeP) ^ (27 * 2 ^ 58) = 1 := by
    rw [← Nat.cast_pow, ← Nat.cast_one, ZMod.natCast_eq_natCast_iff]
    exact h10.symm
  rw [h11] at h12
  exact zmod_ne (p := primeP) (by decide +kernel) h12

/-! ### C84 -/

/-- C84 for positive exponents: a key pair that `new_key ~e` returns has this exponent, which is odd,
and decryption inverts encryption. What is missing: even exponents, for which `new_key` does not
return (`C84_even_exponent`), and negative ones, for which the two keys do not match
(`C84_negative_exponent`). -/
theorem C84_exponent_partial (e : BnEnv) (he : 0 < e.limb) (hn : e.PrimeOk) (rng : RandomBytes σ)
    (fuel : Nat) (v : Int) (hv : 0 < v) (numbits : Int) (s s' : σ) (priv : RsaPrivate)
    (pub : RsaPublic) (hk : rsaNewKey e rng fuel (some v) numbits s = .ok (priv, pub) s') :
    (beNat pub.e : Int) = v ∧ v % 2 = 1 ∧ ∀ msg, beNat msg < beNat pub.n →
      ∃ c m, rsaEncrypt e pub msg = .ok c ∧ rsaDecrypt e priv c = .ok m ∧ beNat m = beNat msg := by
  have hx : ∀ w, some v = some w → 0 < w := fun w h => by cases h; exact hv
  obtain ⟨⟨p, q, w, d, i, h, hw⟩, _⟩ := rsaNewKey_good he hn hx hk
  have hw := hw v rfl
  refine ⟨by rw [h.pube]; exact hw, ?_, fun msg hm => ?_⟩
  · have hd : 2 ∣ (p - 1) * (q - 1) := by
      have hq2 := h.q2; have hlt := h.qltp
      rcases h.pprime.eq_two_or_odd with h1 | h1
      · omega
      · exact Dvd.dvd.mul_right (by omega) _
    have := h.ed.of_dvd hd
    unfold Nat.ModEq at this
    rcases Nat.mod_two_eq_zero_or_one w with h0 | h0
    · rw [Nat.mul_mod, h0] at this; simp at this
    · omega
  · obtain ⟨c, m, h1, h2, _, h4, _⟩ :=
      C53_rsa_decrypt_encrypt e he hn rng fuel (some v) hx numbits s s' priv pub hk msg hm
    exact ⟨c, m, h1, h2, h4⟩

theorem rsaGenFactor_even {e : BnEnv} (hn : e.PrimeOk) {rng : RandomBytes σ} {fuel : Nat}
    {v : Int} (hv : v % 2 = 0) {nb : Int} (h16 : 16 ≤ nb) {s s' : σ} {p : Int} :
    rsaGenFactor e rng fuel (some v) nb s ≠ .ok p s' := by
  intro h
  unfold rsaGenFactor at h
  obtain ⟨s0, h⟩ := retry_ok h
  simp only [m_bind_ok, m_pure_ok] at h
  obtain ⟨n, s1, h1, h2, _⟩ := h
  obtain ⟨k, rfl, kp, kb⟩ := bnRandomPrime_ok hn h1
  have hk := zNumbits_large kb h16
  split at h2
  · next hr =>
    unfold bnRelativePrime at hr
    have h2v : (2 : Int) ∣ v := Int.dvd_of_emod_eq_zero hv
    have h2p : (2 : Int) ∣ (k : Int) - 1 := by
      rcases kp.eq_two_or_odd with h0 | h0
      · omega
      · omega
    have h3 := Int.dvd_coe_gcd h2p h2v
    simp only [beq_iff_eq, decide_eq_true_eq] at hr
    rw [hr] at h3
    exact absurd h3 (by decide)
  · cases h2

/-- C84 is false for even exponents: whatever the generator and the number of attempts, `new_key`
returns no key. -/
theorem C84_even_exponent (e : BnEnv) (hn : e.PrimeOk) (rng : RandomBytes σ) (fuel : Nat) (v : Int)
    (hv : v % 2 = 0) (numbits : Int) (s s' : σ) (k : RsaPrivate × RsaPublic) :
    rsaNewKey e rng fuel (some v) numbits s ≠ .ok k s' := by
  intro hk
  unfold rsaNewKey at hk
  split at hk
  · cases hk
  · next hb =>
    rw [not_or] at hb
    simp only [m_bind_ok] at hk
    obtain ⟨pq, s1, h1, _⟩ := hk
    unfold rsaGenFactors at h1
    obtain ⟨s0, h1⟩ := retry_ok h1
    simp only [m_bind_ok, m_pure_ok] at h1
    obtain ⟨a, s1, h1, _⟩ := h1
    refine rsaGenFactor_even hn hv ?_ h1
    rw [Int.tdiv_eq_ediv_of_nonneg (by omega)]; omega

/-- The computation returns or runs out of fuel. -/
def OkOrLoop (o : Out σ α) : Prop := o = .loop ∨ ∃ a s, o = .ok a s

theorem OkOrLoop.bind {m : M σ α} {k : α → M σ β} {s : σ} (h1 : OkOrLoop (m s))
    (h2 : ∀ a s1, m s = .ok a s1 → OkOrLoop (k a s1)) : OkOrLoop ((m >>= k) s) := by
  rw [M.bind_def]
  rcases h1 with h | ⟨a, s1, h⟩
  · rw [h]; exact .inl rfl
  · rw [h]; exact h2 a s1 h

theorem OkOrLoop.retry {body : M σ (Option α)} (h : ∀ s, OkOrLoop (body s)) :
    ∀ fuel s, OkOrLoop (retry fuel body s)
  | 0, _ => .inl rfl
  | fuel + 1, s => by
    rw [Verif.retry]
    refine OkOrLoop.bind (h s) fun a s1 _ => ?_
    cases a with
    | none => exact OkOrLoop.retry h fuel s1
    | some a => exact .inr ⟨a, s1, rfl⟩

theorem bnRandomPrime_okOrLoop {e : BnEnv} {rng : RandomBytes σ} (hr : Supplies rng) {n : Nat}
    (hn : 1 ≤ n) (fuel : Nat) (s : σ) : OkOrLoop (bnRandomPrime e rng fuel n s) := by
  unfold bnRandomPrime
  refine OkOrLoop.retry (fun s => ?_) fuel s
  refine OkOrLoop.bind ?_ fun a s1 _ => .inr ⟨_, _, rfl⟩
  obtain ⟨b, s', h1, h2⟩ := hr ((n + 7) / 8) s
  exact .inr ⟨_, _, bnRandom_eq true hn h1 h2⟩

/-- C84 is false for even exponents: with a generator that never fails, the search for a factor goes
on for ever. (`Out.loop` for every number of attempts.) -/
theorem C84_even_exponent_diverges (e : BnEnv) (hn : e.PrimeOk) (rng : RandomBytes σ)
    (hr : Supplies rng) (fuel : Nat) (v : Int) (hv : v % 2 = 0) (numbits : Int) (h32 : 32 ≤ numbits)
    (h2 : numbits % 2 = 0) (s : σ) :
    rsaNewKey e rng fuel (some v) numbits s = .loop := by
  have hnb : numbits.tdiv 2 = ((numbits / 2).toNat : Int) := by
    rw [Int.tdiv_eq_ediv_of_nonneg (by omega)]; omega
  have hf : ∀ s, rsaGenFactor e rng fuel (some v) (numbits.tdiv 2) s = .loop := by
    intro s
    have : OkOrLoop (rsaGenFactor e rng fuel (some v) (numbits.tdiv 2) s) := by
      unfold rsaGenFactor
      refine OkOrLoop.retry (fun s => ?_) fuel s
      rw [hnb]
      exact OkOrLoop.bind (bnRandomPrime_okOrLoop hr (by omega) fuel s) fun a s1 _ => .inr ⟨_, _, rfl⟩
    rcases this with h | ⟨p, s1, h⟩
    · exact h
    · exact absurd h (rsaGenFactor_even hn hv (by omega))
  unfold rsaNewKey
  rw [if_neg (by omega), M.bind_def]
  have : rsaGenFactors e rng fuel (some v) (numbits.tdiv 2) s = .loop := by
    unfold rsaGenFactors
    cases fuel with
    | zero => rfl
    | succ fuel => rw [retry, M.bind_def, M.bind_def, hf]
  rw [this]

/-- The parts of a key made with a negative exponent `- y`. -/
theorem rsaBuild_negative {e : BnEnv} (he : 0 < e.limb) {numbits : Int} {p q y : Nat} (hlt : q < p)
    (hq2 : 2 < q) {priv : RsaPrivate} {pub : RsaPublic}
    (h : rsaBuild e numbits p q (-(y : Int)) = .ok (priv, pub)) :
    ∃ d, beNat priv.d = d ∧ beNat pub.e = y ∧ 0 < d ∧ (p - 1) * (q - 1) ∣ y * d + 1 ∧
      pub.size = numbits ∧ priv.size = numbits ∧
      (zNumbits (p * q : Nat) : Int) ≤ numbits ∧ limbBytes e (p * q : Nat) ≤ (numbits.toNat + 7) / 8 := by
  unfold rsaBuild at h
  simp only [except_bind_ok] at h
  obtain ⟨d, hd, dp, hdp, dq, hdq, qinv, hqi, bn, hbn, bd, hbd, bp, hbp, bq, hbq, bdp, hbdp, bdq,
    hbdq, bqi, hbqi, be, hbe, hk⟩ := h
  cases hk
  have ep : (p : Int) - 1 = ((p - 1 : Nat) : Int) := by omega
  have eq : (q : Int) - 1 = ((q - 1 : Nat) : Int) := by omega
  have h4 : 1 < (p - 1) * (q - 1) := by
    calc 1 < 1 * 2 := by decide
      _ ≤ (p - 1) * (q - 1) := Nat.mul_le_mul (by omega) (by omega)
  rw [ep, eq, ← Nat.cast_mul] at hd
  rw [← Nat.cast_mul] at hbn
  have b1 := bnToBytes_val he hbn
  have b2 := bnToBytes_val he hbd
  have b8 := bnToBytes_val he hbe
  rw [Int.natAbs_natCast] at b1
  rw [Int.natAbs_neg, Int.natAbs_natCast] at b8
  generalize (p - 1) * (q - 1) = m at *
  unfold zInvert at hd
  split at hd
  · cases hd
  · next hg =>
    cases hd
    rw [not_or, not_not] at hg
    obtain ⟨h0, hg⟩ := hg
    have hab := Int.gcd_eq_gcd_ab (-(y : Int)) m
    rw [hg] at hab
    generalize hA : Int.gcdA (-(y : Int)) m = A at *
    have hnn := Int.emod_nonneg A h0
    have hdiv : (m : Int) ∣ y * (A % m) + 1 := by
      have h2 := Int.emod_add_mul_ediv A m
      refine ⟨Int.gcdB (-(y : Int)) m - y * (A / m), ?_⟩
      have : A % m = A - m * (A / m) := by omega
      rw [this]
      push_cast at hab
      linear_combination hab
    refine ⟨_, rfl, b8.1, ?_, ?_, rfl, rfl, b1.2.2.1, b1.2.2.2⟩
    · show 0 < beNat bd
      rw [b2.1]
      rcases Nat.eq_zero_or_pos (A % m).natAbs with hz | hz
      · rw [Int.natAbs_eq_zero.1 hz] at hdiv
        rw [mul_zero, zero_add] at hdiv
        have := Int.le_of_dvd (by decide) hdiv
        omega
      · exact hz
    · show m ∣ y * beNat bd + 1
      rw [b2.1, ← Int.natCast_dvd_natCast]
      push_cast
      rwa [abs_of_nonneg hnn]

/-- C84 is false for negative exponents: the two keys that `new_key` returns do not match.
Decrypting an encrypted message gives the inverse of the message modulo `n`. -/
theorem C84_negative_exponent (e : BnEnv) (he : 0 < e.limb) (hn : e.PrimeOk) (rng : RandomBytes σ)
    (fuel : Nat) (v : Int) (hv : v < 0) (numbits : Int) (s s' : σ) (priv : RsaPrivate)
    (pub : RsaPublic) (hk : rsaNewKey e rng fuel (some v) numbits s = .ok (priv, pub) s')
    (msg : Bytes) (hm : beNat msg < beNat pub.n) (hc : Nat.Coprime (beNat msg) (beNat pub.n)) :
    ∃ c m, rsaEncrypt e pub msg = .ok c ∧ rsaDecrypt e priv c = .ok m ∧
      beNat m * beNat msg ≡ 1 [MOD beNat pub.n] := by
  unfold rsaNewKey at hk
  split at hk
  · cases hk
  · next hb =>
    rw [not_or] at hb
    simp only [m_bind_ok] at hk
    obtain ⟨pq, s1, h1, w, s2, h2, h3⟩ := hk
    obtain ⟨rfl, _⟩ := m_pure_ok.1 h2
    obtain ⟨p, q, rfl, pp, qp, hlt, pb, qb⟩ := rsaGenFactors_ok hn h1
    have h16 : 16 ≤ numbits.tdiv 2 := by
      rw [Int.tdiv_eq_ediv_of_nonneg (by omega)]; omega
    have hq := zNumbits_large qb h16
    obtain ⟨y, rfl⟩ : ∃ y : Nat, v = -(y : Int) := ⟨v.natAbs, by omega⟩
    have hbd := ofExcept_ok h3
    obtain ⟨en, en', _, _⟩ := rsaBuild_numbers he hbd
    obtain ⟨d, ed, ee, d0, hdv, sz1, sz2, z1, z2⟩ := rsaBuild_negative he hlt (by omega) hbd
    have n0 : 0 < p * q := Nat.mul_pos pp.pos qp.pos
    have nodd : (p * q) % 2 = 1 := by
      rw [Nat.mul_mod]
      rcases pp.eq_two_or_odd with h1 | h1
      · omega
      · rcases qp.eq_two_or_odd with h2 | h2
        · omega
        · rw [h1, h2]
    have conv : ∀ r : Nat, r < p * q →
        bnToBytes e (some numbits) r = .ok (natToBE ((numbits.toNat + 7) / 8) r) ∧
          beNat (natToBE ((numbits.toNat + 7) / 8) r) = r := by
      intro r hr
      have hc := bnToBytes_fits he (m := (r : Int)) (n := ((p * q : Nat) : Int))
        (by rw [Int.natAbs_natCast, Int.natAbs_natCast]; omega) z1 z2
      rw [Int.natAbs_natCast] at hc
      refine ⟨hc, ?_⟩
      have := (bnToBytes_val he hc).1
      rwa [Int.natAbs_natCast] at this
    rw [en] at hm hc ⊢
    have c1 := conv _ (Nat.mod_lt (beNat msg ^ y) n0)
    have c2 := conv _ (Nat.mod_lt ((beNat msg ^ y % (p * q)) ^ d) n0)
    refine ⟨natToBE ((numbits.toNat + 7) / 8) (beNat msg ^ y % (p * q)),
      natToBE ((numbits.toNat + 7) / 8) ((beNat msg ^ y % (p * q)) ^ d % (p * q)), ?_, ?_, ?_⟩
    rotate_left
    · unfold rsaDecrypt
      simp only [bnOfBytes_eq, en', ed, sz2, c1.2]
      rw [if_neg (by have := Nat.mod_lt (beNat msg ^ y) n0; omega), powm_nat _ _ _ d0 nodd,
        except_ok_bind]
      exact c2.1
    · rw [c2.2]
      have e1 : (beNat msg ^ y % (p * q)) ^ d ≡ beNat msg ^ (y * d) [MOD p * q] := by
        rw [pow_mul]; exact (Nat.mod_modEq _ _).pow d
      have e2 := ((Nat.mod_modEq _ _).trans e1).mul_right (beNat msg)
      refine e2.trans ?_
      rw [← pow_succ]
      obtain ⟨j, hj⟩ := hdv
      rw [hj, pow_mul]
      have ht := Nat.ModEq.pow_totient hc
      rw [Nat.totient_mul ((Nat.coprime_primes pp qp).2 (by omega)), Nat.totient_prime pp,
        Nat.totient_prime qp] at ht
      have := ht.pow j
      rwa [one_pow] at this
    · unfold rsaEncrypt
      simp only [bnOfBytes_eq, en, ee, sz1]
      rw [if_neg (by omega), powm_nat _ _ _ (by omega) nodd, except_ok_bind]
      exact c1.1

/-! ### Non-vacuity -/

/-- Given suitable primes and a negative exponent, the key is built. -/
theorem rsaBuild_complete_neg {e : BnEnv} (he : 0 < e.limb) {numbits : Int} {p q y : Nat}
    (hp : p.Prime) (hq : q.Prime) (hlt : q < p) (hx : y ≤ p * q)
    (hcop : Nat.gcd y ((p - 1) * (q - 1)) = 1)
    (h1 : (zNumbits (p : Int) : Int) ≤ numbits.tdiv 2)
    (h2 : limbBytes e (p : Int) ≤ ((numbits.tdiv 2).toNat + 7) / 8)
    (h3 : (zNumbits (p * q : Nat) : Int) ≤ numbits)
    (h4 : limbBytes e (p * q : Nat) ≤ (numbits.toNat + 7) / 8) :
    ∃ k, rsaBuild e numbits p q (-(y : Int)) = .ok k := by
  have hp1 := hp.two_le; have hq1 := hq.two_le
  have ep : (p : Int) - 1 = ((p - 1 : Nat) : Int) := by omega
  have eq : (q : Int) - 1 = ((q - 1 : Nat) : Int) := by omega
  have hm0 : 0 < (p - 1) * (q - 1) := Nat.mul_pos (by omega) (by omega)
  have hmn : (p - 1) * (q - 1) ≤ p * q := Nat.mul_le_mul (by omega) (by omega)
  unfold rsaBuild
  simp only
  rw [ep, eq, ← Nat.cast_mul, ← Nat.cast_mul]
  have hd : ∃ d : Nat, zInvert (-(y : Int)) ((p - 1) * (q - 1) : Nat) = .ok (d : Int) ∧
      d < (p - 1) * (q - 1) := by
    unfold zInvert
    rw [if_neg]
    · generalize Int.gcdA _ _ = A
      have h0 : (((p - 1) * (q - 1) : Nat) : Int) ≠ 0 := by omega
      have := Int.emod_nonneg A h0
      have := Int.emod_lt_of_pos A (show (0 : Int) < (((p - 1) * (q - 1) : Nat) : Int) by omega)
      exact ⟨(A % _).toNat, by rw [Int.toNat_of_nonneg (by assumption)], by omega⟩
    · rw [not_or, not_not]
      refine ⟨by omega, ?_⟩
      rw [Int.neg_gcd, Int.gcd_natCast_natCast]; exact hcop
  obtain ⟨d, hr, hdl⟩ := hd
  rw [hr, except_ok_bind, zRem_nat _ _ (by omega), except_ok_bind, zRem_nat _ _ (by omega),
    except_ok_bind]
  have hqi : ∃ r, zInvert q p = .ok r := by
    unfold zInvert
    rw [if_neg]
    · exact ⟨_, rfl⟩
    · rw [not_or, not_not]
      refine ⟨by omega, ?_⟩
      rw [Int.gcd_natCast_natCast]
      exact (Nat.coprime_primes hq hp).2 (by omega)
  obtain ⟨r2, hr2⟩ := hqi
  obtain ⟨i, rfl, _, hil⟩ := zInvert_nat hr2
  rw [hr2, except_ok_bind]
  have big : ∀ a : Int, a.natAbs ≤ p * q → ∃ b, bnToBytes e (some numbits) a = .ok b := fun a ha =>
    ⟨_, bnToBytes_fits he (by rw [Int.natAbs_natCast]; exact ha) h3 h4⟩
  have small : ∀ a : Nat, a ≤ p → ∃ b, bnToBytes e (some (numbits.tdiv 2)) a = .ok b := fun a ha =>
    ⟨_, bnToBytes_fits he (by rw [Int.natAbs_natCast, Int.natAbs_natCast]; exact ha) h1 h2⟩
  obtain ⟨b1, e1⟩ := big (p * q : Nat) (by rw [Int.natAbs_natCast])
  obtain ⟨b2, e2⟩ := big d (by omega)
  obtain ⟨b3, e3⟩ := small p (Nat.le_refl _)
  obtain ⟨b4, e4⟩ := small q (by omega)
  obtain ⟨b5, e5⟩ := small (d % (p - 1)) (by have := Nat.mod_lt d (show 0 < p - 1 by omega); omega)
  obtain ⟨b6, e6⟩ := small (d % (q - 1)) (by have := Nat.mod_lt d (show 0 < q - 1 by omega); omega)
  obtain ⟨b7, e7⟩ := small i (by omega)
  obtain ⟨b8, e8⟩ := big (-(y : Int)) (by omega)
  rw [e1, except_ok_bind, e2, except_ok_bind, e3, except_ok_bind, e4, except_ok_bind, e5,
    except_ok_bind, e6, except_ok_bind, e7, except_ok_bind, e8]
  exact ⟨_, rfl⟩

namespace Example

/-- `RSA.new_key ~e:(-65537) 128` returns a key pair. -/
theorem rsaKeyNeg : ∃ priv pub,
    rsaNewKey bnEnv listRng 1 (some (-65537)) 128 rsaRandom = .ok (priv, pub) [] ∧
      beNat pub.n = primeP * primeQ := by
  obtain ⟨k, hk⟩ := rsaBuild_complete_neg (e := bnEnv) (by decide) (numbits := 128) (y := 65537)
    primeP_prime primeQ_prime (by decide +kernel) (by decide +kernel) (by decide +kernel)
    (by decide +kernel) (by decide +kernel) (by decide +kernel) (by decide +kernel)
  have hf : rsaGenFactors bnEnv listRng 1 (some (-65537)) 64 rsaRandom
      = .ok ((primeP : Int), (primeQ : Int)) [] := by decide +kernel
  refine ⟨k.1, k.2, ?_, (rsaBuild_numbers (by decide) hk).1⟩
  unfold rsaNewKey
  rw [if_neg (by decide), M.bind_def, show (128 : Int).tdiv 2 = 64 from rfl, hf]
  simp only
  rw [M.bind_def]
  show ofExcept (rsaBuild bnEnv 128 primeP primeQ (-65537)) [] = _
  have : rsaBuild bnEnv 128 primeP primeQ (-65537) = .ok k := hk
  rw [this]
  rfl

/-- The hypotheses of `C84_negative_exponent` are met: the message 2 is decrypted to another one. -/
example : ∃ priv pub c m, rsaNewKey bnEnv listRng 1 (some (-65537)) 128 rsaRandom = .ok (priv, pub) [] ∧
    rsaEncrypt bnEnv pub [2] = .ok c ∧ rsaDecrypt bnEnv priv c = .ok m ∧ beNat m ≠ beNat [2] := by
  obtain ⟨priv, pub, hk, hn⟩ := rsaKeyNeg
  obtain ⟨c, m, h1, h2, h3⟩ := C84_negative_exponent bnEnv (by decide) bnEnv_primeOk _ _ _ (by decide)
    _ _ _ _ _ hk [2] (by rw [hn]; decide +kernel) (by rw [hn]; decide +kernel)
  refine ⟨priv, pub, c, m, hk, h1, h2, fun h => ?_⟩
  rw [h, hn] at h3
  exact absurd h3 (by unfold Nat.ModEq; decide +kernel)

/-- The hypotheses of `C84_even_exponent_diverges` are met by a generator that gives zeros. -/
example (fuel : Nat) : rsaNewKey bnEnv (fun n s => .ok (List.replicate n 0) s) fuel (some 65536) 2048 ()
    = .loop :=
  C84_even_exponent_diverges bnEnv bnEnv_primeOk _
    (fun n s => ⟨_, _, rfl, List.length_replicate⟩) fuel _ (by decide) _ (by decide) (by decide) _

/-- A key with a positive exponent, whose factors have 64 bits. -/
example : ∃ priv pub, rsaNewKey bnEnv listRng 1 (some 65537) 128 rsaRandom = .ok (priv, pub) [] ∧
    Spec.HasBits (beNat priv.p) 64 ∧ (beNat pub.e : Int) = 65537 := by
  obtain ⟨priv, pub, hk⟩ := rsaKey
  exact ⟨priv, pub, hk,
    (C83_rsa_partial bnEnv (by decide) bnEnv_primeOk _ _ _ 128 _ _ _ _ hk).2.2.2.1,
    (C84_exponent_partial bnEnv (by decide) bnEnv_primeOk _ _ _ (by decide) _ _ _ _ _ hk).1⟩

/-- Paillier factors of 64 bits. -/
example : ∃ priv pub, paillierNewKey bnEnv listRng 1 128 rsaRandom = .ok (priv, pub) [] ∧
    ∃ p q, beNat pub.n = p * q ∧ Spec.HasBits p 64 ∧ Spec.HasBits q 64 := by
  obtain ⟨priv, pub, hk, _⟩ := paiKey
  obtain ⟨p, q, _, _, _, h1, h2, h3, _⟩ :=
    C83_paillier_partial bnEnv (by decide) bnEnv_primeOk _ _ 128 _ _ _ _ hk
  exact ⟨priv, pub, hk, p, q, h3, h1, h2⟩

/-- DH parameters of 64 bits. -/
example : Spec.HasBits (beNat (natToBE 8 primeP)) 64 :=
  (C83_dh_partial bnEnv (by decide) bnEnv_primeOk _ _ _ 64 _ _ _ dhParams).2.1

/-- A secret of 20 bits. -/
example : Spec.HasBits (2 ^ 19 + 1234 : Int).toNat 20 :=
  (C83_dh_secret listRng ⟨natToBE 8 primeP, natToBE 8 3, 20⟩ 20 rfl (by decide) [natToLE 3 1234] []
    (2 ^ 19 + 1234) (by decide +kernel)).2

end Example

end Verif
