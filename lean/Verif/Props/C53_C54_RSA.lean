import Verif.Proof.Rsa
import Mathlib.NumberTheory.LucasPrimality
import Mathlib.Tactic.NormNum.Prime
import Verif.Model.Stream
/-
C53 (RSA decryption inverts encryption, signatures unwrap) and C54 (Message_too_long).

A message is a number in big-endian notation, `beNat` (Spec/Common). `BnEnv.PrimeOk` says that
`Z.nextprime` returns primes.
-/
namespace Verif

/-- C53: `decrypt` and `decrypt_CRT` invert `encrypt`, for every key pair that `new_key` can
return: every random generator, every size, every positive exponent or none. The result has the
length of the modulus; it is the message itself if the message has that length. -/
theorem C53_rsa_decrypt_encrypt (e : BnEnv) (he : 0 < e.limb) (hn : e.PrimeOk)
    (rng : RandomBytes σ) (fuel : Nat) (x : Option Int) (hx : ∀ v, x = some v → 0 < v)
    (numbits : Int) (s s' : σ) (priv : RsaPrivate) (pub : RsaPublic)
    (hk : rsaNewKey e rng fuel x numbits s = .ok (priv, pub) s')
    (msg : Bytes) (hm : beNat msg < beNat pub.n) :
    ∃ c m, rsaEncrypt e pub msg = .ok c ∧ rsaDecrypt e priv c = .ok m ∧
      rsaDecryptCRT e priv c = .ok m ∧ beNat m = beNat msg ∧ m.length = (numbits.toNat + 7) / 8 := by
  obtain ⟨⟨p, q, v, d, i, h, _⟩, hs⟩ := rsaNewKey_good he hn hx hk
  rw [h.pubn] at hm
  have hc := h.conv he (Nat.mod_lt (beNat msg ^ v) h.n0)
  have hd := rsaDecrypt_eq h he (msg := natToBE ((pub.size.toNat + 7) / 8) (beNat msg ^ v % (p * q)))
    (by rw [hc.2]; exact Nat.mod_lt _ h.n0)
  rw [hc.2, rsa_inverse h.pprime h.qprime (by have := h.qltp; omega) h.pos h.ed hm] at hd
  refine ⟨_, _, rsaEncrypt_eq h he hm, hd, (rsaDecryptCRT_eq h _).trans hd, (h.conv he hm).2, ?_⟩
  rw [natToBE_length, hs]

/-- C53: `unwrap_signature` (which is `encrypt`, src/cryptokit.ml:1993) inverts `sign` and
`sign_CRT` (which are `decrypt` and `decrypt_CRT`, 2005, 2022). -/
theorem C53_rsa_unwrap_sign (e : BnEnv) (he : 0 < e.limb) (hn : e.PrimeOk)
    (rng : RandomBytes σ) (fuel : Nat) (x : Option Int) (hx : ∀ v, x = some v → 0 < v)
    (numbits : Int) (s s' : σ) (priv : RsaPrivate) (pub : RsaPublic)
    (hk : rsaNewKey e rng fuel x numbits s = .ok (priv, pub) s')
    (msg : Bytes) (hm : beNat msg < beNat pub.n) :
    ∃ c m, rsaDecrypt e priv msg = .ok c ∧ rsaDecryptCRT e priv msg = .ok c ∧
      rsaEncrypt e pub c = .ok m ∧ beNat m = beNat msg ∧ m.length = (numbits.toNat + 7) / 8 := by
  obtain ⟨⟨p, q, v, d, i, h, _⟩, hs⟩ := rsaNewKey_good he hn hx hk
  rw [h.pubn] at hm
  have hc := h.conv he (Nat.mod_lt (beNat msg ^ d) h.n0)
  have hd := rsaEncrypt_eq h he (msg := natToBE ((pub.size.toNat + 7) / 8) (beNat msg ^ d % (p * q)))
    (by rw [hc.2]; exact Nat.mod_lt _ h.n0)
  rw [hc.2, rsa_inverse h.pprime h.qprime (by have := h.qltp; omega)
    (by rw [Nat.mul_comm d v]; exact h.pos) (by rw [Nat.mul_comm d v]; exact h.ed) hm] at hd
  have h1 := rsaDecrypt_eq h he hm
  refine ⟨_, _, h1, (rsaDecryptCRT_eq h _).trans h1, hd, (h.conv he hm).2, ?_⟩
  rw [natToBE_length, hs]

/-- What the key returned by `new_key` is: the product of two primes, the exponent requested, and
a private exponent inverse of it. -/
theorem C53_rsa_new_key (e : BnEnv) (he : 0 < e.limb) (hn : e.PrimeOk)
    (rng : RandomBytes σ) (fuel : Nat) (x : Option Int) (hx : ∀ v, x = some v → 0 < v)
    (numbits : Int) (s s' : σ) (priv : RsaPrivate) (pub : RsaPublic)
    (hk : rsaNewKey e rng fuel x numbits s = .ok (priv, pub) s') :
    ∃ p q : Nat, p.Prime ∧ q.Prime ∧ p ≠ q ∧ beNat pub.n = p * q ∧ beNat priv.n = p * q ∧
      beNat priv.p = p ∧ beNat priv.q = q ∧
      beNat pub.e * beNat priv.d ≡ 1 [MOD (p - 1) * (q - 1)] ∧
      (∀ v, x = some v → (beNat pub.e : Int) = v) ∧ pub.size = numbits ∧ priv.size = numbits := by
  obtain ⟨⟨p, q, v, d, i, h, hv⟩, hs⟩ := rsaNewKey_good he hn hx hk
  refine ⟨p, q, h.pprime, h.qprime, by have := h.qltp; omega, h.pubn, h.privn, h.privp, h.privq, ?_,
    ?_, hs, h.sizes ▸ hs⟩
  · rw [h.pube, h.privd]; exact h.ed
  · rw [h.pube]; exact hv

/-! ### Message_too_long -/

theorem bnModPower_ne {a x m : Int} : bnModPower a x m ≠ .error (.error .messageTooLong) := by
  unfold bnModPower zPowmSec
  split
  · exact fun h => by cases h
  · split <;> exact fun h => by cases h

theorem zRem_ne {a m : Int} : zRem a m ≠ .error (.error .messageTooLong) := by
  unfold zRem
  split <;> exact fun h => by cases h

theorem bnToBytes_ne {e : BnEnv} (he : 0 < e.limb) {nb a : Int} :
    bnToBytes e (some nb) a ≠ .error (.error .messageTooLong) := by
  rw [bnToBytes_some he]
  split
  · split <;> exact fun h => by cases h
  · exact fun h => by cases h

theorem except_bind_ne {x : Except ε α} {f : α → Except ε β} {y : ε} (h1 : x ≠ .error y)
    (h2 : ∀ a, f a ≠ .error y) : x >>= f ≠ .error y := by
  cases x with
  | error z => exact fun h => h1 (by cases h; rfl)
  | ok a => exact h2 a

/-- C54: `encrypt` and `unwrap_signature` raise `Message_too_long` exactly for the numbers that are
not smaller than the modulus, for every key. -/
theorem C54_rsa_encrypt_too_long (e : BnEnv) (he : 0 < e.limb) (key : RsaPublic) (msg : Bytes) :
    rsaEncrypt e key msg = .error (.error .messageTooLong) ↔ beNat key.n ≤ beNat msg := by
  unfold rsaEncrypt
  simp only [bnOfBytes_eq]
  split
  · next h => exact ⟨fun _ => by exact_mod_cast h, fun _ => rfl⟩
  · next h =>
    exact ⟨fun h1 => absurd h1 (except_bind_ne bnModPower_ne fun _ => bnToBytes_ne he),
      fun h1 => absurd (by exact_mod_cast h1) h⟩

/-- C54: the same for `decrypt` and `sign`. -/
theorem C54_rsa_decrypt_too_long (e : BnEnv) (he : 0 < e.limb) (key : RsaPrivate) (msg : Bytes) :
    rsaDecrypt e key msg = .error (.error .messageTooLong) ↔ beNat key.n ≤ beNat msg := by
  unfold rsaDecrypt
  simp only [bnOfBytes_eq]
  split
  · next h => exact ⟨fun _ => by exact_mod_cast h, fun _ => rfl⟩
  · next h =>
    exact ⟨fun h1 => absurd h1 (except_bind_ne bnModPower_ne fun _ => bnToBytes_ne he),
      fun h1 => absurd (by exact_mod_cast h1) h⟩

/-- C54: the same for `decrypt_CRT` and `sign_CRT`. -/
theorem C54_rsa_decrypt_CRT_too_long (e : BnEnv) (he : 0 < e.limb) (key : RsaPrivate) (msg : Bytes) :
    rsaDecryptCRT e key msg = .error (.error .messageTooLong) ↔ beNat key.n ≤ beNat msg := by
  unfold rsaDecryptCRT
  simp only [bnOfBytes_eq]
  split
  · next h => exact ⟨fun _ => by exact_mod_cast h, fun _ => rfl⟩
  · next h =>
    refine ⟨fun h1 => absurd h1 (except_bind_ne ?_ fun _ => bnToBytes_ne he),
      fun h1 => absurd (by exact_mod_cast h1) h⟩
    unfold bnModPowerCRT
    exact except_bind_ne zRem_ne fun _ => except_bind_ne zRem_ne fun _ =>
      except_bind_ne bnModPower_ne fun _ => except_bind_ne bnModPower_ne fun _ =>
      except_bind_ne zRem_ne fun _ h => by cases h

/-- C54: for a key whose modulus is odd, has at most `size` bits, and whose exponent is positive,
`encrypt` returns `m ^ e mod n` over exactly `ceil(size/8)` bytes, provided that the whole number of
machine words that Zarith uses for `n` is not longer than that. What is missing: keys whose modulus
is shorter than that (`C54_rsa_unaligned_fails`). -/
theorem C54_rsa_encrypt_partial (e : BnEnv) (he : 0 < e.limb) (key : RsaPublic)
    (hodd : beNat key.n % 2 = 1) (hx : 0 < beNat key.e) (hsize : beNat key.n < 2 ^ key.size.toNat)
    (hlimb : ∃ k, e.limb * k ≤ (key.size.toNat + 7) / 8 ∧ beNat key.n < 256 ^ (e.limb * k))
    (msg : Bytes) (hm : beNat msg < beNat key.n) :
    ∃ c, rsaEncrypt e key msg = .ok c ∧ c.length = (key.size.toNat + 7) / 8 ∧
      beNat c = beNat msg ^ beNat key.e % beNat key.n := by
  unfold rsaEncrypt
  simp only [bnOfBytes_eq]
  rw [if_neg (by omega), powm_nat _ _ _ hx hodd, except_ok_bind]
  have hr : beNat msg ^ beNat key.e % beNat key.n < beNat key.n := Nat.mod_lt _ (by omega)
  have h2 : 0 ≤ key.size := by
    rcases Int.lt_or_le key.size 0 with h | h
    · rw [Int.toNat_of_nonpos (by omega)] at hsize; simp at hsize; omega
    · exact h
  obtain ⟨k, hk1, hk2⟩ := hlimb
  have hf := bnToBytes_fits he (nb := key.size)
    (m := ((beNat msg ^ beNat key.e % beNat key.n : Nat) : Int)) (n := (beNat key.n : Int))
    (by rw [Int.natAbs_natCast, Int.natAbs_natCast]; omega)
    (by have := (zNumbits_le (n := (beNat key.n : Int)) (k := key.size.toNat)).2
          (by rw [Int.natAbs_natCast]; exact hsize)
        omega)
    (Nat.le_trans ((limbBytes_le he).2 (by rw [Int.natAbs_natCast]; exact hk2)) hk1)
  refine ⟨_, hf, natToBE_length _ _, ?_⟩
  rw [(bnToBytes_val he hf).1, Int.natAbs_natCast]

/-- C54 fails for keys whose size in bytes is not a number of machine words: 35 = 5 * 7 as an 8-bit
modulus, with exponent 5, on a 64-bit machine. `to_bytes` writes outside its buffer, which the
bounds check of `Bytes.set` detects. -/
theorem C54_rsa_unaligned_fails :
    rsaEncrypt ⟨8, fun n => n⟩ ⟨8, [35], [5]⟩ [2] = .error .invalidArg := by decide +kernel

/-- In the same way, `RSA.new_key numbits` returns no key, on a 64-bit machine, unless `numbits / 2`
bits take as many bytes as 64-bit words: for `numbits = 1000`, for instance, it raises
`Invalid_argument`. -/
theorem C54_rsa_new_key_sizes (e : BnEnv) (he : e.limb = 8) (hn : e.PrimeOk) (rng : RandomBytes σ)
    (fuel : Nat) (x : Option Int) (numbits : Int) (s s' : σ) (k : RsaPrivate × RsaPublic) (hk : rsaNewKey e rng fuel x numbits s = .ok k s') :
    numbits / 2 % 64 = 0 ∨ 57 ≤ numbits / 2 % 64 := by
  unfold rsaNewKey at hk
  split at hk
  · cases hk
  · next hb =>
    rw [not_or] at hb
    simp only [m_bind_ok] at hk
    obtain ⟨pq, s1, h1, v, s2, h2, h3⟩ := hk
    obtain ⟨p, q, rfl, pp, qp, hlt, pb, qb⟩ := rsaGenFactors_ok hn h1
    have h3 := ofExcept_ok h3
    unfold rsaBuild at h3
    simp only [except_bind_ok] at h3
    obtain ⟨d, hd, dp, hdp, dq, hdq, qinv, hqi, bn, hbn, bd, hbd, bp, hbp, _⟩ := h3
    have := (bnToBytes_val (by omega) hbp).2.2.2
    have hd2 : numbits.tdiv 2 = numbits / 2 := Int.tdiv_eq_ediv_of_nonneg (by omega)
    rw [hd2] at pb this
    have h8 := bits_le_limb (e := e) (by omega) (p : Int)
    have hdv := limb_dvd e (p : Int)
    rw [he] at hdv
    omega

namespace Example

theorem pow_sq (p b k : Nat) (n : Nat) :
    (fun x => x * x % p)^[n] (b ^ k % p) = b ^ (k * 2 ^ n) % p := by
  induction n with
  | zero => simp
  | succ n ih =>
    rw [Function.iterate_succ_apply', ih, ← Nat.mul_mod, ← pow_add]
    congr 2
    rw [pow_succ]; ring

theorem zmod_pow {p b k : Nat} (n : Nat) {r : Nat} (h : (fun x => x * x % p)^[n] (b ^ k % p) = r % p) :
    ((b : ZMod p)) ^ (k * 2 ^ n) = (r : ZMod p) := by
  rw [pow_sq] at h
  rw [← Nat.cast_pow, ZMod.natCast_eq_natCast_iff']
  exact h

/-- Two primes of 64 bits. -/
def primeP : Nat := 27 * 2 ^ 59 + 1
def primeQ : Nat := 71 * 2 ^ 57 + 1

theorem zmod_ne {p r : Nat} (h : r % p ≠ 1 % p) : (r : ZMod p) ≠ 1 := by
  rw [← Nat.cast_one, Ne, ZMod.natCast_eq_natCast_iff']
  exact h

theorem primeP_prime : primeP.Prime := by
  refine lucas_primality primeP ((5 : Nat) : ZMod primeP) ?_ ?_
  · have := zmod_pow (p := primeP) (b := 5) (k := 27) 59 (r := 1) (by decide +kernel)
    rwa [Nat.cast_one] at this
  · intro q hq hd
    have hq2 : q = 2 ∨ q = 3 := by
      have : q ∣ 3 ^ 3 * 2 ^ 59 := hd
      rcases (Nat.Prime.dvd_mul hq).1 this with h | h
      · exact .inr ((Nat.prime_dvd_prime_iff_eq hq Nat.prime_three).1 (hq.dvd_of_dvd_pow h))
      · exact .inl ((Nat.prime_dvd_prime_iff_eq hq Nat.prime_two).1 (hq.dvd_of_dvd_pow h))
    rcases hq2 with rfl | rfl
    · have := zmod_pow (p := primeP) (b := 5) (k := 27) 58
        (r := (fun x => x * x % primeP)^[58] (5 ^ 27 % primeP)) (by decide +kernel)
      have he : (primeP - 1) / 2 = 27 * 2 ^ 58 := by decide +kernel
      rw [he, this]
      exact zmod_ne (by decide +kernel)
    · have := zmod_pow (p := primeP) (b := 5) (k := 9) 59
        (r := (fun x => x * x % primeP)^[59] (5 ^ 9 % primeP)) (by decide +kernel)
      have he : (primeP - 1) / 3 = 9 * 2 ^ 59 := by decide +kernel
      rw [he, this]
      exact zmod_ne (by decide +kernel)

theorem prime71 : Nat.Prime 71 := by norm_num

theorem primeQ_prime : primeQ.Prime := by
  refine lucas_primality primeQ ((3 : Nat) : ZMod primeQ) ?_ ?_
  · have := zmod_pow (p := primeQ) (b := 3) (k := 71) 57 (r := 1) (by decide +kernel)
    rwa [Nat.cast_one] at this
  · intro q hq hd
    have hq2 : q = 2 ∨ q = 71 := by
      have : q ∣ 71 * 2 ^ 57 := hd
      rcases (Nat.Prime.dvd_mul hq).1 this with h | h
      · exact .inr ((Nat.prime_dvd_prime_iff_eq hq prime71).1 h)
      · exact .inl ((Nat.prime_dvd_prime_iff_eq hq Nat.prime_two).1 (hq.dvd_of_dvd_pow h))
    rcases hq2 with rfl | rfl
    · have := zmod_pow (p := primeQ) (b := 3) (k := 71) 56
        (r := (fun x => x * x % primeQ)^[56] (3 ^ 71 % primeQ)) (by decide +kernel)
      have he : (primeQ - 1) / 2 = 71 * 2 ^ 56 := by decide +kernel
      rw [he, this]
      exact zmod_ne (by decide +kernel)
    · have := zmod_pow (p := primeQ) (b := 3) (k := 1) 57
        (r := (fun x => x * x % primeQ)^[57] (3 ^ 1 % primeQ)) (by decide +kernel)
      have he : (primeQ - 1) / 71 = 1 * 2 ^ 57 := by decide +kernel
      rw [he, this]
      exact zmod_ne (by decide +kernel)

/-- A 64-bit machine. -/
noncomputable def bnEnv : BnEnv where
  limb := 8
  nextprime := fun n =>
    if n = primeP - 2 then primeP else if n = primeQ - 2 then primeQ
    else ((Nat.exists_infinite_primes (n.toNat + 1)).choose : Int)

theorem bnEnv_primeOk : bnEnv.PrimeOk := by
  intro n hn
  unfold bnEnv
  simp only
  split
  · next h => subst h; exact ⟨by decide +kernel, primeP_prime⟩
  · split
    · next h => subst h; exact ⟨by decide +kernel, primeQ_prime⟩
    · have := (Nat.exists_infinite_primes (n.toNat + 1)).choose_spec
      exact ⟨by have := this.1; omega, this.2⟩

/-- A generator that returns the byte sequences of a list. -/
def listRng : RandomBytes (List Bytes) := fun _ l =>
  match l with
  | [] => .exn (.error .noEntropySource) []
  | b :: l => .ok b l

/-- The random numbers that make `random_prime` return `primeQ` and `primeP`. -/
def rsaRandom : List Bytes := [natToLE 8 (primeQ - 2), natToLE 8 (primeP - 2)]

theorem rsaFactors : rsaGenFactors bnEnv listRng 1 (some 65537) 64 rsaRandom
    = .ok ((primeP : Int), (primeQ : Int)) [] := by
  decide +kernel

end Example

/-- Given suitable primes and exponents, the key is built. -/
theorem rsaBuild_complete {e : BnEnv} (he : 0 < e.limb) {numbits : Int} {p q x : Nat} (hp : p.Prime)
    (hq : q.Prime) (hlt : q < p) (hx : x ≤ p * q)
    (hcop : Nat.gcd x ((p - 1) * (q - 1)) = 1)
    (h1 : (zNumbits (p : Int) : Int) ≤ numbits.tdiv 2)
    (h2 : limbBytes e (p : Int) ≤ ((numbits.tdiv 2).toNat + 7) / 8)
    (h3 : (zNumbits (p * q : Nat) : Int) ≤ numbits)
    (h4 : limbBytes e (p * q : Nat) ≤ (numbits.toNat + 7) / 8) :
    ∃ k, rsaBuild e numbits p q x = .ok k := by
  have hp1 := hp.two_le; have hq1 := hq.two_le
  have ep : (p : Int) - 1 = ((p - 1 : Nat) : Int) := by omega
  have eq : (q : Int) - 1 = ((q - 1 : Nat) : Int) := by omega
  have hm0 : 0 < (p - 1) * (q - 1) := Nat.mul_pos (by omega) (by omega)
  have hmn : (p - 1) * (q - 1) ≤ p * q := Nat.mul_le_mul (by omega) (by omega)
  unfold rsaBuild
  simp only
  rw [ep, eq, ← Nat.cast_mul, ← Nat.cast_mul]
  have hd : ∃ r, zInvert x ((p - 1) * (q - 1) : Nat) = .ok r := by
    unfold zInvert
    rw [if_neg]
    · exact ⟨_, rfl⟩
    · rw [not_or, not_not]
      refine ⟨by omega, ?_⟩
      rw [Int.gcd_natCast_natCast]; exact hcop
  obtain ⟨r, hr⟩ := hd
  obtain ⟨d, rfl, _, hdl⟩ := zInvert_nat hr
  rw [hr, except_ok_bind, zRem_nat _ _ (by omega), except_ok_bind, zRem_nat _ _ (by omega),
    except_ok_bind]
  have hqi : ∃ r, zInvert q p = .ok r := by
    unfold zInvert
    rw [if_neg]
    · exact ⟨_, rfl⟩
    · rw [not_or, not_not]
      refine ⟨by omega, ?_⟩
      rw [Int.gcd_natCast_natCast]
      exact (Nat.coprime_primes hq hp).2 (by omega)
  obtain ⟨r2, hr2⟩ := hqi
  obtain ⟨i, rfl, _, hil⟩ := zInvert_nat hr2
  rw [hr2, except_ok_bind]
  have big : ∀ a : Nat, a ≤ p * q → ∃ b, bnToBytes e (some numbits) a = .ok b := fun a ha =>
    ⟨_, bnToBytes_fits he (by rw [Int.natAbs_natCast, Int.natAbs_natCast]; exact ha) h3 h4⟩
  have small : ∀ a : Nat, a ≤ p → ∃ b, bnToBytes e (some (numbits.tdiv 2)) a = .ok b := fun a ha =>
    ⟨_, bnToBytes_fits he (by rw [Int.natAbs_natCast, Int.natAbs_natCast]; exact ha) h1 h2⟩
  obtain ⟨b1, e1⟩ := big (p * q) (Nat.le_refl _)
  obtain ⟨b2, e2⟩ := big d (by omega)
  obtain ⟨b3, e3⟩ := small p (Nat.le_refl _)
  obtain ⟨b4, e4⟩ := small q (by omega)
  obtain ⟨b5, e5⟩ := small (d % (p - 1)) (by have := Nat.mod_lt d (show 0 < p - 1 by omega); omega)
  obtain ⟨b6, e6⟩ := small (d % (q - 1)) (by have := Nat.mod_lt d (show 0 < q - 1 by omega); omega)
  obtain ⟨b7, e7⟩ := small i (by omega)
  obtain ⟨b8, e8⟩ := big x hx
  rw [e1, except_ok_bind, e2, except_ok_bind, e3, except_ok_bind, e4, except_ok_bind, e5,
    except_ok_bind, e6, except_ok_bind, e7, except_ok_bind, e8]
  exact ⟨_, rfl⟩

namespace Example

/-- `RSA.new_key ~e:65537 128` returns a key pair. -/
theorem rsaKey : ∃ priv pub,
    rsaNewKey bnEnv listRng 1 (some 65537) 128 rsaRandom = .ok (priv, pub) [] := by
  obtain ⟨k, hk⟩ := rsaBuild_complete (e := bnEnv) (by decide) (numbits := 128) (x := 65537)
    primeP_prime primeQ_prime (by decide +kernel) (by decide +kernel) (by decide +kernel)
    (by decide +kernel) (by decide +kernel) (by decide +kernel) (by decide +kernel)
  refine ⟨k.1, k.2, ?_⟩
  unfold rsaNewKey
  rw [if_neg (by decide), M.bind_def, show (128 : Int).tdiv 2 = 64 from rfl, rsaFactors]
  simp only
  rw [M.bind_def]
  show ofExcept (rsaBuild bnEnv 128 primeP primeQ 65537) [] = _
  have : rsaBuild bnEnv 128 primeP primeQ 65537 = .ok k := hk
  rw [this]
  rfl

/-- The hypotheses of C53 are met: a key of 128 bits and the message "hello". -/
example : ∃ priv pub, rsaNewKey bnEnv listRng 1 (some 65537) 128 rsaRandom = .ok (priv, pub) [] ∧
    beNat (ascii "hello") < beNat pub.n ∧
    ∃ c m, rsaEncrypt bnEnv pub (ascii "hello") = .ok c ∧ rsaDecrypt bnEnv priv c = .ok m ∧
      beNat m = beNat (ascii "hello") := by
  obtain ⟨priv, pub, hk⟩ := rsaKey
  obtain ⟨p, q, _, _, _, hn, _, hp, hq, _⟩ := C53_rsa_new_key bnEnv (by decide) bnEnv_primeOk _ _ _
    (fun v h => by cases h; decide) _ _ _ _ _ hk
  have hm : beNat (ascii "hello") < beNat pub.n := by
    obtain ⟨⟨p, q, v, d, i, h, _⟩, _⟩ := rsaNewKey_good (by decide) bnEnv_primeOk
      (fun v h => by cases h; decide) hk
    unfold rsaNewKey at hk
    rw [if_neg (by decide), M.bind_def, show (128 : Int).tdiv 2 = 64 from rfl, rsaFactors] at hk
    have hb : rsaBuild bnEnv 128 primeP primeQ (65537 : Nat) = .ok (priv, pub) := ofExcept_ok hk
    obtain ⟨⟨d, i, hg⟩, _⟩ := rsaBuild_good (by decide) primeP_prime primeQ_prime (by decide +kernel)
      (by decide +kernel) (by decide) hb
    rw [hg.pubn]
    decide +kernel
  obtain ⟨c, m, h1, h2, _, h4, _⟩ := C53_rsa_decrypt_encrypt bnEnv (by decide) bnEnv_primeOk _ _ _
    (fun v h => by cases h; decide) _ _ _ _ _ hk _ hm
  exact ⟨priv, pub, hk, hm, c, m, h1, h2, h4⟩

end Example

end Verif
