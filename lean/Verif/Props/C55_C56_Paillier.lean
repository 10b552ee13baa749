import Verif.Proof.Paillier
import Verif.Props.C53_C54_RSA
/-
C55 (Paillier decryption inverts encryption) and C56 (addition of encrypted numbers).
-/
namespace Verif

section
variable {e : BnEnv} {priv : PaillierPrivate} {pub : PaillierPublic} {n l mu : Nat}

/-- The decryption of what `encrypt` returns. -/
theorem paillierEncrypt_good (h : PaiGood e priv pub n l mu) (he : 0 < e.limb)
    {rng : RandomBytes σ} {fuel : Nat} {msg c : Bytes} (hm : 0 < beNat msg) {t t' : σ}
    (hc : paillierEncrypt e rng fuel pub msg t = .ok c t') :
    Nat.Coprime (beNat c) n ∧ paiL n l (beNat c) ≡ beNat msg * l [MOD n] := by
  unfold paillierEncrypt at hc
  simp only [m_bind_ok] at hc
  obtain ⟨r, t1, h1, h2⟩ := hc
  have hr := (paillierGetR_ok he h1).1
  rw [h.pubn] at hr
  obtain ⟨c', e1, _, e2⟩ := paillierEncryptWith_eq h he (r := r) hm
  have h3 := ofExcept_ok h2
  rw [e1] at h3
  cases h3
  have hg := Nat.Coprime.pow_left (beNat msg) (coprime_succ n)
  have hb := Nat.Coprime.pow_left n hr
  rw [e2, paiL_mod]
  refine ⟨coprime_mod_sq.2 (Nat.Coprime.mul_left hg hb), ?_⟩
  have := (paiL_mul h.n1 h.carm hg hb).trans
    ((paiL_gen h.n1 h.carm (beNat msg)).add (paiL_blind h.n1 h.carm hr))
  rwa [Nat.add_zero] at this

theorem paillierDecrypt_good (h : PaiGood e priv pub n l mu) (he : 0 < e.limb) {c : Bytes} {k : Nat}
    (hc : Nat.Coprime (beNat c) n) (hl : paiL n l (beNat c) ≡ k * l [MOD n]) :
    ∃ m, paillierDecrypt e priv c = .ok m ∧ beNat m = k % n := by
  obtain ⟨m, h1, h2⟩ := paillierDecrypt_eq h he hc
  refine ⟨m, h1, h2.trans ?_⟩
  have := hl.mul_right mu
  exact Eq.trans this (h.cancel k)

end

/-- C55 for the messages other than 0: for every key pair that `new_key` can return and every
random generator used for the encryption, the decryption of the ciphertext is the message as a
number, reduced modulo `n` (so the message, if it is smaller than `n`). What is missing: the message
0 (`C55_paillier_zero_fails`). -/
theorem C55_paillier_partial (e : BnEnv) (he : 0 < e.limb) (hn : e.PrimeOk)
    (rng : RandomBytes σ) (fuel : Nat) (numbits : Int) (s s' : σ) (priv : PaillierPrivate)
    (pub : PaillierPublic) (hk : paillierNewKey e rng fuel numbits s = .ok (priv, pub) s')
    (rng' : RandomBytes τ) (fuel' : Nat) (msg : Bytes) (hm : 0 < beNat msg) (t t' : τ) (c : Bytes)
    (hc : paillierEncrypt e rng' fuel' pub msg t = .ok c t') :
    ∃ m, paillierDecrypt e priv c = .ok m ∧ beNat m = beNat msg % beNat pub.n ∧
      (beNat msg < beNat pub.n → beNat m = beNat msg) := by
  obtain ⟨n, l, mu, h⟩ := paillierNewKey_good he hn hk
  obtain ⟨hcop, hl⟩ := paillierEncrypt_good h he hm hc
  obtain ⟨m, h1, h2⟩ := paillierDecrypt_good h he hcop hl
  refine ⟨m, h1, by rw [h.pubn]; exact h2, fun hlt => ?_⟩
  rw [h2]
  exact Nat.mod_eq_of_lt (h.pubn ▸ hlt)

/-- `encrypt` of a message other than 0 returns a string of the length of `n2` as soon as the
generator has provided a suitable number. -/
theorem C55_paillier_encrypt_ok (e : BnEnv) (he : 0 < e.limb) (hn : e.PrimeOk)
    (rng : RandomBytes σ) (fuel : Nat) (numbits : Int) (s s' : σ) (priv : PaillierPrivate)
    (pub : PaillierPublic) (hk : paillierNewKey e rng fuel numbits s = .ok (priv, pub) s')
    (rng' : RandomBytes τ) (fuel' : Nat) (msg : Bytes) (hm : 0 < beNat msg) (t t' : τ) (r : Bytes)
    (hr : paillierGetR e rng' fuel' pub t = .ok r t') :
    ∃ c, paillierEncrypt e rng' fuel' pub msg t = .ok c t' ∧ c.length = pub.n2.length := by
  obtain ⟨n, l, mu, h⟩ := paillierNewKey_good he hn hk
  obtain ⟨c, e1, e2, _⟩ := paillierEncryptWith_eq h he (r := r) hm
  refine ⟨c, ?_, e2⟩
  unfold paillierEncrypt
  rw [M.bind_def, hr]
  simp only
  rw [e1]
  rfl

/-- C55 fails for the message 0, however it is written: `Z.powm_sec` wants a positive exponent. -/
theorem C55_paillier_zero_fails (e : BnEnv) (key : PaillierPublic) (rng : RandomBytes σ) (fuel : Nat)
    (msg : Bytes) (h0 : beNat msg = 0) (t t' : σ) (r : Bytes)
    (hr : paillierGetR e rng fuel key t = .ok r t') :
    paillierEncrypt e rng fuel key msg t = .exn .invalidArg t' := by
  unfold paillierEncrypt
  rw [M.bind_def, hr]
  simp only
  unfold paillierEncryptWith modPower bnModPower zPowmSec
  rw [bnOfBytes_eq msg, h0]
  rfl

/-- C56 for messages other than 0: the sum of two encrypted numbers decrypts as their sum modulo
`n`. -/
theorem C56_paillier_add_partial (e : BnEnv) (he : 0 < e.limb) (hn : e.PrimeOk)
    (rng : RandomBytes σ) (fuel : Nat) (numbits : Int) (s s' : σ) (priv : PaillierPrivate)
    (pub : PaillierPublic) (hk : paillierNewKey e rng fuel numbits s = .ok (priv, pub) s')
    (rng' : RandomBytes τ) (fuel1 fuel2 : Nat) (m1 m2 : Bytes) (h1 : 0 < beNat m1) (h2 : 0 < beNat m2)
    (t1 t1' t2 t2' : τ) (c1 c2 : Bytes)
    (hc1 : paillierEncrypt e rng' fuel1 pub m1 t1 = .ok c1 t1')
    (hc2 : paillierEncrypt e rng' fuel2 pub m2 t2 = .ok c2 t2') :
    ∃ c m, paillierAdd e pub c1 c2 = .ok c ∧ paillierDecrypt e priv c = .ok m ∧
      beNat m = (beNat m1 + beNat m2) % beNat pub.n := by
  obtain ⟨n, l, mu, h⟩ := paillierNewKey_good he hn hk
  obtain ⟨a1, b1⟩ := paillierEncrypt_good h he h1 hc1
  obtain ⟨a2, b2⟩ := paillierEncrypt_good h he h2 hc2
  have hm := modMult_ok he (a := c1) (b := c2) h.limb (by rw [h.pubn2]; exact h.n2)
  rw [h.pubn2] at hm
  have hv := hm.2
  obtain ⟨m, d1, d2⟩ := paillierDecrypt_good h he (k := beNat m1 + beNat m2)
    (by rw [hv]; exact coprime_mod_sq.2 (Nat.Coprime.mul_left a1 a2))
    (by rw [hv, paiL_mod, Nat.add_mul]; exact (paiL_mul h.n1 h.carm a1 a2).trans (b1.add b2))
  exact ⟨_, m, hm.1, d1, by rw [h.pubn]; exact d2⟩

/-- C56 for sums of any number of terms: `add` is a homomorphism on all the strings that represent
numbers prime with `n`, among which the results of `encrypt` and of `add`. -/
theorem C56_paillier_add_homomorphism (e : BnEnv) (he : 0 < e.limb) (hn : e.PrimeOk)
    (rng : RandomBytes σ) (fuel : Nat) (numbits : Int) (s s' : σ) (priv : PaillierPrivate)
    (pub : PaillierPublic) (hk : paillierNewKey e rng fuel numbits s = .ok (priv, pub) s') :
    (∀ c1 c2, Nat.Coprime (beNat c1) (beNat pub.n) → Nat.Coprime (beNat c2) (beNat pub.n) →
      ∃ c m1 m2 m, paillierAdd e pub c1 c2 = .ok c ∧ Nat.Coprime (beNat c) (beNat pub.n) ∧
        c.length = pub.n2.length ∧
        paillierDecrypt e priv c1 = .ok m1 ∧ paillierDecrypt e priv c2 = .ok m2 ∧
        paillierDecrypt e priv c = .ok m ∧ beNat m = (beNat m1 + beNat m2) % beNat pub.n) ∧
    ∀ {τ : Type} (rng' : RandomBytes τ) (fuel' : Nat) (msg : Bytes) (t t' : τ) (c : Bytes),
      paillierEncrypt e rng' fuel' pub msg t = .ok c t' → Nat.Coprime (beNat c) (beNat pub.n) := by
  obtain ⟨n, l, mu, h⟩ := paillierNewKey_good he hn hk
  rw [h.pubn]
  refine ⟨fun c1 c2 h1 h2 => ?_, fun rng' fuel' msg t t' c hc => ?_⟩
  · have hm := modMult_ok he (a := c1) (b := c2) h.limb (by rw [h.pubn2]; exact h.n2)
    rw [h.pubn2] at hm
    have hv := hm.2
    have hcop : Nat.Coprime (beNat (natToBE pub.n2.length (beNat c1 * beNat c2 % (n * n)))) n := by
      rw [hv]; exact coprime_mod_sq.2 (Nat.Coprime.mul_left h1 h2)
    obtain ⟨m1, x1, y1⟩ := paillierDecrypt_eq h he h1
    obtain ⟨m2, x2, y2⟩ := paillierDecrypt_eq h he h2
    obtain ⟨m, x3, y3⟩ := paillierDecrypt_eq h he hcop
    refine ⟨_, m1, m2, m, hm.1, hcop, natToBE_length _ _, x1, x2, x3, ?_⟩
    rw [y1, y2, y3, hv, paiL_mod, ← Nat.add_mod, ← Nat.add_mul]
    exact (paiL_mul h.n1 h.carm h1 h2).mul_right mu
  · rcases Nat.eq_zero_or_pos (beNat msg) with h0 | h0
    · unfold paillierEncrypt at hc
      simp only [m_bind_ok] at hc
      obtain ⟨r, t1, e1, e2⟩ := hc
      unfold paillierEncryptWith modPower bnModPower zPowmSec at e2
      rw [bnOfBytes_eq msg, h0] at e2
      cases e2
    · exact (paillierEncrypt_good h he h0 hc).1

namespace Example

theorem paiFactors : paillierGenFactors bnEnv listRng 1 64 rsaRandom
    = .ok ((primeQ : Int), (primeP : Int)) [] := by
  decide +kernel

end Example

theorem paillierBuild_complete {e : BnEnv} (he : 0 < e.limb) {numbits : Int} {p q : Nat}
    (hcop : Nat.gcd (Nat.lcm (p - 1) (q - 1)) (p * q) = 1) (hp0 : 0 < p) (hq0 : 0 < q)
    (h1 : (zNumbits (p : Int) : Int) ≤ numbits.tdiv 2)
    (h2 : limbBytes e (p : Int) ≤ ((numbits.tdiv 2).toNat + 7) / 8)
    (h1' : (zNumbits (q : Int) : Int) ≤ numbits.tdiv 2)
    (h2' : limbBytes e (q : Int) ≤ ((numbits.tdiv 2).toNat + 7) / 8)
    (h3 : (zNumbits (p * q : Nat) : Int) ≤ numbits)
    (h4 : limbBytes e (p * q : Nat) ≤ (numbits.toNat + 7) / 8) :
    ∃ k, paillierBuild e numbits p q = .ok k := by
  have ep : (p : Int) - 1 = ((p - 1 : Nat) : Int) := by omega
  have eq : (q : Int) - 1 = ((q - 1 : Nat) : Int) := by omega
  have hpq := Nat.mul_pos hp0 hq0
  unfold paillierBuild
  simp only
  rw [ep, eq, ← Nat.cast_mul]
  have el : Int.lcm ((p - 1 : Nat) : Int) ((q - 1 : Nat) : Int) = Nat.lcm (p - 1) (q - 1) := by
    unfold Int.lcm; rw [Int.natAbs_natCast, Int.natAbs_natCast]
  rw [el]
  have hd : ∃ r, zInvert (Nat.lcm (p - 1) (q - 1) : Nat) (p * q : Nat) = .ok r := by
    unfold zInvert
    rw [if_neg]
    · exact ⟨_, rfl⟩
    · rw [not_or, not_not]
      refine ⟨by omega, ?_⟩
      rw [Int.gcd_natCast_natCast]; exact hcop
  obtain ⟨r, hr⟩ := hd
  rw [hr, except_ok_bind, bnToBytes_fits he (Nat.le_refl _) h3 h4, except_ok_bind, bnToBytes_none,
    except_ok_bind, bnToBytes_fits he (Nat.le_refl _) h1 h2, except_ok_bind,
    bnToBytes_fits he (Nat.le_refl _) h1' h2', except_ok_bind, bnToBytes_none, except_ok_bind,
    bnToBytes_none, except_ok_bind, bnToBytes_none, except_ok_bind]
  exact ⟨_, rfl⟩

namespace Example

theorem paiKey : ∃ priv pub, paillierNewKey bnEnv listRng 1 128 rsaRandom = .ok (priv, pub) [] ∧
    pub.size = 128 ∧ beNat pub.n = primeQ * primeP := by
  obtain ⟨k, hk⟩ := paillierBuild_complete (e := bnEnv) (by decide) (numbits := 128) (p := primeQ)
    (q := primeP) (by decide +kernel) (by decide) (by decide) (by decide +kernel) (by decide +kernel)
    (by decide +kernel) (by decide +kernel) (by decide +kernel) (by decide +kernel)
  refine ⟨k.1, k.2, ?_, ?_, ?_⟩
  · unfold paillierNewKey
    rw [if_neg (by decide), M.bind_def, show (128 : Int).tdiv 2 = 64 from rfl, paiFactors]
    simp only
    rw [hk]
    rfl
  · unfold paillierBuild at hk
    simp only [except_bind_ok] at hk
    obtain ⟨_, _, _, _, _, _, _, _, _, _, _, _, _, _, _, _, hk⟩ := hk
    cases hk; rfl
  · obtain ⟨l, mu, h⟩ := paillierBuild_good (by decide) primeQ_prime primeP_prime (by decide)
      (by decide) (by decide) hk
    exact h.pubn

/-- The number 2^126 + 1 as random number for the encryption. -/
def paiRandom : List Bytes := [natToLE 16 (2 ^ 126 + 1)]

theorem paiGetR {pub : PaillierPublic} (hs : pub.size = 128) (hn : beNat pub.n = primeQ * primeP) :
    ∃ r, paillierGetR bnEnv listRng 1 pub paiRandom = .ok r [] := by
  unfold paillierGetR
  rw [M.bind_def, hs, bnOfBytes_eq, hn]
  have : retry 1 (do
      let r ← bnRandom listRng false (128 - 1)
      pure (if (bnRelativePrime r ((primeQ * primeP : Nat) : Int)
        && decide (r < ((primeQ * primeP : Nat) : Int))) = true then some r else none)) paiRandom
    = .ok ((2 ^ 126 + 1 : Nat) : Int) [] := by decide +kernel
  rw [this]
  simp only
  rw [bnToBytes_none]
  exact ⟨_, rfl⟩

/-- The hypotheses of C55 and C56 are met: two numbers encrypted with a key of 128 bits. -/
example : ∃ priv pub, paillierNewKey bnEnv listRng 1 128 rsaRandom = .ok (priv, pub) [] ∧
    ∃ c1 c2 c m, paillierEncrypt bnEnv listRng 1 pub (ascii "hello") paiRandom = .ok c1 [] ∧
      paillierEncrypt bnEnv listRng 1 pub (ascii "world") paiRandom = .ok c2 [] ∧
      paillierAdd bnEnv pub c1 c2 = .ok c ∧ paillierDecrypt bnEnv priv c = .ok m ∧
      beNat m = (beNat (ascii "hello") + beNat (ascii "world")) % beNat pub.n := by
  obtain ⟨priv, pub, hk, hs, hn⟩ := paiKey
  obtain ⟨r, hr⟩ := paiGetR hs hn
  have enc := fun msg hm => C55_paillier_encrypt_ok bnEnv (by decide) bnEnv_primeOk _ _ _ _ _ _ _ hk
    listRng 1 msg hm _ _ r hr
  obtain ⟨c1, h1, _⟩ := enc (ascii "hello") (by decide)
  obtain ⟨c2, h2, _⟩ := enc (ascii "world") (by decide)
  obtain ⟨c, m, h3, h4, h5⟩ := C56_paillier_add_partial bnEnv (by decide) bnEnv_primeOk _ _ _ _ _ _ _ hk
    _ _ _ _ _ (by decide) (by decide) _ _ _ _ _ _ h1 h2
  exact ⟨priv, pub, hk, c1, c2, c, m, h1, h2, h3, h4, h5⟩

end Example

end Verif
