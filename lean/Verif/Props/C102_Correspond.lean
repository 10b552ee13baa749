import Verif.Props.C53_C54_RSA
import Verif.Props.C79_Collision
import Verif.Props.C96_Draws
import Verif.Props.C55_C56_Paillier
import Mathlib.NumberTheory.Basic
/-
C102: messages and ciphertexts of the public-key ciphers correspond one to one; ciphertexts and
signatures multiply.

A string stands for the number `beNat` (Spec/Common).
-/
namespace Verif
open Spec

theorem natToBE_back (b : Bytes) : natToBE b.length (beNat b) = b := natToBE_beNat b

theorem beNat_eq {a b : Bytes} (hl : a.length = b.length) (h : beNat a = beNat b) : a = b := by
  rw [← natToBE_back a, ← natToBE_back b, hl, h]

/-! ### RSA -/

/-- C102, RSA: for every key pair that `new_key` returns, `encrypt` permutes the strings that have the
length of the modulus and represent numbers smaller than it. Every such string is the ciphertext of
exactly one such string, and `decrypt` finds it. -/
theorem C102_rsa_permutation (e : BnEnv) (he : 0 < e.limb) (hn : e.PrimeOk)
    (rng : RandomBytes σ) (fuel : Nat) (x : Option Int) (hx : ∀ v, x = some v → 0 < v)
    (numbits : Int) (s s' : σ) (priv : RsaPrivate) (pub : RsaPublic)
    (hk : rsaNewKey e rng fuel x numbits s = .ok (priv, pub) s')
    (c : Bytes) (hl : c.length = (numbits.toNat + 7) / 8) (hc : beNat c < beNat pub.n) :
    ∃ m, m.length = (numbits.toNat + 7) / 8 ∧ beNat m < beNat pub.n ∧ rsaEncrypt e pub m = .ok c
      ∧ rsaDecrypt e priv c = .ok m
      ∧ ∀ m', m'.length = (numbits.toNat + 7) / 8 → rsaEncrypt e pub m' = .ok c → m' = m := by
  obtain ⟨⟨p, q, v, d, i, h, _⟩, hs⟩ := rsaNewKey_good he hn hx hk
  rw [h.pubn] at hc ⊢
  have hd := rsaDecrypt_eq h he hc
  have hcv := h.conv he (Nat.mod_lt (beNat c ^ d) h.n0)
  rw [hs] at hd hcv
  have hm := rsaEncrypt_eq h he (msg := natToBE ((numbits.toNat + 7) / 8) (beNat c ^ d % (p * q)))
    (by rw [hcv.2]; exact Nat.mod_lt _ h.n0)
  rw [hcv.2, rsa_inverse h.pprime h.qprime (by have := h.qltp; omega)
    (by rw [Nat.mul_comm d v]; exact h.pos) (by rw [Nat.mul_comm d v]; exact h.ed) hc, hs, ← hl,
    natToBE_back c] at hm
  refine ⟨_, natToBE_length _ _, by rw [hcv.2]; exact Nat.mod_lt _ h.n0, hl ▸ hm, hd, ?_⟩
  intro m' hl' hm'
  have hlt : beNat m' < p * q := by
    refine Nat.lt_of_not_le fun hle => ?_
    have := (C54_rsa_encrypt_too_long e he pub m').2 (by rw [h.pubn]; exact hle)
    rw [this] at hm'
    cases hm'
  have h1 := rsaEncrypt_eq h he hlt
  rw [hm'] at h1
  injection h1 with h1
  have h2 : beNat c = beNat m' ^ v % (p * q) := by
    rw [h1]; exact (h.conv he (Nat.mod_lt _ h.n0)).2
  refine beNat_eq (by rw [hl', natToBE_length]) ?_
  rw [hcv.2, h2, rsa_inverse h.pprime h.qprime (by have := h.qltp; omega) h.pos h.ed hlt]

/-- C102, RSA ciphertexts multiply: from the ciphertexts of two messages anybody makes that of their
product. -/
theorem C102_rsa_product (e : BnEnv) (he : 0 < e.limb) (hn : e.PrimeOk)
    (rng : RandomBytes σ) (fuel : Nat) (x : Option Int) (hx : ∀ v, x = some v → 0 < v)
    (numbits : Int) (s s' : σ) (priv : RsaPrivate) (pub : RsaPublic)
    (hk : rsaNewKey e rng fuel x numbits s = .ok (priv, pub) s')
    (m₁ m₂ m c₁ c₂ c : Bytes) (h1 : rsaEncrypt e pub m₁ = .ok c₁) (h2 : rsaEncrypt e pub m₂ = .ok c₂)
    (hm : beNat m = beNat m₁ * beNat m₂ % beNat pub.n)
    (hl : c.length = (numbits.toNat + 7) / 8) (hc : beNat c = beNat c₁ * beNat c₂ % beNat pub.n) :
    rsaEncrypt e pub m = .ok c := by
  obtain ⟨⟨p, q, v, d, i, h, _⟩, hs⟩ := rsaNewKey_good he hn hx hk
  rw [h.pubn] at hm hc
  have lt : ∀ {m' c'}, rsaEncrypt e pub m' = .ok c' → beNat c' = beNat m' ^ v % (p * q) := by
    intro m' c' hm'
    have hlt : beNat m' < p * q := by
      refine Nat.lt_of_not_le fun hle => ?_
      have := (C54_rsa_encrypt_too_long e he pub m').2 (by rw [h.pubn]; exact hle)
      rw [this] at hm'
      cases hm'
    rw [rsaEncrypt_eq h he hlt] at hm'
    injection hm' with hm'
    rw [← hm']
    exact (h.conv he (Nat.mod_lt _ h.n0)).2
  rw [rsaEncrypt_eq h he (by rw [hm]; exact Nat.mod_lt _ h.n0)]
  congr 1
  refine beNat_eq (by rw [natToBE_length, hs, hl]) ?_
  rw [(h.conv he (Nat.mod_lt _ h.n0)).2, hc, lt h1, lt h2, hm, ← Nat.mul_mod, ← mul_pow, ← Nat.pow_mod]

/-- C102, RSA signatures multiply: from the signatures of two messages, without the private key,
anybody makes a string that unwraps to the product of the messages: it is the signature that `sign`
returns for that product. -/
theorem C102_rsa_forgery (e : BnEnv) (he : 0 < e.limb) (hn : e.PrimeOk)
    (rng : RandomBytes σ) (fuel : Nat) (x : Option Int) (hx : ∀ v, x = some v → 0 < v)
    (numbits : Int) (s s' : σ) (priv : RsaPrivate) (pub : RsaPublic)
    (hk : rsaNewKey e rng fuel x numbits s = .ok (priv, pub) s')
    (m₁ m₂ m s₁ s₂ t : Bytes) (h1 : rsaDecrypt e priv m₁ = .ok s₁) (h2 : rsaDecrypt e priv m₂ = .ok s₂)
    (hm : beNat m = beNat m₁ * beNat m₂ % beNat pub.n) (hlm : m.length = (numbits.toNat + 7) / 8)
    (hl : t.length = (numbits.toNat + 7) / 8) (ht : beNat t = beNat s₁ * beNat s₂ % beNat pub.n) :
    rsaDecrypt e priv m = .ok t ∧ rsaEncrypt e pub t = .ok m := by
  obtain ⟨⟨p, q, v, d, i, h, _⟩, hs⟩ := rsaNewKey_good he hn hx hk
  rw [h.pubn] at hm ht
  have lt : ∀ {m' c'}, rsaDecrypt e priv m' = .ok c' → beNat c' = beNat m' ^ d % (p * q) := by
    intro m' c' hm'
    have hlt : beNat m' < p * q := by
      refine Nat.lt_of_not_le fun hle => ?_
      have := (C54_rsa_decrypt_too_long e he priv m').2 (by rw [h.privn]; exact hle)
      rw [this] at hm'
      cases hm'
    rw [rsaDecrypt_eq h he hlt] at hm'
    injection hm' with hm'
    rw [← hm']
    exact (h.conv he (Nat.mod_lt _ h.n0)).2
  have hmlt : beNat m < p * q := by rw [hm]; exact Nat.mod_lt _ h.n0
  have htv : beNat t = beNat m ^ d % (p * q) := by
    rw [ht, lt h1, lt h2, hm, ← Nat.mul_mod, ← mul_pow, ← Nat.pow_mod]
  constructor
  · rw [rsaDecrypt_eq h he hmlt]
    congr 1
    refine beNat_eq (by rw [natToBE_length, hs, hl]) ?_
    rw [(h.conv he (Nat.mod_lt _ h.n0)).2, htv]
  · rw [rsaEncrypt_eq h he (by rw [htv]; exact Nat.mod_lt _ h.n0), htv,
      rsa_inverse h.pprime h.qprime (by have := h.qltp; omega) (by rw [Nat.mul_comm d v]; exact h.pos)
        (by rw [Nat.mul_comm d v]; exact h.ed) hmlt]
    congr 1
    exact beNat_eq (by rw [natToBE_length, hs, hlm]) (h.conv he hmlt).2

/-! ### Paillier -/

/-- An inverse of `n` modulo the exponent of the private key. -/
theorem pai_root {n l mu : Nat} (hl : 0 < l) (hn : 1 < n) (h : l * mu ≡ 1 [MOD n]) :
    ∃ w k, n * w = 1 + l * k := by
  have hc : Nat.Coprime n l := by
    have hg : Nat.gcd n l ∣ 1 := by
      have h1 : l * mu ≡ 1 [MOD Nat.gcd n l] := h.of_dvd (Nat.gcd_dvd_left n l)
      have h2 : l * mu ≡ 0 [MOD Nat.gcd n l] :=
        (Nat.modEq_zero_iff_dvd).2 (Dvd.dvd.mul_right (Nat.gcd_dvd_right n l) mu)
      exact (Nat.modEq_zero_iff_dvd).1 (h1.symm.trans h2)
    exact Nat.dvd_one.1 hg
  rcases Nat.lt_or_ge 1 l with h1 | h1
  · obtain ⟨w, _, hw⟩ := Nat.exists_mul_mod_eq_one_of_coprime hc h1
    refine ⟨w, n * w / l, ?_⟩
    have := Nat.mod_add_div (n * w) l
    omega
  · have : l = 1 := by omega
    subst this
    exact ⟨1, n - 1, by omega⟩

/-- The blinding number can be recovered from its `n`-th power. -/
theorem pai_blind_inj {n l mu : Nat} (hl : 0 < l) (hn : 1 < n) (hcar : Carm n l)
    (h : l * mu ≡ 1 [MOD n]) {r r' : Nat} (hr : Nat.Coprime r n) (hr' : Nat.Coprime r' n)
    (heq : r ^ n ≡ r' ^ n [MOD n]) : r ≡ r' [MOD n] := by
  obtain ⟨w, k, hw⟩ := pai_root hl hn h
  have key : ∀ {t : Nat}, Nat.Coprime t n → (t ^ n) ^ w ≡ t [MOD n] := by
    intro t ht
    rw [← pow_mul, hw, pow_add, pow_one, pow_mul]
    have := ((hcar t ht).pow k).mul_left t
    rwa [one_pow, Nat.mul_one] at this
  exact (key hr).symm.trans ((heq.pow w).trans (key hr'))

theorem gen_mod (n m : Nat) : (n + 1) ^ m ≡ 1 [MOD n] := by
  have : n + 1 ≡ 1 [MOD n] := by simp [Nat.ModEq]
  have := this.pow m
  rwa [one_pow] at this

/-- Equal ciphertexts come from equal messages and equal blinding numbers. -/
theorem pai_cipher_inj {n l mu : Nat} (hl : 0 < l) (hn : 1 < n) (hcar : Carm n l)
    (h : l * mu ≡ 1 [MOD n]) {m m' r r' : Nat} (hr : Nat.Coprime r n) (hr' : Nat.Coprime r' n)
    (heq : (n + 1) ^ m * r ^ n ≡ (n + 1) ^ m' * r' ^ n [MOD n * n]) :
    m ≡ m' [MOD n] ∧ r ≡ r' [MOD n] := by
  constructor
  · have val : ∀ {m r : Nat}, Nat.Coprime r n → paiL n l ((n + 1) ^ m * r ^ n) ≡ m * l [MOD n] := by
      intro m r hr
      have h1 := paiL_mul hn hcar (a := (n + 1) ^ m) (b := r ^ n)
        (Nat.Coprime.pow_left _ (coprime_succ n)) (Nat.Coprime.pow_left _ hr)
      exact h1.trans ((paiL_gen hn hcar m).add (paiL_blind hn hcar hr))
    have hq : paiL n l ((n + 1) ^ m * r ^ n) = paiL n l ((n + 1) ^ m' * r' ^ n) := by
      rw [← paiL_mod ((n + 1) ^ m * r ^ n), heq, paiL_mod]
    have h1 : m * l ≡ m' * l [MOD n] := (val hr).symm.trans (hq ▸ val hr')
    have back : ∀ m : Nat, m * l * mu ≡ m [MOD n] := by
      intro m
      have := h.mul_left m
      rwa [Nat.mul_one, ← Nat.mul_assoc] at this
    exact (back m).symm.trans ((h1.mul_right mu).trans (back m'))
  · have h1 := heq.of_dvd (Nat.dvd_mul_right n n)
    have val : ∀ m r : Nat, (n + 1) ^ m * r ^ n ≡ r ^ n [MOD n] := by
      intro m r
      have := (gen_mod n m).mul_right (r ^ n)
      rwa [Nat.one_mul] at this
    exact pai_blind_inj hl hn hcar h hr hr' ((val m r).symm.trans (h1.trans (val m' r')))

theorem pow_n_mod {n a b : Nat} (h : a ≡ b [MOD n]) : a ^ n ≡ b ^ n [MOD n * n] := by
  have h1 : (n : ℤ) ∣ (b : ℤ) - a := (Nat.modEq_iff_dvd).1 h
  have h2 := dvd_sub_pow_of_dvd_sub h1 1
  rw [pow_one] at h2
  refine (Nat.modEq_iff_dvd).2 ?_
  push_cast
  rwa [pow_two] at h2

theorem gen_pow_n (n j : Nat) : (n + 1) ^ (n * j) ≡ 1 [MOD n * n] := by
  have h1 := one_add_pow_mod n 1 (n * j)
  rw [Nat.one_mul, Nat.add_comm 1 n] at h1
  refine h1.trans ?_
  have : 1 + n * j * 1 * n = 1 + n * n * j := by ring
  rw [this]
  exact Nat.ModEq.add_left 1 ((Nat.modEq_zero_iff_dvd (n := n * n)).2 (Nat.dvd_mul_right _ _))

/-- Every number prime with the modulus is a ciphertext. -/
theorem pai_cipher_surj {n l mu : Nat} (hl : 0 < l) (hn : 1 < n) (hcar : Carm n l)
    (h : l * mu ≡ 1 [MOD n]) {c : Nat} (hc : Nat.Coprime c n) :
    ∃ m r, 0 < m ∧ m ≤ n ∧ r < n ∧ Nat.Coprime r n ∧ (n + 1) ^ m * r ^ n ≡ c [MOD n * n] := by
  obtain ⟨w, k, hw⟩ := pai_root hl hn h
  -- the message, between `1` and `n`
  obtain ⟨m, hm0, hmn, hm⟩ : ∃ m, 0 < m ∧ m ≤ n ∧ m ≡ paiL n l c * mu [MOD n] := by
    rcases Nat.eq_zero_or_pos (paiL n l c * mu % n) with h0 | h0
    · exact ⟨n, by omega, Nat.le_refl _, by simp [Nat.ModEq, h0]⟩
    · exact ⟨_, h0, Nat.le_of_lt (Nat.mod_lt _ (by omega)), Nat.mod_modEq _ _⟩
  have hml : m * l ≡ paiL n l c [MOD n] := by
    refine (hm.mul_right l).trans ?_
    have := h.mul_left (paiL n l c)
    rwa [Nat.mul_one, Nat.mul_comm l mu, ← Nat.mul_assoc] at this
  -- what remains when the message is removed
  have hx : Nat.Coprime (c * (n + 1) ^ (n - m)) n :=
    Nat.Coprime.mul_left hc (Nat.Coprime.pow_left _ (coprime_succ n))
  have hL : paiL n l (c * (n + 1) ^ (n - m)) = 0 := by
    have h1 := paiL_mul hn hcar hc (Nat.Coprime.pow_left (n - m) (coprime_succ n))
    have h2 := h1.trans ((hml.symm).add (paiL_gen hn hcar (n - m)))
    rw [← Nat.add_mul, Nat.add_sub_cancel' hmn] at h2
    have h3 := h2.trans ((Nat.modEq_zero_iff_dvd).2 (Nat.dvd_mul_right n l))
    unfold Nat.ModEq at h3
    rwa [Nat.zero_mod, Nat.mod_eq_of_lt (paiL_spec hn hcar hx).1] at h3
  have hxl : (c * (n + 1) ^ (n - m)) ^ l ≡ 1 [MOD n * n] := by
    have h1 := (paiL_spec hn hcar hx).2
    rw [hL, Nat.zero_mul, Nat.add_zero] at h1
    have h2 := Nat.mod_modEq ((c * (n + 1) ^ (n - m)) ^ l) (n * n)
    rw [h1] at h2
    exact h2.symm
  generalize hxe : c * (n + 1) ^ (n - m) = x at *
  refine ⟨m, x ^ w % n, hm0, hmn, Nat.mod_lt _ (by omega), ?_, ?_⟩
  · have : Nat.Coprime (x ^ w) n := Nat.Coprime.pow_left w hx
    unfold Nat.Coprime at this ⊢
    rw [← this, Nat.gcd_comm (x ^ w), Nat.gcd_rec n]
  · have h1 : (x ^ w % n) ^ n ≡ x [MOD n * n] := by
      refine (pow_n_mod (Nat.mod_modEq _ _)).trans ?_
      rw [← pow_mul, Nat.mul_comm w n, hw, pow_add, pow_one, pow_mul]
      have := (hxl.pow k).mul_left x
      rwa [one_pow, Nat.mul_one] at this
    refine (h1.mul_left _).trans ?_
    rw [← hxe, Nat.mul_comm ((n + 1) ^ m), Nat.mul_assoc, ← pow_add, Nat.sub_add_cancel hmn]
    have := (gen_pow_n n 1).mul_left c
    rwa [Nat.mul_one, Nat.mul_one] at this

theorem paillierEncrypt_length {e : BnEnv} {priv : PaillierPrivate} {pub : PaillierPublic} {n l mu : Nat}
    (h : PaiGood e priv pub n l mu) (he : 0 < e.limb) {rng : RandomBytes σ} {fuel : Nat} {s s' : σ}
    {msg c : Bytes} (hm : 0 < beNat msg) (hc : paillierEncrypt e rng fuel pub msg s = .ok c s') :
    c.length = pub.n2.length := by
  unfold paillierEncrypt at hc
  simp only [m_bind_ok] at hc
  obtain ⟨r, s1, _, h2⟩ := hc
  obtain ⟨c', h3, h4, _⟩ := paillierEncryptWith_eq h he (r := r) hm
  have := ofExcept_ok h2
  rw [h3] at this
  injection this with this
  rw [← this, h4]

/-- C102, Paillier: for every key pair that `new_key` returns, two runs of `encrypt` on positive
messages smaller than the modulus return the same ciphertext exactly if the messages are the same
number and the blinding numbers drawn are the same. -/
theorem C102_paillier_unique (e : BnEnv) (he : 0 < e.limb) (hn : e.PrimeOk)
    (rng : RandomBytes σ) (fuel : Nat) (numbits : Int) (s s' : σ) (priv : PaillierPrivate)
    (pub : PaillierPublic) (hk : paillierNewKey e rng fuel numbits s = .ok (priv, pub) s')
    (rng₁ : RandomBytes τ) (fuel₁ fuel₂ : Nat) (hx₁ : ExactLength rng₁) (t₁ t₁' : τ) (m₁ c₁ : Bytes)
    (rng₂ : RandomBytes υ) (hx₂ : ExactLength rng₂) (t₂ t₂' : υ) (m₂ c₂ : Bytes)
    (size : Nat) (hsz : pub.size = size) (h2 : 2 ≤ size)
    (hp₁ : 0 < beNat m₁) (hm₁ : beNat m₁ < beNat pub.n)
    (hp₂ : 0 < beNat m₂) (hm₂ : beNat m₂ < beNat pub.n)
    (h₁ : paillierEncrypt e rng₁ fuel₁ pub m₁ t₁ = .ok c₁ t₁')
    (h₂ : paillierEncrypt e rng₂ fuel₂ pub m₂ t₂ = .ok c₂ t₂') :
    ∃ r₁ r₂, paillierBlind rng₁ (size - 1) (beNat pub.n) t₁ r₁ t₁'
      ∧ paillierBlind rng₂ (size - 1) (beNat pub.n) t₂ r₂ t₂'
      ∧ (c₁ = c₂ ↔ beNat m₁ = beNat m₂ ∧ r₁ = r₂) := by
  obtain ⟨n, l, mu, h⟩ := paillierNewKey_good he hn hk
  have h1 := h.n1
  have hn0 : 0 < beNat pub.n := by rw [h.pubn]; omega
  have hodd : beNat pub.n2 % 2 = 1 := by rw [h.pubn2]; exact h.n2odd
  obtain ⟨r₁, d₁, v₁⟩ := C96_paillier_encrypt e he rng₁ hx₁ fuel₁ pub size hsz h2 m₁ c₁ t₁ t₁' h₁ hp₁ hn0 hodd
  obtain ⟨r₂, d₂, v₂⟩ := C96_paillier_encrypt e he rng₂ hx₂ fuel₂ pub size hsz h2 m₂ c₂ t₂ t₂' h₂ hp₂ hn0 hodd
  refine ⟨r₁, r₂, d₁, d₂, ?_⟩
  have hr₁ := (FirstOf.last d₁).1
  have hr₂ := (FirstOf.last d₂).1
  have hcc : c₁ = c₂ ↔ beNat c₁ = beNat c₂ :=
    ⟨fun h => h ▸ rfl, fun hb => beNat_eq
      ((paillierEncrypt_length h he hp₁ h₁).trans (paillierEncrypt_length h he hp₂ h₂).symm) hb⟩
  rw [hcc, v₁, v₂]
  rw [h.pubn] at hr₁ hr₂ hm₁ hm₂ ⊢
  rw [h.pubn2, h.pubg]
  constructor
  · intro heq
    have hi := pai_cipher_inj h.l0 h1 h.carm h.lmu hr₁.1 hr₂.1 heq
    have ha := hi.1
    have hb := hi.2
    unfold Nat.ModEq at ha hb
    rw [Nat.mod_eq_of_lt hm₁, Nat.mod_eq_of_lt hm₂] at ha
    rw [Nat.mod_eq_of_lt hr₁.2, Nat.mod_eq_of_lt hr₂.2] at hb
    exact ⟨ha, hb⟩
  · rintro ⟨ha, hb⟩
    rw [ha, hb]

/-- C102, Paillier: every string of the length of the ciphertexts that represents a number smaller than
`n²` and prime with `n` is the ciphertext of some message with some blinding number. -/
theorem C102_paillier_every_ciphertext (e : BnEnv) (he : 0 < e.limb) (hn : e.PrimeOk)
    (rng : RandomBytes σ) (fuel : Nat) (numbits : Int) (s s' : σ) (priv : PaillierPrivate)
    (pub : PaillierPublic) (hk : paillierNewKey e rng fuel numbits s = .ok (priv, pub) s')
    (c : Bytes) (hl : c.length = pub.n2.length) (hlt : beNat c < beNat pub.n * beNat pub.n)
    (hc : Nat.Coprime (beNat c) (beNat pub.n)) :
    ∃ m r, beNat r < beNat pub.n ∧ Nat.Coprime (beNat r) (beNat pub.n)
      ∧ paillierEncryptWith e pub r m = .ok c := by
  obtain ⟨n, l, mu, h⟩ := paillierNewKey_good he hn hk
  have hpn := h.pubn
  rw [hpn] at hlt hc ⊢
  obtain ⟨m, r, hm0, hmn, hrn, hrc, hv⟩ := pai_cipher_surj h.l0 h.n1 h.carm h.lmu hc
  have hb : n < 256 ^ pub.n.length := by rw [← hpn]; exact beNat_lt' _
  have em : beNat (natToBE pub.n.length m) = m := beNat_natToBE' (by omega)
  have er : beNat (natToBE pub.n.length r) = r := beNat_natToBE' (by omega)
  obtain ⟨c', h1, h2, h3⟩ := paillierEncryptWith_eq h he (r := natToBE pub.n.length r)
    (msg := natToBE pub.n.length m) (by rw [em]; exact hm0)
  refine ⟨natToBE pub.n.length m, natToBE pub.n.length r, by rw [er]; exact hrn, by rw [er]; exact hrc, ?_⟩
  rw [h1]
  congr 1
  refine beNat_eq (by rw [h2, hl]) ?_
  rw [h3, em, er]
  unfold Nat.ModEq at hv
  rw [hv, Nat.mod_eq_of_lt hlt]

/-! ### Non-vacuity -/

namespace Example

/-- A key of 128 bits; the ciphertext 5. -/
example : ∃ priv pub, rsaNewKey bnEnv numRng 3 none 128 draws = .ok (priv, pub) []
    ∧ ∃ m, m.length = 16 ∧ rsaEncrypt bnEnv pub m = .ok (natToBE 16 5) := by
  obtain ⟨priv, pub, h⟩ := drawnKey
  have hb : (match rsaNewKey bnEnv numRng 3 none 128 draws with
      | .ok k _ => decide (5 < beNat k.2.n)
      | _ => false) = true := by decide +kernel
  rw [h] at hb
  obtain ⟨m, h1, _, h2, _⟩ := C102_rsa_permutation bnEnv (by decide) bnEnv_primeOk _ _ _
    (fun v hv => by cases hv) _ _ _ _ _ h (natToBE 16 5) (by decide) (by
      rw [show beNat (natToBE 16 5) = 5 by decide +kernel]; simpa using hb)
  exact ⟨priv, pub, h, m, h1, h2⟩

/-- The signatures of 2 and 3 give that of 6. -/
example : ∃ priv pub s₁ s₂ t, rsaNewKey bnEnv numRng 3 none 128 draws = .ok (priv, pub) []
    ∧ rsaDecrypt bnEnv priv [2] = .ok s₁ ∧ rsaDecrypt bnEnv priv [3] = .ok s₂
    ∧ beNat t = beNat s₁ * beNat s₂ % beNat pub.n ∧ rsaEncrypt bnEnv pub t = .ok (natToBE 16 6) := by
  obtain ⟨priv, pub, h⟩ := drawnKey
  have hb : (match rsaNewKey bnEnv numRng 3 none 128 draws with
      | .ok k _ => decide (6 < beNat k.2.n ∧ beNat k.2.n < 256 ^ 16)
      | _ => false) = true := by decide +kernel
  rw [h] at hb
  have hb' : 6 < beNat pub.n ∧ beNat pub.n < 256 ^ 16 := by simpa using hb
  obtain ⟨s₁, _, h1, _⟩ := C53_rsa_unwrap_sign bnEnv (by decide) bnEnv_primeOk _ _ _
    (fun v hv => by cases hv) _ _ _ _ _ h [2] (by rw [show beNat [2] = 2 from rfl]; omega)
  obtain ⟨s₂, _, h2, _⟩ := C53_rsa_unwrap_sign bnEnv (by decide) bnEnv_primeOk _ _ _
    (fun v hv => by cases hv) _ _ _ _ _ h [3] (by rw [show beNat [3] = 3 from rfl]; omega)
  have ht : beNat (natToBE 16 (beNat s₁ * beNat s₂ % beNat pub.n)) = beNat s₁ * beNat s₂ % beNat pub.n :=
    beNat_natToBE' (Nat.lt_trans (Nat.mod_lt _ (by omega)) hb'.2)
  refine ⟨priv, pub, s₁, s₂, _, h, h1, h2, ht, ?_⟩
  refine (C102_rsa_forgery bnEnv (by decide) bnEnv_primeOk _ _ _ (fun v hv => by cases hv) _ _ _ _ _ h
    [2] [3] (natToBE 16 6) s₁ s₂ _ h1 h2 ?_ (by decide) (natToBE_length _ _) ht).2
  rw [show beNat (natToBE 16 6) = 6 by decide +kernel, show beNat [2] * beNat [3] = 6 by decide,
    Nat.mod_eq_of_lt hb'.1]

/-- A Paillier key of 128 bits; the ciphertext 5 is that of some message. -/
example : ∃ priv pub, paillierNewKey bnEnv listRng 1 128 rsaRandom = .ok (priv, pub) []
    ∧ ∃ m r, paillierEncryptWith bnEnv pub r m = .ok (natToBE pub.n2.length 5) := by
  obtain ⟨priv, pub, hk, _, hn⟩ := paiKey
  obtain ⟨n, l, mu, h⟩ := paillierNewKey_good (by decide) bnEnv_primeOk hk
  have h5 : 5 < beNat pub.n := by rw [hn]; decide +kernel
  have hlen : beNat (natToBE pub.n2.length 5) = 5 := by
    refine beNat_natToBE' (Nat.lt_of_lt_of_le ?_ (Nat.le_of_lt (beNat_lt' pub.n2)))
    rw [h.pubn2]
    rw [h.pubn] at h5
    exact Nat.lt_of_lt_of_le h5 (Nat.le_mul_of_pos_left _ (by omega))
  obtain ⟨m, r, _, _, h1⟩ := C102_paillier_every_ciphertext bnEnv (by decide) bnEnv_primeOk _ _ _ _ _ _ _ hk
    (natToBE pub.n2.length 5) (natToBE_length _ _)
    (by rw [hlen]; exact Nat.lt_of_lt_of_le h5 (Nat.le_mul_of_pos_left _ (by omega)))
    (by rw [hlen, hn]; decide +kernel)
  exact ⟨priv, pub, hk, m, r, h1⟩

end Example

end Verif
