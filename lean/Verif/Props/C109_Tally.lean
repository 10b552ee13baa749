import Mathlib.Algebra.BigOperators.Group.List.Basic
import Verif.Spec.Tally
import Verif.Proof.Block
import Verif.Props.C55_C56_Paillier
import Verif.Props.C59_C60_Bignum
/-
C109: sums of any number of numbers encrypted with Paillier's cryptosystem, in any order and any
grouping.
-/
namespace Verif

open Spec

section
variable {e : BnEnv} {priv : PaillierPrivate} {pub : PaillierPublic} {n l mu : Nat}

theorem tally_good (h : PaiGood e priv pub n l mu) (he : 0 < e.limb) (T : Tally) :
    ∀ msgs : List Bytes,
      List.Forall₂ (fun c msg => 0 < beNat msg ∧ EncryptionOf e pub c msg) (ballots T) msgs →
      ∃ c, T.run e pub = .ok c ∧ Nat.Coprime (beNat c) n ∧
        paiL n l (beNat c) ≡ total msgs * l [MOD n] := by
  induction T with
  | ballot c =>
    intro msgs hb
    cases hb with
    | cons h1 h2 =>
      cases h2
      obtain ⟨hm, _, _, _, _, _, hc⟩ := h1
      obtain ⟨a, b⟩ := paillierEncrypt_good h he hm hc
      exact ⟨c, rfl, a, by simpa [total] using b⟩
  | plus a b iha ihb =>
    intro msgs hb
    have h1 := List.forall₂_take (ballots a).length hb
    have h2 := List.forall₂_drop (ballots a).length hb
    rw [ballots, List.take_left] at h1
    rw [ballots, List.drop_left] at h2
    obtain ⟨c1, e1, f1, g1⟩ := iha _ h1
    obtain ⟨c2, e2, f2, g2⟩ := ihb _ h2
    have hm := modMult_ok he (a := c1) (b := c2) h.limb (by rw [h.pubn2]; exact h.n2)
    rw [h.pubn2] at hm
    refine ⟨natToBE pub.n2.length (beNat c1 * beNat c2 % (n * n)), ?_, ?_, ?_⟩
    · simp only [Tally.run, e1, e2]; exact hm.1
    · rw [hm.2]; exact coprime_mod_sq.2 (Nat.Coprime.mul_left f1 f2)
    · rw [hm.2, paiL_mod]
      refine (paiL_mul h.n1 h.carm f1 f2).trans ((g1.add g2).trans ?_)
      rw [← Nat.add_mul]
      have : total (msgs.take (ballots a).length) + total (msgs.drop (ballots a).length) = total msgs := by
        rw [total, total, total, ← List.sum_append, ← List.map_append, List.take_append_drop]
      rw [this]

theorem tally_value (he : 0 < e.limb) (hl : e.limb ∣ pub.n2.length) (h0 : 0 < beNat pub.n2) (T : Tally) :
    ∃ c, T.run e pub = .ok c
      ∧ beNat c ≡ ((ballots T).map beNat).prod [MOD beNat pub.n2]
      ∧ (2 ≤ (ballots T).length → c.length = pub.n2.length ∧ beNat c < beNat pub.n2) := by
  induction T with
  | ballot c => exact ⟨c, rfl, by simp [ballots, Nat.ModEq.refl], by simp [ballots]⟩
  | plus a b iha ihb =>
    obtain ⟨c1, e1, f1, _⟩ := iha
    obtain ⟨c2, e2, f2, _⟩ := ihb
    obtain ⟨r, k1, k2, k3⟩ := C60_mod_mult_partial e he c1 c2 pub.n2 hl h0
    refine ⟨r, by simp only [Tally.run, e1, e2]; exact k1, ?_, fun _ => ⟨k2, by rw [k3]; exact Nat.mod_lt _ h0⟩⟩
    rw [k3, ballots, List.map_append, List.prod_append]
    exact (Nat.mod_modEq _ _).trans (f1.mul f2)

end

/-- C109, decryption, for numbers other than 0: for every key pair that `new_key` can return, the sum
of any number of ciphertexts, each made by `encrypt` with any generator, added in any order and
grouping, decrypts as the sum of the numbers modulo `n`. What is missing: the number 0, which
`encrypt` rejects (`C55_paillier_zero_fails`). -/
theorem C109_tally_partial (e : BnEnv) (he : 0 < e.limb) (hn : e.PrimeOk)
    (rng : RandomBytes σ) (fuel : Nat) (numbits : Int) (s s' : σ) (priv : PaillierPrivate)
    (pub : PaillierPublic) (hk : paillierNewKey e rng fuel numbits s = .ok (priv, pub) s')
    (T : Tally) (msgs : List Bytes)
    (hb : List.Forall₂ (fun c msg => 0 < beNat msg ∧ EncryptionOf e pub c msg) (ballots T) msgs) :
    ∃ c m, T.run e pub = .ok c ∧ paillierDecrypt e priv c = .ok m
      ∧ beNat m = total msgs % beNat pub.n := by
  obtain ⟨n, l, mu, h⟩ := paillierNewKey_good he hn hk
  obtain ⟨c, h1, h2, h3⟩ := tally_good h he T msgs hb
  obtain ⟨m, h4, h5⟩ := paillierDecrypt_good h he h2 h3
  exact ⟨c, m, h1, h4, by rw [h.pubn]; exact h5⟩

/-- C109, order: sums of the same strings, in any two orders and groupings, give the same string,
whatever the strings are; the string has the length of `n2`. -/
theorem C109_tally_order (e : BnEnv) (he : 0 < e.limb) (hn : e.PrimeOk)
    (rng : RandomBytes σ) (fuel : Nat) (numbits : Int) (s s' : σ) (priv : PaillierPrivate)
    (pub : PaillierPublic) (hk : paillierNewKey e rng fuel numbits s = .ok (priv, pub) s')
    (T T' : Tally) (hp : (ballots T).Perm (ballots T')) :
    ∃ c, T.run e pub = .ok c ∧ T'.run e pub = .ok c
      ∧ (2 ≤ (ballots T).length → c.length = pub.n2.length) := by
  obtain ⟨n, l, mu, h⟩ := paillierNewKey_good he hn hk
  have h0 : 0 < beNat pub.n2 := by rw [h.pubn2]; exact h.n2
  obtain ⟨c, a1, a2, a3⟩ := tally_value he h.limb h0 T
  obtain ⟨c', b1, b2, b3⟩ := tally_value he h.limb h0 T'
  have hpos : ∀ T, 1 ≤ (ballots T).length := by
    intro T
    induction T with
    | ballot c => simp [ballots]
    | plus a b iha ihb => simp only [ballots, List.length_append]; omega
  have hc : c = c' := by
    by_cases h2 : 2 ≤ (ballots T).length
    · obtain ⟨l1, k1⟩ := a3 h2
      obtain ⟨l2, k2⟩ := b3 (by rw [← hp.length_eq]; exact h2)
      have hv : beNat c % beNat pub.n2 = beNat c' % beNat pub.n2 := by
        refine (a2.trans ?_).trans b2.symm
        rw [(hp.map beNat).prod_eq]
      rw [Nat.mod_eq_of_lt k1, Nat.mod_eq_of_lt k2] at hv
      rw [← natToBE_beNat c, ← natToBE_beNat c', hv, l1, l2]
    · cases T with
      | plus a b => exact absurd (by have := hpos a; have := hpos b; simp only [ballots, List.length_append]; omega) h2
      | ballot d =>
        cases T' with
        | plus a b =>
          have := hp.length_eq
          have h3 := hpos a
          have h4 := hpos b
          simp only [ballots, List.length_append, List.length_singleton] at this
          omega
        | ballot d' =>
          simp only [ballots, List.singleton_perm_singleton] at hp
          subst hp
          cases a1; cases b1; rfl
  subst hc
  exact ⟨c, a1, b1, fun h2 => (a3 h2).1⟩

/-- Three votes, for 1, 2 and 1: whichever are added first, the sum is the same and decrypts as 4. -/
example : ∃ priv pub c1 c2 c m, paillierNewKey Example.bnEnv Example.listRng 1 128 Example.rsaRandom
      = .ok (priv, pub) []
    ∧ paillierEncrypt Example.bnEnv Example.listRng 1 pub [1] Example.paiRandom = .ok c1 []
    ∧ paillierEncrypt Example.bnEnv Example.listRng 1 pub [2] Example.paiRandom = .ok c2 []
    ∧ (Tally.plus (.plus (.ballot c1) (.ballot c2)) (.ballot c1)).run Example.bnEnv pub = .ok c
    ∧ (Tally.plus (.ballot c2) (.plus (.ballot c1) (.ballot c1))).run Example.bnEnv pub = .ok c
    ∧ paillierDecrypt Example.bnEnv priv c = .ok m ∧ beNat m = 4 := by
  obtain ⟨priv, pub, hk, hs, hn⟩ := Example.paiKey
  obtain ⟨r, hr⟩ := Example.paiGetR hs hn
  have enc := fun msg hm => C55_paillier_encrypt_ok Example.bnEnv (by decide) Example.bnEnv_primeOk
    _ _ _ _ _ _ _ hk Example.listRng 1 msg hm _ _ r hr
  obtain ⟨c1, h1, _⟩ := enc [1] (by decide)
  obtain ⟨c2, h2, _⟩ := enc [2] (by decide)
  have e1 : 0 < beNat [1] ∧ EncryptionOf Example.bnEnv pub c1 [1] := ⟨by decide, _, _, _, _, _, h1⟩
  have e2 : 0 < beNat [2] ∧ EncryptionOf Example.bnEnv pub c2 [2] := ⟨by decide, _, _, _, _, _, h2⟩
  obtain ⟨c, m, k1, k2, k3⟩ := C109_tally_partial Example.bnEnv (by decide) Example.bnEnv_primeOk
    _ _ _ _ _ _ _ hk (.plus (.plus (.ballot c1) (.ballot c2)) (.ballot c1)) [[1], [2], [1]]
    (.cons e1 (.cons e2 (.cons e1 .nil)))
  obtain ⟨d, k4, k5, _⟩ := C109_tally_order Example.bnEnv (by decide) Example.bnEnv_primeOk
    _ _ _ _ _ _ _ hk (.plus (.plus (.ballot c1) (.ballot c2)) (.ballot c1))
    (.plus (.ballot c2) (.plus (.ballot c1) (.ballot c1))) (List.Perm.swap c2 c1 [c1])
  rw [k1] at k4
  cases k4
  refine ⟨priv, pub, c1, c2, c, m, hk, h1, h2, k1, k5, k2, ?_⟩
  rw [k3, hn]
  decide

end Verif
