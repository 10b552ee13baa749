import Verif.Proof.PolyKeys
import Verif.Proof.GhashForgery
import Verif.Props.C34_Gcm
import Verif.Props.C35_ChaPoly
import Verif.Props.C67_Cipher
/-
C75: how many keys accept a modified message.

A string accepted by `auth_check_transform_string` under some key and IV determines few keys under
which a second, different string (or the same string with another header) is also accepted.
-/
namespace Verif

open Spec Cipher

/-- `auth_check_transform_string` returns a text. -/
def Spec.Accepts {τ : Type} (A : AuthTransform τ) (s : Bytes) (t : τ) : Prop :=
  ∃ m, (authCheckTransformString A s t).observe = some (.ok (some m))

/-- The number of 16-byte blocks of a header, plus that of a ciphertext with its tag. -/
def Spec.authBlocks (header s : Bytes) : Nat := (header.length + 15) / 16 + (s.length + 15) / 16

/-! ### ChaCha20-Poly1305 -/

/-- What Poly1305 is applied to. -/
def chapolyAuthData (A C : Bytes) : Bytes :=
  zeroPad16 A ++ zeroPad16 C ++ natToLE 8 A.length ++ natToLE 8 C.length

theorem chapolyAuthData_inj {A C A' C' : Bytes} (hA : A.length < 2 ^ 64) (hC : C.length < 2 ^ 64)
    (hA' : A'.length < 2 ^ 64) (hC' : C'.length < 2 ^ 64)
    (h : chapolyAuthData A C = chapolyAuthData A' C') : A = A' ∧ C = C' := by
  unfold chapolyAuthData at h
  have h1 := List.append_inj' h (by simp)
  have h2 := List.append_inj' h1.1 (by simp)
  have e1 := congrArg leNat h1.2
  have e2 := congrArg leNat h2.2
  rw [leNat_natToLE, leNat_natToLE, Nat.mod_eq_of_lt (by norm_num at hC ⊢; exact hC),
    Nat.mod_eq_of_lt (by norm_num at hC' ⊢; exact hC')] at e1
  rw [leNat_natToLE, leNat_natToLE, Nat.mod_eq_of_lt (by norm_num at hA ⊢; exact hA),
    Nat.mod_eq_of_lt (by norm_num at hA' ⊢; exact hA')] at e2
  have h3 := List.append_inj h2.1 (by rw [zeroPad16_length, zeroPad16_length, e2])
  exact ⟨zeroPad16_inj e2 h3.1, zeroPad16_inj e1 h3.2⟩

theorem chapoly_accepts {env : Env} {key iv header s : Bytes} {t : StreamSt ChaPolySt}
    (hk : key.length = 16 ∨ key.length = 32) (hiv : iv.length = 8 ∨ iv.length = 12)
    (hm : 256 ≤ env.maxLen) (hfit : s.length ≤ env.maxLen)
    (hi : chacha20Poly1305Init env header iv key = .ok t ())
    (h : Accepts (chacha20Poly1305 env iv.length .decrypt) s t) :
    16 ≤ s.length ∧ ChaPoly.tag key iv header (s.take (s.length - 16)) = s.drop (s.length - 16) := by
  obtain ⟨t', h1, h2⟩ := C37_chapoly env hk hiv header s hm hfit
  rw [hi] at h1
  cases h1
  obtain ⟨m, hm⟩ := h
  rw [hm] at h2
  by_cases hl : s.length < 16
  · rw [if_pos hl] at h2; cases h2
  · rw [if_neg hl] at h2
    refine ⟨by omega, ?_⟩
    by_cases ht : ChaPoly.tag key iv header (s.take (s.length - 16)) = s.drop (s.length - 16)
    · exact ht
    · rw [if_neg ht] at h2; cases h2

/-- C75 for ChaCha20-Poly1305: let two different pairs of a header and a ciphertext with its tag be
given. At most 2^25 n one-time Poly1305 keys, `n` being the number of 16-byte blocks of the longer
pair, are such that both are accepted; the set of these keys depends on the two pairs only. -/
theorem C75_chapoly (env : Env) (hm : 256 ≤ env.maxLen) (h62 : env.maxLen ≤ 2 ^ 62)
    (header s header' s' : Bytes) (hh : header.length ≤ env.maxLen) (hs : s.length ≤ env.maxLen)
    (hh' : header'.length ≤ env.maxLen) (hs' : s'.length ≤ env.maxLen)
    (hne : (header, s) ≠ (header', s')) :
    ∃ S : Finset Nat, S.card ≤ 2 ^ 25 * max (authBlocks header s) (authBlocks header' s') ∧
      ∀ key iv, (key.length = 16 ∨ key.length = 32) → (iv.length = 8 ∨ iv.length = 12) →
        ∀ t t', chacha20Poly1305Init env header iv key = .ok t () →
          chacha20Poly1305Init env header' iv key = .ok t' () →
          Accepts (chacha20Poly1305 env iv.length .decrypt) s t →
          Accepts (chacha20Poly1305 env iv.length .decrypt) s' t' →
          leNat (ChaPoly.otk key iv) ∈ S := by
  by_cases hl : 16 ≤ s.length ∧ 16 ≤ s'.length
  · have hpad : ∀ A C : Bytes, ((chapolyAuthData A C).length + 15) / 16
        = (A.length + 15) / 16 + (C.length + 31) / 16 := by
      intro A C
      simp only [chapolyAuthData, List.length_append, zeroPad16_length, natToLE_length]
      omega
    obtain ⟨S, h1, h2⟩ := poly1305_keys (chapolyAuthData header (s.take (s.length - 16)))
      (chapolyAuthData header' (s'.take (s'.length - 16))) (s.drop (s.length - 16))
      (s'.drop (s'.length - 16)) (by rw [List.length_drop]; omega) (by
        intro e
        obtain ⟨e1, e2⟩ := Prod.mk.inj e
        obtain ⟨e3, e4⟩ := chapolyAuthData_inj (by omega) (by rw [List.length_take]; omega) (by omega)
          (by rw [List.length_take]; omega) e1
        refine hne ?_
        rw [e3, ← List.take_append_drop (s.length - 16) s, e4, e2, List.take_append_drop])
    refine ⟨S, h1.trans (le_of_eq ?_), ?_⟩
    · rw [hpad, hpad, List.length_take, List.length_take, authBlocks, authBlocks,
        show (min (s.length - 16) s.length + 31) / 16 = (s.length + 15) / 16 by omega,
        show (min (s'.length - 16) s'.length + 31) / 16 = (s'.length + 15) / 16 by omega]
    · intro key iv hk hiv t t' hi hi' ha ha'
      exact h2 _ (otk_length hk hiv) (chapoly_accepts hk hiv hm hs hi ha).2
        (chapoly_accepts hk hiv hm hs' hi' ha').2
  · refine ⟨∅, by simp, ?_⟩
    intro key iv hk hiv t t' hi hi' ha ha'
    exact absurd ⟨(chapoly_accepts hk hiv hm hs hi ha).1, (chapoly_accepts hk hiv hm hs' hi' ha').1⟩ hl

/-- To compare with: the one-time keys under which one given string is accepted are 2^128 of the
2^256 keys, whatever the string. -/
theorem C75_poly1305_uniform (m t : Bytes) (ht : t.length = 16) :
    ((Finset.range (2 ^ 256)).filter fun k => Poly1305 (natToLE 32 k) m = t).card = 2 ^ 128 :=
  poly1305_count m t ht

/-! ### AES-GCM -/

theorem gcm_accepts {κ : Type} {env : Env} {pclmul : Bool} {aes : BlockCipher κ} {k : κ}
    {E : Bytes → Bytes} {header iv s : Bytes} {t : CipherSt (GcmSt κ)} (h : PureCipher aes k E)
    (hb : aes.blocksize = 16) (hm : 256 ≤ env.maxLen) (hfit : s.length ≤ env.maxLen)
    (hi : aesGcmInit env pclmul aes k header iv = .ok t k)
    (ha : Accepts (aesGcm env aes .decrypt) s t) :
    16 ≤ s.length ∧ GCM.tag E iv header (s.take (s.length - 16)) = s.drop (s.length - 16) := by
  obtain ⟨t', h1, h2⟩ := C37_gcm env pclmul h hb header iv s hm hfit
  rw [hi] at h1
  cases h1
  obtain ⟨m, hm⟩ := ha
  rw [hm] at h2
  by_cases hl : s.length < 16
  · rw [if_pos hl] at h2; cases h2
  · rw [if_neg hl] at h2
    refine ⟨by omega, ?_⟩
    by_cases ht : GCM.tag E iv header (s.take (s.length - 16)) = s.drop (s.length - 16)
    · exact ht
    · rw [if_neg ht] at h2; cases h2

/-- C75 for GCM with any block cipher: two different pairs of a header and a ciphertext with its tag
are both accepted, under the same key and IV, for at most `n` values of the hash subkey CIPH_K(0^128),
of the 2^128 possible ones. -/
theorem C75_gcm (env : Env) (hm : 256 ≤ env.maxLen) (h58 : env.maxLen ≤ 2 ^ 58)
    (header s header' s' : Bytes) (hh : header.length ≤ env.maxLen) (hs : s.length ≤ env.maxLen)
    (hh' : header'.length ≤ env.maxLen) (hs' : s'.length ≤ env.maxLen)
    (hne : (header, s) ≠ (header', s')) :
    ∃ S : Finset (BitVec 128), S.card ≤ max (authBlocks header s) (authBlocks header' s') ∧
      ∀ (κ : Type) (aes : BlockCipher κ) (k : κ) (E : Bytes → Bytes), PureCipher aes k E →
        aes.blocksize = 16 → ∀ (pclmul : Bool) (iv : Bytes) (t t' : CipherSt (GcmSt κ)),
          aesGcmInit env pclmul aes k header iv = .ok t k →
          aesGcmInit env pclmul aes k header' iv = .ok t' k →
          Accepts (aesGcm env aes .decrypt) s t → Accepts (aesGcm env aes .decrypt) s' t' →
          block128 (GCM.subkey E) ∈ S := by
  by_cases hl : 16 ≤ s.length ∧ 16 ≤ s'.length
  · obtain ⟨S, h1, h2⟩ := gcm_tag_difference (A := header) (C := s.take (s.length - 16))
      (A' := header') (C' := s'.take (s'.length - 16)) (t := s.drop (s.length - 16))
      (t' := s'.drop (s'.length - 16)) (by omega) (by rw [List.length_take]; omega) (by omega)
      (by rw [List.length_take]; omega) (by
        intro e
        obtain ⟨e1, e⟩ := Prod.mk.inj e
        obtain ⟨e2, e3⟩ := Prod.mk.inj e
        refine hne ?_
        rw [e1, ← List.take_append_drop (s.length - 16) s, e2, e3, List.take_append_drop])
    refine ⟨S, h1.trans (le_of_eq ?_), ?_⟩
    · rw [List.length_take, List.length_take, authBlocks, authBlocks]
      congr 1 <;> omega
    · intro κ aes k E h hb pclmul iv t t' hi hi' ha ha'
      exact h2 E iv (fun x hx => pure_len h hb hx) (gcm_accepts h hb hm hs hi ha).2
        (gcm_accepts h hb hm hs' hi' ha').2
  · refine ⟨∅, by simp, ?_⟩
    intro κ aes k E h hb pclmul iv t t' hi hi' ha ha'
    exact absurd ⟨(gcm_accepts h hb hm hs hi ha).1, (gcm_accepts h hb hm hs' hi' ha').1⟩ hl

/-- C75 for AES-GCM: AES keys of any of the three sizes, on machines with and without the
instructions for AES and for GHASH. -/
theorem C75_aes_gcm (env : Env) (hm : 256 ≤ env.maxLen) (h58 : env.maxLen ≤ 2 ^ 58)
    (header s header' s' : Bytes) (hh : header.length ≤ env.maxLen) (hs : s.length ≤ env.maxLen)
    (hh' : header'.length ≤ env.maxLen) (hs' : s'.length ≤ env.maxLen)
    (hne : (header, s) ≠ (header', s')) :
    ∃ S : Finset (BitVec 128), S.card ≤ max (authBlocks header s) (authBlocks header' s') ∧
      ∀ (host : AesHost) (key : Bytes), key.length = 16 ∨ key.length = 24 ∨ key.length = 32 →
        ∃ b, aesBlock host .encrypt key = some (.ok b) ∧
          ∀ (pclmul : Bool) (iv : Bytes) t t',
            aesGcmInit env pclmul b.c b.s header iv = .ok t b.s →
            aesGcmInit env pclmul b.c b.s header' iv = .ok t' b.s →
            Accepts (aesGcm env b.c .decrypt) s t → Accepts (aesGcm env b.c .decrypt) s' t' →
            block128 (Spec.Aes.encrypt key (List.replicate 16 0)) ∈ S := by
  obtain ⟨S, h1, h2⟩ := C75_gcm env hm h58 header s header' s' hh hs hh' hs' hne
  refine ⟨S, h1, fun host key hk => ?_⟩
  obtain ⟨b, e1, e2, e3⟩ := aesBlock_enc host hk
  exact ⟨b, e1, fun pclmul iv t t' => h2 _ b.c b.s _ e3 e2 pclmul iv t t'⟩

/-! ### GF(2^128) is a field -/

/-- The multiplication of GHASH has inverses: 1 / a for every block a but the null one. -/
theorem C75_ghash_field (a : BitVec 128) (ha : a ≠ 0) :
    ∃ b, gfMul b a = BitVec.twoPow 128 127 := by
  obtain ⟨b, hb⟩ := GF.inverse (a := ⟨a⟩) (fun h => ha (by
    have := congrArg GF.bits h
    rwa [GF.bits_zero] at this))
  have h := congrArg GF.bits hb
  rw [GF.bits_mul, GF.bits_one] at h
  exact ⟨b.bits, h⟩

namespace Example

/-- Two different messages encrypted under the same key and IV are both accepted: the hypotheses of
`C75_chapoly` are met, and the sets it speaks of are not always empty. -/
theorem chapoly_two : ∃ (s s' : Bytes) (t t' : StreamSt ChaPolySt), s ≠ s' ∧ s.length ≤ 64 ∧ s'.length ≤ 64 ∧
    chacha20Poly1305Init env64 [1, 2] (List.replicate 12 3) (List.replicate 32 7) = .ok t () ∧
    chacha20Poly1305Init env64 [9] (List.replicate 12 3) (List.replicate 32 7) = .ok t' () ∧
    Accepts (chacha20Poly1305 env64 12 .decrypt) s t ∧
    Accepts (chacha20Poly1305 env64 12 .decrypt) s' t' := by
  have go : ∀ header m : Bytes, m.length ≤ 40 → ∃ t s, s.length = m.length + 16 ∧
      chacha20Poly1305Init env64 header (List.replicate 12 3) (List.replicate 32 7) = .ok t ()
      ∧ Accepts (chacha20Poly1305 env64 12 .decrypt) s t := by
    intro header m hm
    let c := ChaPoly.crypt (List.replicate 32 7) (List.replicate 12 3) m
    let g := ChaPoly.tag (List.replicate 32 7) (List.replicate 12 3) header c
    have hc : c.length = m.length := chapoly_crypt_length (key := List.replicate 32 7) (iv := List.replicate 12 3) m
    have hg : g.length = 16 := natToLE_length _ _
    have hl : (c ++ g).length = m.length + 16 := by rw [List.length_append, hc, hg]
    have hx : 256 ≤ env64.maxLen := by decide
    obtain ⟨t, h1, h2⟩ := C37_chapoly env64 (key := List.replicate 32 7) (iv := List.replicate 12 3)
      (.inr (by simp)) (.inr (by simp)) header (c ++ g) hx (by omega)
    refine ⟨t, c ++ g, hl, h1, ?_⟩
    rw [if_neg (by omega), hl, Nat.add_sub_cancel, ← hc, List.take_left, List.drop_left, if_pos rfl] at h2
    rw [List.length_replicate] at h2
    exact ⟨_, h2⟩
  obtain ⟨t, s, hs, h1, h2⟩ := go [1, 2] [5] (by decide)
  obtain ⟨t', s', hs', h1', h2'⟩ := go [9] [5, 6, 7] (by decide)
  refine ⟨s, s', t, t', ?_, ?_, ?_, h1, h1', h2, h2'⟩
  · intro e
    rw [e, hs'] at hs
    simp at hs
  · rw [hs]; decide
  · rw [hs']; decide

end Example

/-- With messages of a gigabyte, the share of the keys is less than 2^-75. -/
example : 2 ^ 75 * (2 ^ 25 * (2 ^ 30 / 16 + 2)) < 2 ^ 128 := by decide

end Verif
