import Verif.Proof.Aes
import Verif.Proof.Aesni
import Verif.Props.C15_C17_Mac
import Verif.Props.C34_Gcm
/-
C41: AES conforms to FIPS 197; C42: the AES-NI code agrees with the code using tables. Also C14 for
AES, AES-CMAC and AES-GCM with AES itself, and what happens if an AES object is used after `wipe`
(C63).
-/
namespace Verif

open Spec

/-- The inverse used in the definition of the S-box is the inverse of the field. -/
theorem C41_spec_inv (b : Byte) (h : b ≠ 0) : Spec.Aes.mul b (Spec.Aes.inv b) = 1 := by
  have := Rijndael.mul_inv_all b.toNat b.isLt (by intro h0; exact h (BitVec.eq_of_toNat_eq (by simpa using h0)))
  simpa using this

/-- C41, encryption: `new Block.aes_encrypt key` succeeds on keys of 16, 24 and 32 bytes and the
object computes on blocks the cipher of FIPS 197, whatever the key schedule contained before. -/
theorem C41_aes_encrypt (junk : List W32) {key : Bytes}
    (hk : key.length = 16 ∨ key.length = 24 ∨ key.length = 32) :
    ∃ k, Aes.encNew junk key = .ok k ∧ Aes.encCipher.blocksize = 16
      ∧ PureCipher Aes.encCipher k (Spec.Aes.encrypt key) :=
  ⟨_, if_pos hk, rfl, Aes.enc_pure junk hk⟩

/-- C41, decryption. -/
theorem C41_aes_decrypt (junk : List W32) {key : Bytes}
    (hk : key.length = 16 ∨ key.length = 24 ∨ key.length = 32) :
    ∃ k, Aes.decNew junk key = .ok k ∧ Aes.decCipher.blocksize = 16
      ∧ PureCipher Aes.decCipher k (Spec.Aes.decrypt key) :=
  ⟨_, if_pos hk, rfl, Aes.dec_pure junk hk⟩

/-- C41: the two functions are inverse bijections of the 16-byte blocks. -/
theorem C41_aes_inverse {key : Bytes}
    (hk : key.length = 16 ∨ key.length = 24 ∨ key.length = 32) {b : Bytes} (hb : b.length = 16) :
    (Spec.Aes.encrypt key b).length = 16 ∧ (Spec.Aes.decrypt key b).length = 16
      ∧ Spec.Aes.decrypt key (Spec.Aes.encrypt key b) = b
      ∧ Spec.Aes.encrypt key (Spec.Aes.decrypt key b) = b :=
  ⟨Spec.Aes.encrypt_length hk b, Spec.Aes.decrypt_length hk b, Spec.Aes.decrypt_encrypt hk hb,
    Spec.Aes.encrypt_decrypt hk hb⟩

/-- C41 on the objects: `transform` of the encryption object then of the decryption object, from one
place of one buffer to another, gives back the block. -/
theorem C41_aes_round_trip (junk junk' : List W32) {key : Bytes}
    (hk : key.length = 16 ∨ key.length = 24 ∨ key.length = 32)
    {src mid dst : Bytes} {so mo dofs : Nat} (h1 : so + 16 ≤ src.length) (h2 : mo + 16 ≤ mid.length)
    (h3 : dofs + 16 ≤ dst.length) :
    ∃ k k' mid', Aes.encNew junk key = .ok k ∧ Aes.decNew junk' key = .ok k'
      ∧ Aes.encCipher.transform (.other src) so mo (k, mid) = .ok () (k, mid')
      ∧ Aes.decCipher.transform (.other mid') mo dofs (k', dst)
        = .ok () (k', splice dst dofs (slice src so 16)) := by
  have hs : (slice src so 16).length = 16 := slice_length_of_le h1
  obtain ⟨e1, e2, e3, e4⟩ := C41_aes_inverse hk hs
  refine ⟨_, _, splice mid mo (Spec.Aes.encrypt key (slice src so 16)), if_pos hk, if_pos hk,
    (Aes.enc_pure junk hk).run (src := .other src) rfl h1 h2, ?_⟩
  have hl : (splice mid mo (Spec.Aes.encrypt key (slice src so 16))).length = mid.length :=
    splice_length (by omega)
  have := (Aes.dec_pure junk' hk).run
    (src := .other (splice mid mo (Spec.Aes.encrypt key (slice src so 16)))) (so := mo)
    (dofs := dofs) (dst := dst) rfl (show mo + 16 ≤ _ by simp only [Src.read_other]; omega) h3
  rw [this]
  show _ = Out.ok () (_, splice dst dofs (slice src so 16))
  have e5 := slice_splice_same' (b := mid) (o := mo) e1 h2
  show Out.ok () (_, splice dst dofs (Spec.Aes.decrypt key (slice (splice mid mo _) mo 16))) = _
  rw [e5, e3]

/-- C14: `Wrong_key_size` exactly on the other sizes, with and without AES-NI. -/
theorem C14_aes_key_size (junk : List W32) (junk' : Bytes) (key pad : Bytes) :
    (Aes.encNew junk key = .error (.error .wrongKeySize)
      ↔ ¬ (key.length = 16 ∨ key.length = 24 ∨ key.length = 32))
    ∧ (Aes.decNew junk key = .error (.error .wrongKeySize)
      ↔ ¬ (key.length = 16 ∨ key.length = 24 ∨ key.length = 32))
    ∧ (Aesni.encNew junk' key pad = some (.error (.error .wrongKeySize))
      ↔ ¬ (key.length = 16 ∨ key.length = 24 ∨ key.length = 32))
    ∧ (Aesni.decNew junk' key pad = some (.error (.error .wrongKeySize))
      ↔ ¬ (key.length = 16 ∨ key.length = 24 ∨ key.length = 32)) := by
  by_cases hk : key.length = 16 ∨ key.length = 24 ∨ key.length = 32
  · obtain ⟨k, h1, _⟩ := Aesni.enc_pure junk' pad hk
    obtain ⟨k', h2, _⟩ := Aesni.dec_pure junk' pad hk
    rw [h1, h2]
    simp [Aes.encNew, Aes.decNew, hk]
  · simp [Aes.encNew, Aes.decNew, Aesni.encNew, Aesni.decNew, hk]

/-- What the caller of `transform` can see: the exception, if any, and the destination buffer;
`none` if memory outside of the arguments is accessed. -/
def seen : Out (σ × Bytes) Unit → Option (Option Exn × Bytes)
  | .ok () (_, d) => some (none, d)
  | .exn e (_, d) => some (some e, d)
  | .ub => none
  | .loop => none

theorem checkedCipher_seen {σ σ' : Type} {n : Nat} {stub : σ → Bytes → Option Bytes} {stubs wipe}
    {stub' : σ' → Bytes → Option Bytes} {stubs' wipe'} {k : σ} {k' : σ'} {E : Bytes → Bytes}
    (h : PureCipher (checkedCipher n stub stubs wipe) k E)
    (h' : PureCipher (checkedCipher n stub' stubs' wipe') k' E)
    (src : Src) (so dofs : Int) (dst : Bytes) :
    seen ((checkedCipher n stub stubs wipe).transform src so dofs (k, dst))
      = seen ((checkedCipher n stub' stubs' wipe').transform src so dofs (k', dst))
    ∧ seen ((checkedCipher n stub stubs wipe).transform src so dofs (k, dst)) ≠ none := by
  by_cases hc : so < 0 ∨ so > ((src.read dst).length : Int) - n
        ∨ dofs < 0 ∨ dofs > (dst.length : Int) - n
  · simp only [checkedCipher, M.bind_def, M.get_def, hc, if_true, M.raise_def, seen]
    simp
  · obtain ⟨so, rfl⟩ := Int.eq_ofNat_of_zero_le (a := so) (by omega)
    obtain ⟨dofs, rfl⟩ := Int.eq_ofNat_of_zero_le (a := dofs) (by omega)
    have e1 := h.run (src := src) (so := so) (dofs := dofs) (dst := dst) rfl
      (show so + n ≤ _ by omega) (show dofs + n ≤ _ by omega)
    have e2 := h'.run (src := src) (so := so) (dofs := dofs) (dst := dst) rfl
      (show so + n ≤ _ by omega) (show dofs + n ≤ _ by omega)
    rw [e1, e2]
    simp [BRes.toOut, seen, checkedCipher]

/-- C42, encryption: for every key the two implementations both fail or both succeed, and then
`transform` has the same visible effect on every source, destination and offsets, including illegal
ones; neither reads outside of its arguments or key schedule. -/
theorem C42_aesni_encrypt (junk : List W32) (junk' pad : Bytes) {key : Bytes}
    (hk : key.length = 16 ∨ key.length = 24 ∨ key.length = 32) :
    ∃ k k', Aes.encNew junk key = .ok k ∧ Aesni.encNew junk' key pad = some (.ok k')
      ∧ ∀ (src : Src) (so dofs : Int) (dst : Bytes),
        seen (Aesni.encCipher.transform src so dofs (k', dst))
          = seen (Aes.encCipher.transform src so dofs (k, dst))
        ∧ seen (Aes.encCipher.transform src so dofs (k, dst)) ≠ none := by
  obtain ⟨k', h1, h2⟩ := Aesni.enc_pure junk' pad hk
  refine ⟨_, k', if_pos hk, h1, fun src so dofs dst => ?_⟩
  have := checkedCipher_seen (Aes.enc_pure junk hk) h2 src so dofs dst
  exact ⟨this.1.symm, this.2⟩

/-- C42, decryption. -/
theorem C42_aesni_decrypt (junk : List W32) (junk' pad : Bytes) {key : Bytes}
    (hk : key.length = 16 ∨ key.length = 24 ∨ key.length = 32) :
    ∃ k k', Aes.decNew junk key = .ok k ∧ Aesni.decNew junk' key pad = some (.ok k')
      ∧ ∀ (src : Src) (so dofs : Int) (dst : Bytes),
        seen (Aesni.decCipher.transform src so dofs (k', dst))
          = seen (Aes.decCipher.transform src so dofs (k, dst))
        ∧ seen (Aes.decCipher.transform src so dofs (k, dst)) ≠ none := by
  obtain ⟨k', h1, h2⟩ := Aesni.dec_pure junk' pad hk
  refine ⟨_, k', if_pos hk, h1, fun src so dofs dst => ?_⟩
  have := checkedCipher_seen (Aes.dec_pure junk hk) h2 src so dofs dst
  exact ⟨this.1.symm, this.2⟩

/-- C42: the AES-NI objects compute FIPS 197. -/
theorem C42_aesni_fips197 (junk pad : Bytes) {key : Bytes}
    (hk : key.length = 16 ∨ key.length = 24 ∨ key.length = 32) :
    (∃ k, Aesni.encNew junk key pad = some (.ok k)
      ∧ PureCipher Aesni.encCipher k (Spec.Aes.encrypt key))
    ∧ ∃ k, Aesni.decNew junk key pad = some (.ok k)
      ∧ PureCipher Aesni.decCipher k (Spec.Aes.decrypt key) :=
  ⟨Aesni.enc_pure junk pad hk, Aesni.dec_pure junk pad hk⟩

/-- C17 with AES: `MAC.aes_cmac`. -/
theorem C17_aes_cmac (junk : List W32) {key : Bytes}
    (hk : key.length = 16 ∨ key.length = 24 ∨ key.length = 32) (env : Env) (iv : Option Bytes)
    (hiv : ∀ v, iv = some v → v.length = 16) :
    ∃ k st, Aes.encNew junk key = .ok k ∧ aesCmacNew env Aes.encCipher k iv = .ok st k
      ∧ (cmac Aes.encCipher).Computes st
          (Spec.CMAC (Spec.Aes.encrypt key) (iv.getD (List.replicate 16 0))) := by
  obtain ⟨st, h⟩ := C17_cmac (Aes.enc_pure junk hk) rfl env iv hiv
  exact ⟨_, st, if_pos hk, h⟩

/-- C34 with AES: `AEAD.aes_gcm`, encryption. -/
theorem C34_aes_gcm_encrypt (env : Env) (pclmul : Bool) (junk : List W32) {key : Bytes}
    (hk : key.length = 16 ∨ key.length = 24 ∨ key.length = 32)
    (header iv : Bytes) (ops : List TOp) (hops : ∀ op ∈ ops, op.Legal)
    (hm : 256 ≤ env.maxLen) (hfit : (inputOf ops).length ≤ env.maxLen) :
    ∃ k t, Aes.encNew junk key = .ok k
      ∧ aesGcmInit env pclmul Aes.encCipher k header iv = .ok t k
      ∧ ((aesGcm env Aes.encCipher .encrypt).total ops t).observe
        = some (if (inputOf ops).length ≤ GCM.maxPlaintext then
            .ok (GCM.crypt (Spec.Aes.encrypt key) iv (inputOf ops),
              GCM.tag (Spec.Aes.encrypt key) iv header
                (GCM.crypt (Spec.Aes.encrypt key) iv (inputOf ops)))
          else .error (.error .messageTooLong)) := by
  obtain ⟨t, h⟩ := C34_gcm_encrypt env pclmul (Aes.enc_pure junk hk) rfl header iv ops hops hm hfit
  exact ⟨_, t, if_pos hk, h⟩

/-- C34 with AES: `AEAD.aes_gcm`, decryption. -/
theorem C34_aes_gcm_decrypt (env : Env) (pclmul : Bool) (junk : List W32) {key : Bytes}
    (hk : key.length = 16 ∨ key.length = 24 ∨ key.length = 32)
    (header iv : Bytes) (ops : List TOp) (hops : ∀ op ∈ ops, op.Legal)
    (hm : 256 ≤ env.maxLen) (hfit : (inputOf ops).length ≤ env.maxLen) :
    ∃ k t, Aes.encNew junk key = .ok k
      ∧ aesGcmInit env pclmul Aes.encCipher k header iv = .ok t k
      ∧ ((aesGcm env Aes.encCipher .decrypt).total ops t).observe
        = some (.ok (GCM.crypt (Spec.Aes.encrypt key) iv (inputOf ops),
            GCM.tag (Spec.Aes.encrypt key) iv header (inputOf ops))) := by
  obtain ⟨t, h⟩ := C34_gcm_decrypt env pclmul (Aes.enc_pure junk hk) rfl header iv ops hops hm hfit
  exact ⟨_, t, if_pos hk, h⟩

/-- C36 with AES, for both implementations of GHASH. -/
theorem C36_aes_gcm_roundtrip (env : Env) (pclmul pclmul' : Bool) (junk : List W32)
    {key : Bytes} (hk : key.length = 16 ∨ key.length = 24 ∨ key.length = 32)
    (header iv m : Bytes) (hm : m.length ≤ GCM.maxPlaintext)
    (hfit : m.length + 16 ≤ env.maxLen) (h256 : 256 ≤ env.maxLen) :
    ∃ k t t' c t1, Aes.encNew junk key = .ok k
      ∧ aesGcmInit env pclmul Aes.encCipher k header iv = .ok t k
      ∧ authTransformString (aesGcm env Aes.encCipher .encrypt) m t = .ok c t1
      ∧ aesGcmInit env pclmul' Aes.encCipher k header iv = .ok t' k
      ∧ (authCheckTransformString (aesGcm env Aes.encCipher .decrypt) c t').observe
        = some (.ok (some m)) := by
  obtain ⟨t, t', c, t1, h⟩ := C36_gcm_roundtrip env pclmul pclmul' (Aes.enc_pure junk hk) rfl
    header iv m hm hfit h256
  exact ⟨_, t, t', c, t1, if_pos hk, h⟩

/-! ### Use after wipe -/

/-- `wipe` zeroes the key schedule. -/
theorem C63_aes_wipe_zero (k : Aes.CKey) : ∀ w ∈ (Aes.encCipher.wipe k).sched, w = 0 := by
  intro w hw
  simp only [Aes.encCipher, checkedCipher, Aes.wipeKey, List.mem_map] at hw
  obtain ⟨_, _, h⟩ := hw
  exact h.symm

/-- The property C63 does not hold of the AES classes: `wipe` sets the number of rounds to 16
(`'\016'` is decimal in OCaml), more than the 14 that the key schedule has room for, so that any
`transform` with legal arguments after `wipe` reads outside of the key schedule. -/
theorem C63_aes_encrypt_after_wipe_out_of_bounds (junk : List W32) (hj : junk.length = 60)
    {key : Bytes} (hk : key.length = 16 ∨ key.length = 24 ∨ key.length = 32)
    {src : Src} {so dofs : Nat} {dst : Bytes} (h1 : so + 16 ≤ (src.read dst).length)
    (h2 : dofs + 16 ≤ dst.length) :
    ∃ k, Aes.encNew junk key = .ok k
      ∧ Aes.encCipher.transform src so dofs (Aes.encCipher.wipe k, dst) = .ub := by
  refine ⟨_, if_pos hk, ?_⟩
  have e1 : (Aes.cookEnc junk key).sched = (Rijndael.keySetupEnc key (8 * key.length)).1
      ++ junk.drop (Rijndael.keySetupEnc key (8 * key.length)).1.length := rfl
  obtain ⟨g1, g2⟩ := Rijndael.keySetupEnc_eq hk
  have hl := Rijndael.keyExpansion_length hk
  have hlen : (Rijndael.keySetupEnc key (8 * key.length)).1.length
      = 4 * (Spec.Aes.rounds (key.length / 4) + 1) := by rw [← hl, ← g1]; simp
  have hr : Spec.Aes.rounds (key.length / 4) ≤ 14 := by
    unfold Spec.Aes.rounds
    rcases hk with h | h | h <;> rw [h] <;> decide
  have h60 : (Aes.cookEnc junk key).sched.length = 60 := by
    rw [e1, List.length_append, List.length_drop, hlen]; omega
  have hnone : ∀ b, Rijndael.encrypt (Aes.wipeKey (Aes.cookEnc junk key)).sched
      (Aes.wipeKey (Aes.cookEnc junk key)).nr.toNat b = none := by
    intro b
    unfold Rijndael.encrypt
    rw [if_pos]
    simp only [Aes.wipeKey, List.length_map, h60]
    decide
  simp only [Aes.encCipher, checkedCipher, M.bind_def, M.get_def]
  rw [if_neg (by omega)]
  simp only [stubCall, M.bind_def, M.get_def, cRead_ok h1, M.orUB_some, hnone]
  rfl

end Verif

namespace Verif.Example

/-- The key and block of FIPS 197 appendix B. -/
def aesKey : Bytes := [0x2b, 0x7e, 0x15, 0x16, 0x28, 0xae, 0xd2, 0xa6, 0xab, 0xf7, 0x15, 0x88, 0x09,
  0xcf, 0x4f, 0x3c]
def aesBlock : Bytes := [0x32, 0x43, 0xf6, 0xa8, 0x88, 0x5a, 0x30, 0x8d, 0x31, 0x31, 0x98, 0xa2,
  0xe0, 0x37, 0x07, 0x34]
def aesResult : Bytes := [0x39, 0x25, 0x84, 0x1d, 0x02, 0xdc, 0x09, 0xfb, 0xdc, 0x11, 0x85, 0x97,
  0x19, 0x6a, 0x0b, 0x32]

/-- The specification gives the value in the standard. -/
example : Spec.Aes.encrypt aesKey aesBlock = aesResult := by decide +kernel

/-- The hypotheses of C41 hold of this key. -/
example : ∃ k, Aes.encNew [] aesKey = .ok k ∧ Aes.encCipher.transform (.other aesBlock) 0 0
    (k, List.replicate 16 0) = .ok () (k, aesResult) := by
  obtain ⟨k, h1, _, h2⟩ := C41_aes_encrypt [] (key := aesKey) (.inl rfl)
  refine ⟨k, h1, ?_⟩
  have := h2.run (src := .other aesBlock) (so := 0) (dofs := 0) (dst := List.replicate 16 0) rfl
    (by decide) (by decide)
  refine Eq.trans this ?_
  have e : Spec.Aes.encrypt aesKey (slice aesBlock 0 16) = aesResult := by decide +kernel
  show Out.ok () (k, splice (List.replicate 16 0) 0 (Spec.Aes.encrypt aesKey (slice aesBlock 0 16))) = _
  rw [e]
  rfl

/-- Using the object after `wipe`. -/
example : ∃ k, Aes.encNew (List.replicate 60 0) aesKey = .ok k ∧ Aes.encCipher.transform
    (.other aesBlock) 0 0 (Aes.encCipher.wipe k, List.replicate 16 0) = .ub := by
  exact_mod_cast C63_aes_encrypt_after_wipe_out_of_bounds (List.replicate 60 0) rfl (key := aesKey)
    (.inl rfl) (src := .other aesBlock) (so := 0) (dofs := 0) (dst := List.replicate 16 0)
    (by decide) (by decide)

/-- AES-GCM with this key. -/
example := C36_aes_gcm_roundtrip env64 true false [] (key := aesKey) (.inl rfl) [1, 2] [9, 9, 9]
  (List.replicate 35 7) (by decide) (by decide) (by decide)

end Verif.Example
