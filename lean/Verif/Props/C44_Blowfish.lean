import Verif.Proof.Blowfish
/-
C44: Blowfish conforms to its published description, with the digits of pi as constants, and
decryption inverts encryption. Also C14 and C63 for Blowfish.
-/
namespace Verif

open Spec

theorem Blowfish.new_ok {key : Bytes} (hk : 4 ≤ key.length ∧ key.length ≤ 56) :
    Blowfish.new key = .ok (Blowfish.init key) := if_pos hk

/-- C44: on keys of 4 to 56 bytes `new Block.blowfish_encrypt key` and `new Block.blowfish_decrypt key`
succeed and the objects compute the Blowfish permutation and its inverse. -/
theorem C44_blowfish {key : Bytes} (hk : 4 ≤ key.length ∧ key.length ≤ 56) :
    ∃ k, Blowfish.new key = .ok k
      ∧ Blowfish.cipherEnc.blocksize = 8 ∧ Blowfish.cipherDec.blocksize = 8
      ∧ PureCipher Blowfish.cipherEnc k (Spec.Blowfish.encrypt key)
      ∧ PureCipher Blowfish.cipherDec k (Spec.Blowfish.decrypt key) := by
  have hp : 0 < key.length := by omega
  refine ⟨Blowfish.init key, Blowfish.new_ok hk, rfl, rfl, ?_, ?_⟩
  · have := checkedCipher_pure (n := 8) (k := Blowfish.init key) (stub := Blowfish.encryptStub)
      (stubs := fun _ => []) (wipe := Blowfish.wipe) (E := Spec.Blowfish.encrypt key) (Es := [])
      (by decide) (fun b hb => Blowfish.enc_stub hp hb) (by simp)
      (fun b _ => Spec.Blowfish.encrypt_length key b) (by simp)
    exact this
  · have := checkedCipher_pure (n := 8) (k := Blowfish.init key) (stub := Blowfish.decryptStub)
      (stubs := fun _ => []) (wipe := Blowfish.wipe) (E := Spec.Blowfish.decrypt key) (Es := [])
      (by decide) (fun b hb => Blowfish.dec_stub hp hb) (by simp)
      (fun b _ => Spec.Blowfish.decrypt_length key b) (by simp)
    exact this

/-- C44: encryption and decryption are inverse bijections of the 8-byte blocks. -/
theorem C44_inverse {key : Bytes} (hk : 0 < key.length) {b : Bytes} (hb : b.length = 8) :
    (Spec.Blowfish.encrypt key b).length = 8 ∧ (Spec.Blowfish.decrypt key b).length = 8
      ∧ Spec.Blowfish.decrypt key (Spec.Blowfish.encrypt key b) = b
      ∧ Spec.Blowfish.encrypt key (Spec.Blowfish.decrypt key b) = b :=
  ⟨Spec.Blowfish.encrypt_length _ _, Spec.Blowfish.decrypt_length _ _,
    Spec.Blowfish.decrypt_encrypt hk hb, Spec.Blowfish.encrypt_decrypt hk hb⟩

/-- C14: `Wrong_key_size` exactly outside of 4 to 56 bytes. -/
theorem C14_blowfish_key_size (key : Bytes) :
    Blowfish.new key = .error (.error .wrongKeySize) ↔ ¬ (4 ≤ key.length ∧ key.length ≤ 56) := by
  by_cases h : 4 ≤ key.length ∧ key.length ≤ 56
  · rw [Blowfish.new_ok h]; simp [h]
  · unfold Blowfish.new
    rw [if_neg h]
    simp [h]

/-- C63: after `wipe` every word of the key schedule is zero, and the arrays still have their
sizes. -/
theorem C63_blowfish_after_wipe {key : Bytes} (hk : 4 ≤ key.length ∧ key.length ≤ 56) :
    ∃ k, Blowfish.new key = .ok k
      ∧ (∀ w ∈ (Blowfish.cipherEnc.wipe k).P, w = 0)
      ∧ (∀ s ∈ (Blowfish.cipherEnc.wipe k).S, ∀ w ∈ s, w = 0)
      ∧ (Blowfish.cipherEnc.wipe k).P.length = 18
      ∧ (Blowfish.cipherEnc.wipe k).S.map List.length = [256, 256, 256, 256] := by
  refine ⟨Blowfish.init key, Blowfish.new_ok hk, ?_⟩
  obtain ⟨s0, s1, s2, s3, h⟩ := Blowfish.init_holds (key := key) (by omega)
  have e : Blowfish.cipherEnc.wipe (Blowfish.init key) = Blowfish.wipe (Blowfish.init key) := rfl
  rw [e]
  unfold Blowfish.wipe
  obtain ⟨hP, hS, h0, h1, h2, h3, -⟩ := h
  generalize Blowfish.init key = c at *
  refine ⟨by simp, by simp, by simpa using hP, ?_⟩
  rw [hS]
  simp only [List.map_cons, List.map_nil, List.length_map, h0, h1, h2, h3]

end Verif

namespace Verif.Example

/-- The first step of the key schedule of an all-zero key. (The evaluation of the whole schedule with
`#eval` gives the published ciphertext 4ef997456198dd78 for an all-zero key and block of 8 bytes; in
the kernel it takes two minutes.) -/
example : Blowfish.xorKey (natToBE 8 0) Blowfish.ORIG_P 0 = Blowfish.ORIG_P
    ∧ Blowfish.encryptWords ⟨Blowfish.ORIG_P, Blowfish.ORIG_S⟩ (0, 0) = (0x706d9fcc#32, 0x1792d23a#32) := by
  decide +kernel
example := C44_blowfish (key := natToBE 8 0x0123456789abcdef) (by simp [natToBE_length])

end Verif.Example
