import Verif.Proof.AesSpec
import Verif.Proof.Checked
/-
The AES classes compute AES (code with tables).
-/
namespace Verif.Rijndael
open Spec.Aes (rounds keyExpansion roundKey foldl_range_congr)

theorem encrypt_of_keys {key : Bytes} (hk : KeySize key) {rk : List W32} {nr : Nat}
    (hnr : nr = rounds (key.length / 4)) (hl : 4 * (nr + 1) ≤ rk.length)
    (hkeys : ∀ r ≤ nr, keyAt (fun i => rk.getD i 0) (4 * r) = roundKey (keyExpansion key) r)
    {b : Bytes} (hb : b.length = 16) :
    encrypt rk nr b = some (Spec.Aes.encrypt key b) := by
  have hnr' : nr = 10 ∨ nr = 12 ∨ nr = 14 := by
    rw [hnr]; unfold rounds
    rcases hk with h | h | h <;> omega
  unfold encrypt
  rw [if_neg (by omega)]
  obtain ⟨l1, l2⟩ := loop_eq (f := fun s b => Spec.Aes.encRound s (keyAt (fun i => rk.getD i 0) b))
    (encRound_eq fun i => rk.getD i 0) (nr / 2) 0
    (start (fun i => rk.getD i 0) b) (by omega)
  simp only
  rw [encLast_eq (fun i => rk.getD i 0), l1, start_eq _ hb, l2, show 0 + 8 * (nr / 2) = 4 * nr by omega, hkeys nr (Nat.le_refl _)]
  have h0 := hkeys 0 (by omega)
  rw [Nat.mul_zero] at h0
  rw [h0]
  unfold Spec.Aes.encrypt
  rw [← hnr, show 2 * (nr / 2) - 1 = nr - 1 by omega]
  congr 2
  apply foldl_range_congr
  intro s i hi
  rw [Nat.zero_add, hkeys (i + 1) (by omega)]

theorem decrypt_of_keys {key : Bytes} (hk : KeySize key) {rk : List W32} {nr : Nat}
    (hnr : nr = rounds (key.length / 4)) (hl : 4 * (nr + 1) ≤ rk.length)
    (hkeys : ∀ r ≤ nr, keyAt (fun i => rk.getD i 0) (4 * r) =
      if r = 0 ∨ r = nr then roundKey (keyExpansion key) (nr - r)
      else Spec.Aes.invMixColumns (roundKey (keyExpansion key) (nr - r)))
    {b : Bytes} (hb : b.length = 16) :
    decrypt rk nr b = some (Spec.Aes.decrypt key b) := by
  have hnr' : nr = 10 ∨ nr = 12 ∨ nr = 14 := by
    rw [hnr]; unfold rounds
    rcases hk with h | h | h <;> omega
  unfold decrypt
  rw [if_neg (by omega)]
  obtain ⟨l1, l2⟩ := loop_eq (f := fun s b => xorb (Spec.Aes.invMixColumns (Spec.Aes.invSubBytes
    (Spec.Aes.invShiftRows s))) (keyAt (fun i => rk.getD i 0) b)) (decRound_eq fun i => rk.getD i 0) (nr / 2) 0
    (start (fun i => rk.getD i 0) b) (by omega)
  simp only
  rw [decLast_eq (fun i => rk.getD i 0), l1, start_eq _ hb, l2, show 0 + 8 * (nr / 2) = 4 * nr by omega, hkeys nr (Nat.le_refl _),
    if_pos (Or.inr rfl), Nat.sub_self]
  have h0 := hkeys 0 (by omega)
  rw [Nat.mul_zero, if_pos (Or.inl rfl), Nat.sub_zero] at h0
  rw [h0]
  unfold Spec.Aes.decrypt
  rw [← hnr, show 2 * (nr / 2) - 1 = nr - 1 by omega]
  congr 2
  apply foldl_range_congr
  intro s i hi
  rw [Nat.zero_add, hkeys (i + 1) (by omega), if_neg (by omega)]
  unfold Spec.Aes.decRound
  rw [show nr - (i + 1) = nr - 1 - i by omega]
  exact (Spec.Aes.invMixColumns_xor (Spec.Aes.invShiftSub_length s)
    (Spec.Aes.roundKey_keyExpansion hk (by omega))).symm

end Verif.Rijndael

namespace Verif.Aes
open Rijndael (KeySize)
open Spec.Aes (rounds)

theorem nr_toNat {key : Bytes} (hk : KeySize key) :
    (BitVec.ofNat 8 (rounds (key.length / 4))).toNat = rounds (key.length / 4) := by
  rw [BitVec.toNat_ofNat]
  unfold rounds
  rcases hk with h | h | h <;> rw [h]

theorem enc_stub (junk : List W32) {key : Bytes} (hk : KeySize key) {b : Bytes}
    (hb : b.length = 16) :
    Rijndael.encrypt (cookEnc junk key).sched (cookEnc junk key).nr.toNat b
      = some (Spec.Aes.encrypt key b) := by
  obtain ⟨h1, h2⟩ := Rijndael.keySetupEnc_eq hk
  have hl := Rijndael.keyExpansion_length hk
  have e1 : (cookEnc junk key).sched = (Rijndael.keySetupEnc key (8 * key.length)).1
      ++ junk.drop (Rijndael.keySetupEnc key (8 * key.length)).1.length := rfl
  have e2 : (cookEnc junk key).nr = BitVec.ofNat 8 (Rijndael.keySetupEnc key (8 * key.length)).2 :=
    rfl
  have hlen : (Rijndael.keySetupEnc key (8 * key.length)).1.length
      = 4 * (rounds (key.length / 4) + 1) := by rw [← hl, ← h1]; simp
  rw [e1, e2, h2, nr_toNat hk]
  refine Rijndael.encrypt_of_keys hk rfl (by rw [List.length_append]; omega) ?_ hb
  intro r hr
  exact Rijndael.keyAt_roundKey h1 (by omega) _

theorem dec_stub (junk : List W32) {key : Bytes} (hk : KeySize key) {b : Bytes}
    (hb : b.length = 16) :
    Rijndael.decrypt (cookDec junk key).sched (cookDec junk key).nr.toNat b
      = some (Spec.Aes.decrypt key b) := by
  have e1 : (cookDec junk key).sched = (Rijndael.keySetupDec key (8 * key.length)).1
      ++ junk.drop (Rijndael.keySetupDec key (8 * key.length)).1.length := rfl
  have e2 : (cookDec junk key).nr = BitVec.ofNat 8 (Rijndael.keySetupDec key (8 * key.length)).2 :=
    rfl
  obtain ⟨h1, h2, h3⟩ := Rijndael.keySetupDec_eq hk
    (junk.drop (Rijndael.keySetupDec key (8 * key.length)).1.length)
  rw [e1, e2, h1, nr_toNat hk]
  exact Rijndael.decrypt_of_keys hk rfl (by rw [List.length_append]; omega) h3 hb

theorem enc_pure (junk : List W32) {key : Bytes} (hk : KeySize key) :
    PureCipher encCipher (cookEnc junk key) (Spec.Aes.encrypt key) := by
  have := checkedCipher_pure (n := 16) (k := cookEnc junk key)
    (stub := fun k => Rijndael.encrypt k.sched k.nr.toNat) (stubs := fun _ => []) (wipe := wipeKey)
    (E := Spec.Aes.encrypt key) (Es := []) (by decide) (fun b hb => enc_stub junk hk hb)
    (by simp) (fun b _ => Spec.Aes.encrypt_length hk b) (by simp)
  exact this

theorem dec_pure (junk : List W32) {key : Bytes} (hk : KeySize key) :
    PureCipher decCipher (cookDec junk key) (Spec.Aes.decrypt key) := by
  have := checkedCipher_pure (n := 16) (k := cookDec junk key)
    (stub := fun k => Rijndael.decrypt k.sched k.nr.toNat) (stubs := fun _ => []) (wipe := wipeKey)
    (E := Spec.Aes.decrypt key) (Es := []) (by decide) (fun b hb => dec_stub junk hk hb)
    (by simp) (fun b _ => Spec.Aes.decrypt_length hk b) (by simp)
  exact this

end Verif.Aes
