import Verif.Proof.Des
/-
C43: DES and triple DES conform to FIPS 46-3 and decryption inverts encryption. Also C14 for DES.
-/
namespace Verif

open Spec

theorem Des.new_ok {key : Bytes} (hk : key.length = 8) (de1 : Bool) :
    Des.new de1 key = some (.ok (Des.cookKey key de1)) := by
  have : cRead key (0 : Nat) 8 = some key := by
    rw [cRead_ok (by omega), slice_zero, List.take_of_length_le (by omega)]
  unfold Des.new Des.camlCookKey
  rw [if_pos hk, this]; rfl

theorem Des.cook_ok {key : Bytes} {ofs : Nat} (h : ofs + 8 ≤ key.length) (de1 : Bool) :
    Des.camlCookKey key ofs de1 = some (Des.cookKey ((key.drop ofs).take 8) de1) := by
  unfold Des.camlCookKey
  rw [cRead_ok h]; rfl

/-- C43, DES: `new Block.des_encrypt key` and `new Block.des_decrypt key` succeed on keys of 8 bytes
and the objects compute on blocks the functions of FIPS 46-3. -/
theorem C43_des {key : Bytes} (hk : key.length = 8) :
    ∃ ke kd, Des.new false key = some (.ok ke) ∧ Des.new true key = some (.ok kd)
      ∧ Des.cipher.blocksize = 8
      ∧ PureCipher Des.cipher ke (Spec.Des.encrypt key)
      ∧ PureCipher Des.cipher kd (Spec.Des.decrypt key) := by
  refine ⟨_, _, Des.new_ok hk _, Des.new_ok hk _, rfl, ?_, ?_⟩
  · have := checkedCipher_pure (n := 8) (k := Des.cookKey key false)
      (stub := Des.transform) (stubs := fun _ => []) (wipe := fun k => k.map fun _ => 0)
      (E := Spec.Des.encrypt key) (Es := []) (by decide) (fun b hb => Des.enc_stub hk hb)
      (by simp) (fun b _ => Spec.Des.encrypt_length key b) (by simp)
    exact this
  · have := checkedCipher_pure (n := 8) (k := Des.cookKey key true)
      (stub := Des.transform) (stubs := fun _ => []) (wipe := fun k => k.map fun _ => 0)
      (E := Spec.Des.decrypt key) (Es := []) (by decide) (fun b hb => Des.dec_stub hk hb)
      (by simp) (fun b _ => Spec.Des.decrypt_length key b) (by simp)
    exact this

theorem Des.cipher3_pure {k1 k2 k3 : List W32} (Ea Eb Ec : Bytes → Bytes)
    (h1 : ∀ b : Bytes, b.length = 8 → Des.transform k1 b = some (Ea b))
    (h2 : ∀ b : Bytes, b.length = 8 → Des.transform k2 b = some (Eb b))
    (h3 : ∀ b : Bytes, b.length = 8 → Des.transform k3 b = some (Ec b))
    (l1 : ∀ b, (Ea b).length = 8) (l2 : ∀ b, (Eb b).length = 8) (l3 : ∀ b, (Ec b).length = 8) :
    PureCipher Des.cipher3 ⟨k1, k2, k3⟩ (fun b => Ec (Eb (Ea b))) := by
  have := checkedCipher_pure (n := 8) (k := (⟨k1, k2, k3⟩ : Des.Keys3)) (stub := fun k => Des.transform k.ckey1)
    (stubs := fun k => [Des.transform k.ckey2, Des.transform k.ckey3])
    (wipe := fun k => ⟨k.ckey1.map fun _ => 0, k.ckey2.map fun _ => 0, k.ckey3.map fun _ => 0⟩)
    (E := Ea) (Es := [Eb, Ec]) (by decide) h1
    (by intro b h; simp [h2 b h, h3 b h]) (fun b _ => l1 b) (by simp [l2, l3])
  exact this

/-- C43, triple DES, with keys of 16 or 24 bytes. -/
theorem C43_triple_des {key : Bytes} (hk : key.length = 16 ∨ key.length = 24) :
    ∃ ke kd, Des.new3Enc key = some (.ok ke) ∧ Des.new3Dec key = some (.ok kd)
      ∧ Des.cipher3.blocksize = 8
      ∧ PureCipher Des.cipher3 ke (Spec.Des.encrypt3 key)
      ∧ PureCipher Des.cipher3 kd (Spec.Des.decrypt3 key) := by
  have h1 : (key.take 8).length = 8 := by rw [List.length_take]; omega
  have h2 : ((key.drop 8).take 8).length = 8 := by rw [List.length_take, List.length_drop]; omega
  have he := fun ka kb kc (ha : ka.length = 8) (hb : kb.length = 8) (hc : kc.length = 8) =>
    Des.cipher3_pure (Spec.Des.encrypt ka) (Spec.Des.decrypt kb) (Spec.Des.encrypt kc)
      (fun _ h => Des.enc_stub ha h) (fun _ h => Des.dec_stub hb h) (fun _ h => Des.enc_stub hc h)
      (Spec.Des.encrypt_length _) (Spec.Des.decrypt_length _) (Spec.Des.encrypt_length _)
  have hd := fun ka kb kc (ha : ka.length = 8) (hb : kb.length = 8) (hc : kc.length = 8) =>
    Des.cipher3_pure (Spec.Des.decrypt ka) (Spec.Des.encrypt kb) (Spec.Des.decrypt kc)
      (fun _ h => Des.dec_stub ha h) (fun _ h => Des.enc_stub hb h) (fun _ h => Des.dec_stub hc h)
      (Spec.Des.decrypt_length _) (Spec.Des.encrypt_length _) (Spec.Des.decrypt_length _)
  have c0 := fun d => Des.cook_ok (key := key) (ofs := 0) (by omega) d
  have c8 := fun d => Des.cook_ok (key := key) (ofs := 8) (by omega) d
  simp only [List.drop_zero] at c0
  by_cases h24 : key.length = 24
  · have c16 := fun d => Des.cook_ok (key := key) (ofs := 16) (by omega) d
    have h3 : (key.drop 16).length = 8 := by rw [List.length_drop]; omega
    have h3' : (key.drop 16).take 8 = key.drop 16 := List.take_of_length_le (by omega)
    refine ⟨⟨Des.cookKey (key.take 8) false, Des.cookKey ((key.drop 8).take 8) true,
        Des.cookKey (key.drop 16) false⟩,
      ⟨Des.cookKey (key.drop 16) true, Des.cookKey ((key.drop 8).take 8) false,
        Des.cookKey (key.take 8) true⟩,
      ?_, ?_, rfl, ?_, ?_⟩
    · unfold Des.new3Enc
      rw [if_neg (by omega), c0, c8, c16, h3']; simp [h24]
    · unfold Des.new3Dec
      rw [if_neg (by omega), c0, c8, c16, h3']; simp [h24]
    · have := he (key.take 8) ((key.drop 8).take 8) (key.drop 16) h1 h2 h3
      unfold Spec.Des.encrypt3 Spec.Des.bundle
      rw [if_pos h24]
      exact this
    · have := hd (key.drop 16) ((key.drop 8).take 8) (key.take 8) h3 h2 h1
      unfold Spec.Des.decrypt3 Spec.Des.bundle
      rw [if_pos h24]
      exact this
  · refine ⟨⟨Des.cookKey (key.take 8) false, Des.cookKey ((key.drop 8).take 8) true,
        Des.cookKey (key.take 8) false⟩,
      ⟨Des.cookKey (key.take 8) true, Des.cookKey ((key.drop 8).take 8) false,
        Des.cookKey (key.take 8) true⟩,
      ?_, ?_, rfl, ?_, ?_⟩
    · unfold Des.new3Enc
      rw [if_neg (by omega), c0, c8]; simp [h24]
    · unfold Des.new3Dec
      rw [if_neg (by omega), c0, c8]; simp [h24]
    · have := he (key.take 8) ((key.drop 8).take 8) (key.take 8) h1 h2 h1
      unfold Spec.Des.encrypt3 Spec.Des.bundle
      rw [if_neg h24]
      exact this
    · have := hd (key.take 8) ((key.drop 8).take 8) (key.take 8) h1 h2 h1
      unfold Spec.Des.decrypt3 Spec.Des.bundle
      rw [if_neg h24]
      exact this

/-- C43: encryption and decryption are inverse bijections of the 8-byte blocks. -/
theorem C43_inverse (key : Bytes) {b : Bytes} (hb : b.length = 8) :
    (Spec.Des.encrypt key b).length = 8 ∧ (Spec.Des.decrypt key b).length = 8
      ∧ Spec.Des.decrypt key (Spec.Des.encrypt key b) = b
      ∧ Spec.Des.encrypt key (Spec.Des.decrypt key b) = b
      ∧ Spec.Des.decrypt3 key (Spec.Des.encrypt3 key b) = b
      ∧ Spec.Des.encrypt3 key (Spec.Des.decrypt3 key b) = b :=
  ⟨Spec.Des.encrypt_length _ _, Spec.Des.decrypt_length _ _, Spec.Des.decrypt_encrypt _ hb,
    Spec.Des.encrypt_decrypt _ hb, Spec.Des.decrypt3_encrypt3 _ hb, Spec.Des.encrypt3_decrypt3 _ hb⟩

/-- C43: the parity bits of the key (the low bit of each byte) are ignored by the code. -/
theorem C43_parity {key key' : Bytes} (hk : key.length = 8) (hk' : key'.length = 8)
    (h : key.map (fun c : Byte => c >>> 1) = key'.map (fun c : Byte => c >>> 1)) (de1 : Bool) : Des.new de1 key = Des.new de1 key' := by
  have hb : ∀ i, i < 8 → key.getD i 0 >>> 1 = key'.getD i 0 >>> 1 := by
    intro i hi
    rw [Des.getD_lt (by omega), Des.getD_lt (by omega)]
    have := congrArg (fun l => l[i]?) h
    simpa [hk, hk', hi] using this
  have hm : ∀ (a b : Byte) (m : Nat), m < 7 → a >>> 1 = b >>> 1 → a.getMsbD m = b.getMsbD m := by
    intro a b m hm h
    have := congrArg (fun x => x.getLsbD (6 - m)) h
    simp only [BitVec.getLsbD_ushiftRight] at this
    rw [BitVec.getMsbD_eq_getLsbD, BitVec.getMsbD_eq_getLsbD, show 8 - 1 - m = 1 + (6 - m) by omega, this]
  have hp : Spec.Des.permute 56 Spec.Des.PC1 (Spec.Des.ofBytes key)
      = Spec.Des.permute 56 Spec.Des.PC1 (Spec.Des.ofBytes key') := by
    apply Des.eq_of_getMsbD
    intro j hj
    have := (show ∀ j, j < 56 → Spec.Des.PC1.getD j 0 - 1 < 64 ∧ (Spec.Des.PC1.getD j 0 - 1) % 8 < 7 by
      decide +kernel) j hj
    rw [Des.getMsbD_permute hj, Des.getMsbD_permute hj, Des.ofBytes_getMsbD hk this.1,
      Des.ofBytes_getMsbD hk' this.1]
    exact hm _ _ _ this.2 (hb _ (by omega))
  have hcd : ∀ n, Spec.Des.CD (Spec.Des.ofBytes key) n = Spec.Des.CD (Spec.Des.ofBytes key') n := by
    intro n
    induction n with
    | zero => simp only [Spec.Des.CD, hp]
    | succ n ih => simp only [Spec.Des.CD, ih]
  have hks : Des.keysOf key de1 = Des.keysOf key' de1 := by
    unfold Des.keysOf Spec.Des.roundKeys
    have : Spec.Des.roundKey (Spec.Des.ofBytes key) = Spec.Des.roundKey (Spec.Des.ofBytes key') := by
      funext n
      simp only [Spec.Des.roundKey, hcd]
    rw [this]
  rw [Des.new_ok hk, Des.new_ok hk', Des.cookKey_eq hk, Des.cookKey_eq hk', hks]

/-- C14: `Wrong_key_size` exactly on the other sizes. -/
theorem C14_des_key_size (key : Bytes) (de1 : Bool) :
    (Des.new de1 key = some (.error (.error .wrongKeySize)) ↔ key.length ≠ 8)
    ∧ (Des.new3Enc key = some (.error (.error .wrongKeySize)) ↔ ¬ (key.length = 16 ∨ key.length = 24))
    ∧ (Des.new3Dec key = some (.error (.error .wrongKeySize)) ↔ ¬ (key.length = 16 ∨ key.length = 24)) := by
  refine ⟨?_, ?_⟩
  · by_cases h : key.length = 8
    · simp [Des.new_ok h, h]
    · simp [Des.new, h]
  · by_cases h : key.length = 16 ∨ key.length = 24
    · obtain ⟨_, _, h1, h2, _⟩ := C43_triple_des h
      simp [h1, h2, h]
    · have : key.length ≠ 16 ∧ key.length ≠ 24 := by omega
      unfold Des.new3Enc Des.new3Dec
      rw [if_pos this, if_pos this]
      simp [h]

/-- C63: after `wipe` the key schedule is zero and `transform` stays inside of it. -/
theorem C63_des_after_wipe (de1 : Bool) {key : Bytes} (hk : key.length = 8) :
    ∃ k, Des.new de1 key = some (.ok k) ∧ (∀ w ∈ Des.cipher.wipe k, w = 0)
      ∧ ∀ b, Des.transform (Des.cipher.wipe k) b ≠ none := by
  refine ⟨_, Des.new_ok hk de1, ?_, ?_⟩
  · intro w hw
    simp only [Des.cipher, checkedCipher, List.mem_map] at hw
    obtain ⟨_, _, h⟩ := hw
    exact h.symm
  · intro b
    have hl : (Des.cookKey key de1).length = 32 := by
      have := Des.transform_eq hk de1 (b := List.replicate 8 0) rfl
      unfold Des.transform at this
      by_cases h : (Des.cookKey key de1).length < 32
      · rw [if_pos h] at this; cases this
      · have e : ∀ l : List W32, l.length ≤ 32 → (Des.cookey l).length ≤ 32 := by
          have : ∀ n, ∀ l : List W32, l.length ≤ n → (Des.cookey l).length ≤ n := by
            intro n
            induction n using Nat.strongRecOn with
            | _ n ih =>
              intro l hl
              match l, hl with
              | [], _ => simp [Des.cookey]
              | [_], _ => simp [Des.cookey]
              | a :: b :: l, hl =>
                simp only [List.length_cons] at hl
                have := ih (n - 2) (by omega) l (by omega)
                simp only [Des.cookey, Des.cook2, List.length_append, List.length_cons, List.length_nil]
                omega
          exact this 32
        have := e (Des.rawKeys key de1) (by
          rw [Des.rawKeys_eq]; cases de1 <;> simp [List.range, List.range.loop])
        have h' : (Des.cookKey key de1).length ≤ 32 := this
        omega
    unfold Des.transform
    rw [if_neg (by simp only [Des.cipher, checkedCipher, List.length_map]; omega)]
    simp

end Verif

namespace Verif.Example

/-- The validation sets at the end of src/d3des.c. -/
def desKey : Bytes := natToBE 8 0x0123456789abcdef
def desKey3 : Bytes := natToBE 24 0x0123456789abcdeffedcba987654321089abcdef01234567
def desBlock : Bytes := natToBE 8 0x0123456789abcde7

example : Spec.Des.encrypt desKey desBlock = natToBE 8 0xc95744256a5ed31d := by decide +kernel
example : Spec.Des.encrypt3 desKey3 desBlock = natToBE 8 0xde0b7c06ae5e0ed5 := by decide +kernel
example : Spec.Des.encrypt3 (desKey3.take 16) desBlock = natToBE 8 0x7f1d0a77826b8aff := by
  decide +kernel
example := C43_des (key := desKey) rfl
example := C43_triple_des (key := desKey3) (.inr rfl)
/-- Two keys that differ in parity bits only. -/
example : Des.new true desKey = Des.new true (natToBE 8 0x0022446688aaccee) :=
  C43_parity (by decide) (by decide) (by decide) _

end Verif.Example
