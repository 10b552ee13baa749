import Verif.Props.C67_Cipher
import Verif.Props.C14_Entries
/-
C90: the parity bits of DES keys are ignored; a key of 16 bytes stands for `k1 k2 k1`; triple DES with
two equal keys is DES.
-/
namespace Verif

open Spec Cipher

/-- The two keys differ at most in the least significant bits of their bytes. -/
def Spec.SameDesKey (k k' : Bytes) : Prop := k.map (fun b : Byte => b >>> 1) = k'.map (fun b : Byte => b >>> 1)

theorem Spec.SameDesKey.length {k k' : Bytes} (h : SameDesKey k k') : k.length = k'.length := by
  simpa using congrArg List.length h

theorem Spec.SameDesKey.slice {k k' : Bytes} (h : SameDesKey k k') (ofs len : Nat) :
    SameDesKey (Verif.slice k ofs len) (Verif.slice k' ofs len) := by
  have := congrArg (fun l => (l.drop ofs).take len) h
  simp only [SameDesKey, Verif.slice, List.map_take, List.map_drop] at this ⊢
  exact this

theorem mask_of_shift {a b m : Byte} (h : a >>> 1 = b >>> 1) (hm : m.getLsbD 0 = false) :
    a &&& m = b &&& m := by
  apply BitVec.eq_of_getLsbD_eq
  intro i hi
  rw [BitVec.getLsbD_and, BitVec.getLsbD_and]
  cases i with
  | zero => rw [hm, Bool.and_false, Bool.and_false]
  | succ i =>
    have := congrArg (fun x => x.getLsbD i) h
    simp only [BitVec.getLsbD_ushiftRight] at this
    rw [Nat.add_comm] at this
    rw [this]

theorem Des.pc1m_same {k k' : Bytes} (h : SameDesKey k k') : Des.pc1m k = Des.pc1m k' := by
  unfold Des.pc1m
  refine List.map_congr_left fun j hj => ?_
  have hm : ∀ j ∈ List.range 56, (Des.bytebit.getD (Des.pc1.getD j 0 &&& 7) 0).getLsbD 0 = false := by
    decide +kernel
  have hb : ∀ i, k.getD i 0 >>> 1 = k'.getD i 0 >>> 1 := by
    intro i
    have h := congrArg (fun l => l[i]?.getD 0) h
    simp only [List.getElem?_map] at h
    rw [List.getD_eq_getElem?_getD, List.getD_eq_getElem?_getD]
    cases h1 : k[i]? <;> cases h2 : k'[i]? <;> rw [h1, h2] at h <;> simpa using h
  simp only
  rw [mask_of_shift (hb _) (hm j hj)]

theorem Des.cook_same {k k' : Bytes} (h : SameDesKey k k') (ofs : Nat) (de1 : Bool) :
    Des.camlCookKey k ofs de1 = Des.camlCookKey k' ofs de1 := by
  have hc : ∀ {a b : Bytes}, SameDesKey a b → Des.cookKey a de1 = Des.cookKey b de1 := by
    intro a b hab
    unfold Des.cookKey Des.rawKeys
    rw [Des.pc1m_same hab]
  have hr : InRange k (ofs : Int) ((8 : Nat) : Int) ↔ InRange k' (ofs : Int) ((8 : Nat) : Int) := by
    unfold InRange; rw [h.length]
  unfold Des.camlCookKey cRead
  by_cases hi : InRange k (ofs : Int) ((8 : Nat) : Int)
  · rw [if_pos hi, if_pos (hr.1 hi), Option.map_some, Option.map_some, hc (h.slice _ _)]
  · rw [if_neg hi, if_neg (fun x => hi (hr.2 x))]

theorem desBlock_same {k k' : Bytes} (h : SameDesKey k k') (dir : Dir) :
    desBlock dir k = desBlock dir k' := by
  unfold desBlock Des.new
  rw [h.length, Des.cook_same h]

theorem tripleDesBlock_same {k k' : Bytes} (h : SameDesKey k k') (dir : Dir) :
    tripleDesBlock dir k = tripleDesBlock dir k' := by
  unfold tripleDesBlock Des.new3Enc Des.new3Dec
  rw [h.length]
  simp only [Des.cook_same h]

variable {env : Env} {mode : Option Mode} {pad : Option PadScheme} {iv : Option Bytes}

/-- C90: keys that differ in the least significant bits of their bytes only give the same object (or
the same exception), for every cipher and MAC that uses DES keys, and all other arguments. -/
theorem C90_parity {k k' : Bytes} (h : SameDesKey k k') (dir : Dir) :
    Cipher.des env mode pad iv k dir = Cipher.des env mode pad iv k' dir
    ∧ Cipher.tripleDes env mode pad iv k dir = Cipher.tripleDes env mode pad iv k' dir
    ∧ MAC.des env iv pad k = MAC.des env iv pad k'
    ∧ MAC.tripleDes env iv pad k = MAC.tripleDes env iv pad k'
    ∧ MAC.desFinalTripleDes env iv pad k = MAC.desFinalTripleDes env iv pad k' := by
  refine ⟨?_, ?_, ?_, ?_, ?_⟩
  · rw [Cipher.des, Cipher.des, desBlock_same h]
  · rw [Cipher.tripleDes, Cipher.tripleDes, tripleDesBlock_same h]
  · rw [MAC.des, MAC.des, desBlock_same h]
  · rw [MAC.tripleDes, MAC.tripleDes, tripleDesBlock_same h]
  · have h3 : SameDesKey (if k'.length = 24 then slice k 16 8 else slice k 0 8)
        (if k'.length = 24 then slice k' 16 8 else slice k' 0 8) := by
      split <;> exact h.slice _ _
    unfold MAC.desFinalTripleDes
    rw [h.length]
    simp only
    rw [desBlock_same (h.slice 0 8), desBlock_same (h.slice 8 8), desBlock_same h3]

/-- C90: a key `k1 k2` of 16 bytes stands for the key `k1 k2 k1` of 24 bytes. -/
theorem C90_two_keys {k1 k2 : Bytes} (h1 : k1.length = 8) (h2 : k2.length = 8) (dir : Dir) :
    Cipher.tripleDes env mode pad iv (k1 ++ k2) dir = Cipher.tripleDes env mode pad iv (k1 ++ k2 ++ k1) dir
    ∧ MAC.tripleDes env iv pad (k1 ++ k2) = MAC.tripleDes env iv pad (k1 ++ k2 ++ k1)
    ∧ MAC.desFinalTripleDes env iv pad (k1 ++ k2) = MAC.desFinalTripleDes env iv pad (k1 ++ k2 ++ k1) := by
  have c0 : ∀ (t : Bytes) d, Des.camlCookKey (k1 ++ t) 0 d = some (Des.cookKey k1 d) := by
    intro t d
    rw [Des.cook_ok (by simp; omega), List.drop_zero, List.take_append_of_le_length (by omega),
      List.take_of_length_le (by omega)]
  have c8 : ∀ (t : Bytes) d, Des.camlCookKey (k1 ++ (k2 ++ t)) 8 d = some (Des.cookKey k2 d) := by
    intro t d
    rw [Des.cook_ok (by simp; omega), List.drop_append_of_le_length (by omega),
      List.drop_of_length_le (by omega), List.nil_append, List.take_append_of_le_length (by omega),
      List.take_of_length_le (by omega)]
  have c8' : ∀ d, Des.camlCookKey (k1 ++ k2) 8 d = some (Des.cookKey k2 d) := by
    intro d; have := c8 [] d; rwa [List.append_nil] at this
  have c16 : ∀ d, Des.camlCookKey (k1 ++ (k2 ++ k1)) 16 d = some (Des.cookKey k1 d) := by
    intro d
    rw [Des.cook_ok (by simp; omega), ← List.append_assoc, List.drop_append_of_le_length (by simp; omega),
      List.drop_of_length_le (by simp; omega), List.nil_append, List.take_of_length_le (by omega)]
  have l2 : (k1 ++ k2).length = 16 := by simp [h1, h2]
  have l3 : (k1 ++ (k2 ++ k1)).length = 24 := by simp [h1, h2]
  have hb : ∀ dir, tripleDesBlock dir (k1 ++ k2) = tripleDesBlock dir (k1 ++ k2 ++ k1) := by
    intro dir
    rw [List.append_assoc]
    have e1 : Des.new3Enc (k1 ++ k2) = Des.new3Enc (k1 ++ (k2 ++ k1)) := by
      unfold Des.new3Enc
      rw [if_neg (by omega), if_neg (by omega), c0, c0, c8, c8']
      simp [l2, l3, h1, h2, c16]
    have e2 : Des.new3Dec (k1 ++ k2) = Des.new3Dec (k1 ++ (k2 ++ k1)) := by
      unfold Des.new3Dec
      rw [if_neg (by omega), if_neg (by omega), c0, c0, c8, c8']
      simp [l2, l3, h1, h2, c16]
    cases dir
    · rw [tripleDesBlock, tripleDesBlock, e1]
    · rw [tripleDesBlock, tripleDesBlock, e2]
  refine ⟨?_, ?_, ?_⟩
  · rw [Cipher.tripleDes, Cipher.tripleDes, hb]
  · rw [MAC.tripleDes, MAC.tripleDes, hb]
  · have s1 : ∀ t : Bytes, slice (k1 ++ t) 0 8 = k1 := by
      intro t
      rw [slice, List.drop_zero, List.take_append_of_le_length (by omega), List.take_of_length_le (by omega)]
    have s2 : ∀ t : Bytes, slice (k1 ++ (k2 ++ t)) 8 8 = k2 := by
      intro t
      rw [slice, List.drop_append_of_le_length (by omega), List.drop_of_length_le (by omega), List.nil_append,
        List.take_append_of_le_length (by omega), List.take_of_length_le (by omega)]
    have s2' := s2 []
    rw [List.append_nil] at s2'
    have s3 : slice (k1 ++ (k2 ++ k1)) 16 8 = k1 := by
      rw [slice, ← List.append_assoc, List.drop_append_of_le_length (by simp; omega),
        List.drop_of_length_le (by simp; omega), List.nil_append, List.take_of_length_le (by omega)]
    unfold MAC.desFinalTripleDes
    rw [List.append_assoc, if_neg (by omega), if_neg (by omega), s1, s1, s2, s2', s3]
    simp only [l2, l3]
    rfl

theorem PureCipher.congr {σ : Type} {c : BlockCipher σ} {k : σ} {E E' : Bytes → Bytes}
    (h : PureCipher c k E) (he : ∀ b : Bytes, b.length = c.blocksize → E b = E' b) :
    PureCipher c k E' where
  pos := h.pos
  out_len hs hb := by have := h.out_len hs hb; simp only [he _ hb] at this; exact this
  inv_step hs _ := hs
  run hs h1 h2 := by
    rw [h.run hs h1 h2, he]
    simp [slice]; omega

/-- C90: triple DES with the key `k k k'` or `k' k k` is DES with the key `k'`: what `des` encrypts
`triple_des` decrypts and conversely, in all modes. -/
theorem C90_triple_is_single {env' : Env} {maxLen : Nat} {padf : Bytes → Bytes} {k k' : Bytes}
    (h1 : k.length = 8) (h2 : k'.length = 8) {key : Bytes} (hkey : key = k ++ k ++ k' ∨ key = k' ++ k ++ k)
    (hE : maxLen ≤ env.maxLen) (hD : maxLen ≤ env'.maxLen)
    (hmode : ModeOk 8 (mode.getD .CBC)) (hiv : ModeIVOk 8 (mode.getD .CBC) iv)
    (hpad : PadOk (unitOf 8 (mode.getD .CBC)) pad padf) :
    (∃ tE tD, Cipher.tripleDes env mode pad iv key .encrypt = some (.ok tE)
      ∧ Cipher.des env' mode pad iv k' .decrypt = some (.ok tD)
      ∧ Enciphers tE tD (MessageOk maxLen 8 (mode.getD .CBC) pad padf)
          (cipherText (Spec.Des.encrypt k') 8 (mode.getD .CBC) padf iv))
    ∧ (∃ tE tD, Cipher.des env mode pad iv k' .encrypt = some (.ok tE)
      ∧ Cipher.tripleDes env' mode pad iv key .decrypt = some (.ok tD)
      ∧ Enciphers tE tD (MessageOk maxLen 8 (mode.getD .CBC) pad padf)
          (cipherText (Spec.Des.encrypt k') 8 (mode.getD .CBC) padf iv)) := by
  have hl : key.length = 24 := by rcases hkey with rfl | rfl <;> simp [h1, h2]
  have hbundle : Spec.Des.bundle key = (k, k, k') ∨ Spec.Des.bundle key = (k', k, k) := by
    have : ∀ a b c : Bytes, a.length = 8 → b.length = 8 → c.length = 8 →
        Spec.Des.bundle (a ++ b ++ c) = (a, b, c) := by
      intro a b c ha hb hc
      have l : (a ++ (b ++ c)).length = 24 := by simp [ha, hb, hc]
      rw [Spec.Des.bundle, List.append_assoc, if_pos l, ← List.append_assoc]
      congr 1
      · rw [List.append_assoc, List.take_append_of_le_length (by omega), List.take_of_length_le (by omega)]
      · congr 1
        · rw [List.append_assoc, List.drop_append_of_le_length (by omega), List.drop_of_length_le (by omega),
            List.nil_append, List.take_append_of_le_length (by omega), List.take_of_length_le (by omega)]
        · rw [List.drop_append_of_le_length (by simp; omega), List.drop_of_length_le (by simp; omega),
            List.nil_append]
    rcases hkey with rfl | rfl
    · exact .inl (this _ _ _ h1 h1 h2)
    · exact .inr (this _ _ _ h2 h1 h1)
  have e3 : ∀ b : Bytes, b.length = 8 → Spec.Des.encrypt3 key b = Spec.Des.encrypt k' b := by
    intro b hb
    rcases hbundle with h | h <;> rw [Spec.Des.encrypt3, h] <;> simp only
    · rw [Spec.Des.decrypt_encrypt k hb]
    · rw [Spec.Des.encrypt_decrypt k (Spec.Des.encrypt_length k' b)]
  have d3 : ∀ b : Bytes, b.length = 8 → Spec.Des.decrypt3 key b = Spec.Des.decrypt k' b := by
    intro b hb
    rcases hbundle with h | h <;> rw [Spec.Des.decrypt3, h] <;> simp only
    · rw [Spec.Des.decrypt_encrypt k (Spec.Des.decrypt_length k' b)]
    · rw [Spec.Des.encrypt_decrypt k hb]
  obtain ⟨ke, kd, e1, e2, _, e4, e5⟩ := C43_des h2
  obtain ⟨fe, fd, f1, f2, _, f4, f5⟩ := C43_triple_des (key := key) (.inr hl)
  have sE : ∃ b, desBlock .encrypt k' = some (.ok b) ∧ b.c.blocksize = 8
      ∧ PureCipher b.c b.s (Spec.Des.encrypt k') :=
    ⟨⟨Des.cipher, ke⟩, by simp [desBlock, e1, Except.map], rfl, e4⟩
  have sD : ∃ b, desBlock .decrypt k' = some (.ok b) ∧ b.c.blocksize = 8
      ∧ PureCipher b.c b.s (Spec.Des.decrypt k') :=
    ⟨⟨Des.cipher, kd⟩, by simp [desBlock, e2, Except.map], rfl, e5⟩
  have tE : ∃ b, tripleDesBlock .encrypt key = some (.ok b) ∧ b.c.blocksize = 8
      ∧ PureCipher b.c b.s (Spec.Des.encrypt k') :=
    ⟨⟨Des.cipher3, fe⟩, by simp [tripleDesBlock, f1, Except.map], rfl, f4.congr e3⟩
  have tD : ∃ b, tripleDesBlock .decrypt key = some (.ok b) ∧ b.c.blocksize = 8
      ∧ PureCipher b.c b.s (Spec.Des.decrypt k') :=
    ⟨⟨Des.cipher3, fd⟩, by simp [tripleDesBlock, f2, Except.map], rfl, f5.congr d3⟩
  have inv : ∀ b : Bytes, b.length = 8 → Spec.Des.decrypt k' (Spec.Des.encrypt k' b) = b :=
    fun b hb => Spec.Des.decrypt_encrypt k' hb
  exact ⟨make_enciphers (mkE := fun d => tripleDesBlock d key) (mkD := fun d => desBlock d k')
      hE hD tE sE sD inv hmode hiv hpad,
    make_enciphers (mkE := fun d => desBlock d k') (mkD := fun d => tripleDesBlock d key)
      hE hD sE tE tD inv hmode hiv hpad⟩

/-! ### Concrete cases -/

example : SameDesKey [0x12, 0x34, 0x56, 0x78, 0x9A, 0xBC, 0xDE, 0xF1]
    [0x13, 0x34, 0x57, 0x79, 0x9B, 0xBC, 0xDF, 0xF1] := by unfold SameDesKey; decide

/-- The other bits are not ignored. -/
example : Des.cookKey [0x12, 0x34, 0x56, 0x78, 0x9A, 0xBC, 0xDE, 0xF1] false
    ≠ Des.cookKey [0x10, 0x34, 0x56, 0x78, 0x9A, 0xBC, 0xDE, 0xF1] false := by decide +kernel

example := C90_two_keys (env := Example.env64) (mode := some .CTR) (pad := none) (iv := none)
  (k1 := [1, 2, 3, 4, 5, 6, 7, 8]) (k2 := [9, 9, 9, 9, 9, 9, 9, 9]) rfl rfl .encrypt

example := C90_triple_is_single (env := Example.env64) (env' := Example.env64) (maxLen := 1000)
  (mode := none) (pad := none) (padf := id) (iv := none)
  (k := [1, 2, 3, 4, 5, 6, 7, 8]) (k' := [9, 9, 9, 9, 9, 9, 9, 9]) rfl rfl (.inl rfl)
  (by decide) (by decide) trivial (.inr (by intro v h; cases h)) .none

end Verif
