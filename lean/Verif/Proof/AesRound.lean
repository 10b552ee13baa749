import Verif.Model.Aes
import Verif.Proof.AesTables
import Verif.Proof.Chunks
import Verif.Proof.Xor
/-
The rounds computed with tables are those of FIPS 197.
-/
namespace Verif.Rijndael
open Spec.Aes (mul sbox invSbox)

/-! ### Words of four bytes -/

theorem w4_toNat (a b c d : Byte) :
    (w4 a b c d).toNat = a.toNat * 2 ^ 24 + b.toNat * 2 ^ 16 + c.toNat * 2 ^ 8 + d.toNat := by
  unfold w4
  rw [BitVec.toNat_append, BitVec.toNat_append, BitVec.toNat_append,
    Nat.shiftLeft_eq, Nat.shiftLeft_eq, Nat.shiftLeft_eq]
  have ha := a.isLt; have hb := b.isLt; have hc := c.isLt; have hd := d.isLt
  rw [Nat.mul_comm a.toNat, ← Nat.two_pow_add_eq_or_of_lt hb,
    Nat.mul_comm (2 ^ 8 * _ + _), ← Nat.two_pow_add_eq_or_of_lt hc,
    Nat.mul_comm (2 ^ 8 * _ + _), ← Nat.two_pow_add_eq_or_of_lt hd]
  omega

theorem w4_xor (a b c d a' b' c' d' : Byte) :
    w4 a b c d ^^^ w4 a' b' c' d' = w4 (a ^^^ a') (b ^^^ b') (c ^^^ c') (d ^^^ d') := by
  unfold w4
  rw [BitVec.xor_append, BitVec.xor_append, BitVec.xor_append]

theorem w4_and (a b c d a' b' c' d' : Byte) :
    w4 a b c d &&& w4 a' b' c' d' = w4 (a &&& a') (b &&& b') (c &&& c') (d &&& d') := by
  unfold w4
  rw [BitVec.and_append, BitVec.and_append, BitVec.and_append]

theorem and_ff (x : W32) : (x &&& 0xff#32).toNat = x.toNat % 256 := by
  rw [BitVec.toNat_and]
  exact Nat.and_two_pow_sub_one_eq_mod _ 8

theorem w4_b0 (a b c d : Byte) : (w4 a b c d >>> 24).toNat = a.toNat := by
  have hb := b.isLt; have hc := c.isLt; have hd := d.isLt
  rw [BitVec.toNat_ushiftRight, w4_toNat, Nat.shiftRight_eq_div_pow]; omega
theorem w4_b1 (a b c d : Byte) : ((w4 a b c d >>> 16) &&& 0xff#32).toNat = b.toNat := by
  have hb := b.isLt; have hc := c.isLt; have hd := d.isLt
  rw [and_ff, BitVec.toNat_ushiftRight, w4_toNat, Nat.shiftRight_eq_div_pow]; omega
theorem w4_b2 (a b c d : Byte) : ((w4 a b c d >>> 8) &&& 0xff#32).toNat = c.toNat := by
  have hb := b.isLt; have hc := c.isLt; have hd := d.isLt
  rw [and_ff, BitVec.toNat_ushiftRight, w4_toNat, Nat.shiftRight_eq_div_pow]; omega
theorem w4_b3 (a b c d : Byte) : (w4 a b c d &&& 0xff#32).toNat = d.toNat := by
  have hb := b.isLt; have hc := c.isLt; have hd := d.isLt
  rw [and_ff, w4_toNat]; omega

theorem putU32_w4 (a b c d : Byte) : putU32 (w4 a b c d) = [a, b, c, d] := by
  have ha := a.isLt; have hb := b.isLt; have hc := c.isLt; have hd := d.isLt
  unfold putU32
  congr 1
  · apply BitVec.eq_of_toNat_eq
    rw [BitVec.toNat_setWidth, w4_b0]; omega
  congr 1
  · apply BitVec.eq_of_toNat_eq
    rw [BitVec.toNat_setWidth, BitVec.toNat_ushiftRight, w4_toNat, Nat.shiftRight_eq_div_pow]
    omega
  congr 1
  · apply BitVec.eq_of_toNat_eq
    rw [BitVec.toNat_setWidth, BitVec.toNat_ushiftRight, w4_toNat, Nat.shiftRight_eq_div_pow]
    omega
  congr 1
  exact w4_low ..

/-- Every word is made of four bytes. -/
theorem exists_w4 (x : W32) : ∃ a b c d, x = w4 a b c d := by
  refine ⟨(x >>> 24).setWidth 8, (x >>> 16).setWidth 8, (x >>> 8).setWidth 8, x.setWidth 8, ?_⟩
  apply BitVec.eq_of_toNat_eq
  have := x.isLt
  rw [w4_toNat]
  simp only [BitVec.toNat_setWidth, BitVec.toNat_ushiftRight, Nat.shiftRight_eq_div_pow]
  omega

theorem putU32_xor (x y : W32) : putU32 (x ^^^ y) = xorb (putU32 x) (putU32 y) := by
  obtain ⟨a, b, c, d, rfl⟩ := exists_w4 x
  obtain ⟨a', b', c', d', rfl⟩ := exists_w4 y
  rw [w4_xor, putU32_w4, putU32_w4, putU32_w4]
  rfl

@[simp] theorem putU32_length (x : W32) : (putU32 x).length = 4 := rfl

theorem getU32_eq (p : Bytes) (i : Nat) : getU32 p i =
    w4 (byteAt p i) (byteAt p (i + 1)) (byteAt p (i + 2)) (byteAt p (i + 3)) := by
  have hs : ∀ b : Byte, (b.setWidth 32 : W32) = w4 0 0 0 b := by
    intro b
    apply BitVec.eq_of_toNat_eq
    have := b.isLt
    rw [w4_toNat, BitVec.toNat_setWidth]; simp; omega
  have hl : ∀ b : Byte, (b.setWidth 32 : W32) <<< 8 = w4 0 0 b 0 := by
    intro b
    apply BitVec.eq_of_toNat_eq
    have := b.isLt
    rw [w4_toNat, BitVec.toNat_shiftLeft, BitVec.toNat_setWidth, Nat.shiftLeft_eq]; simp; omega
  have hl2 : ∀ b : Byte, (b.setWidth 32 : W32) <<< 16 = w4 0 b 0 0 := by
    intro b
    apply BitVec.eq_of_toNat_eq
    have := b.isLt
    rw [w4_toNat, BitVec.toNat_shiftLeft, BitVec.toNat_setWidth, Nat.shiftLeft_eq]; simp; omega
  have hl3 : ∀ b : Byte, (b.setWidth 32 : W32) <<< 24 = w4 b 0 0 0 := by
    intro b
    apply BitVec.eq_of_toNat_eq
    have := b.isLt
    rw [w4_toNat, BitVec.toNat_shiftLeft, BitVec.toNat_setWidth, Nat.shiftLeft_eq]; simp; omega
  unfold getU32
  rw [hl, hl2, hl3, hs, w4_xor, w4_xor, w4_xor]
  simp

/-! ### Table entries -/

theorem tab_Te4 {i : W32} {b : Byte} (h : i.toNat = b.toNat) :
    tab Te4 i = w4 (sbox b) (sbox b) (sbox b) (sbox b) := by
  have hb := b.isLt
  unfold tab
  rw [h, Te4_eq, List.getD_eq_getElem?_getD, List.getElem?_map, List.getElem?_range (by omega)]
  simp

theorem tab_Td4 {i : W32} {b : Byte} (h : i.toNat = b.toNat) :
    tab Td4 i = w4 (invSbox b) (invSbox b) (invSbox b) (invSbox b) := by
  have hb := b.isLt
  unfold tab
  rw [h, Td4_eq, List.getD_eq_getElem?_getD, List.getElem?_map, List.getElem?_range (by omega)]
  simp

theorem tab_of_map {t t4 : List W32} {f : W32 → W32} (ht : t = t4.map f) {S : Byte → Byte}
    (h4 : t4 = (List.range 256).map fun i => let s := S (BitVec.ofNat 8 i); w4 s s s s)
    {i : W32} {b : Byte} (h : i.toNat = b.toNat) :
    tab t i = f (w4 (S b) (S b) (S b) (S b)) := by
  have hb := b.isLt
  unfold tab
  rw [h, ht, h4, List.map_map, List.getD_eq_getElem?_getD, List.getElem?_map,
    List.getElem?_range (by omega)]
  simp

theorem tab_Te0 {i : W32} {b : Byte} (h : i.toNat = b.toNat) :
    tab Te0 i = w4 (mul 2 (sbox b)) (sbox b) (sbox b) (mul 3 (sbox b)) := by
  rw [tab_of_map Te0_eq Te4_eq h]; simp only [w4_low]
theorem tab_Te1 {i : W32} {b : Byte} (h : i.toNat = b.toNat) :
    tab Te1 i = w4 (mul 3 (sbox b)) (mul 2 (sbox b)) (sbox b) (sbox b) := by
  rw [tab_of_map Te1_eq Te4_eq h]; simp only [w4_low]
theorem tab_Te2 {i : W32} {b : Byte} (h : i.toNat = b.toNat) :
    tab Te2 i = w4 (sbox b) (mul 3 (sbox b)) (mul 2 (sbox b)) (sbox b) := by
  rw [tab_of_map Te2_eq Te4_eq h]; simp only [w4_low]
theorem tab_Te3 {i : W32} {b : Byte} (h : i.toNat = b.toNat) :
    tab Te3 i = w4 (sbox b) (sbox b) (mul 3 (sbox b)) (mul 2 (sbox b)) := by
  rw [tab_of_map Te3_eq Te4_eq h]; simp only [w4_low]

theorem tab_Td0 {i : W32} {b : Byte} (h : i.toNat = b.toNat) : tab Td0 i =
    w4 (mul 0x0e (invSbox b)) (mul 0x09 (invSbox b)) (mul 0x0d (invSbox b))
      (mul 0x0b (invSbox b)) := by
  rw [tab_of_map Td0_eq Td4_eq h]; simp only [w4_low]
theorem tab_Td1 {i : W32} {b : Byte} (h : i.toNat = b.toNat) : tab Td1 i =
    w4 (mul 0x0b (invSbox b)) (mul 0x0e (invSbox b)) (mul 0x09 (invSbox b))
      (mul 0x0d (invSbox b)) := by
  rw [tab_of_map Td1_eq Td4_eq h]; simp only [w4_low]
theorem tab_Td2 {i : W32} {b : Byte} (h : i.toNat = b.toNat) : tab Td2 i =
    w4 (mul 0x0d (invSbox b)) (mul 0x0b (invSbox b)) (mul 0x0e (invSbox b))
      (mul 0x09 (invSbox b)) := by
  rw [tab_of_map Td2_eq Td4_eq h]; simp only [w4_low]
theorem tab_Td3 {i : W32} {b : Byte} (h : i.toNat = b.toNat) : tab Td3 i =
    w4 (mul 0x09 (invSbox b)) (mul 0x0d (invSbox b)) (mul 0x0b (invSbox b))
      (mul 0x0e (invSbox b)) := by
  rw [tab_of_map Td3_eq Td4_eq h]; simp only [w4_low]

theorem mul_one (a : Byte) : mul 1 a = a := by
  have := (mix_all a.toNat a.isLt).2.2.2.2.2.2.2.2
  simpa using this

/-! ### Columns -/

theorem teCol_eq (a b c d k : W32) {a0 a1 a2 a3 b0 b1 b2 b3 c0 c1 c2 c3 d0 d1 d2 d3 : Byte}
    (ha : a = w4 a0 a1 a2 a3) (hb : b = w4 b0 b1 b2 b3) (hc : c = w4 c0 c1 c2 c3)
    (hd : d = w4 d0 d1 d2 d3) :
    putU32 (teCol a b c d k) = xorb (Spec.Aes.mulColumn 2 3 1 1
      [sbox a0, sbox b1, sbox c2, sbox d3]) (putU32 k) := by
  subst ha hb hc hd
  unfold teCol
  rw [putU32_xor, tab_Te0 (w4_b0 ..), tab_Te1 (w4_b1 ..), tab_Te2 (w4_b2 ..), tab_Te3 (w4_b3 ..),
    w4_xor, w4_xor, w4_xor, putU32_w4, Spec.Aes.mulColumn]
  simp only [mul_one]

theorem tdCol_eq (a b c d k : W32) {a0 a1 a2 a3 b0 b1 b2 b3 c0 c1 c2 c3 d0 d1 d2 d3 : Byte}
    (ha : a = w4 a0 a1 a2 a3) (hb : b = w4 b0 b1 b2 b3) (hc : c = w4 c0 c1 c2 c3)
    (hd : d = w4 d0 d1 d2 d3) :
    putU32 (tdCol a b c d k) = xorb (Spec.Aes.mulColumn 0x0e 0x0b 0x0d 0x09
      [invSbox a0, invSbox b1, invSbox c2, invSbox d3]) (putU32 k) := by
  subst ha hb hc hd
  unfold tdCol
  rw [putU32_xor, tab_Td0 (w4_b0 ..), tab_Td1 (w4_b1 ..), tab_Td2 (w4_b2 ..), tab_Td3 (w4_b3 ..),
    w4_xor, w4_xor, w4_xor, putU32_w4, Spec.Aes.mulColumn]

theorem masks (a b c d : Byte) :
    ((w4 a a a a &&& 0xff000000#32) ^^^ (w4 b b b b &&& 0x00ff0000#32) ^^^ (w4 c c c c &&& 0x0000ff00#32)
      ^^^ (w4 d d d d &&& 0x000000ff#32)) = w4 a b c d := by
  have h : ∀ x : Byte, x &&& 0xff = x := by
    intro x
    apply BitVec.eq_of_toNat_eq
    have := x.isLt
    rw [BitVec.toNat_and]
    refine (Nat.and_two_pow_sub_one_eq_mod _ 8).trans ?_
    omega
  have h0 : ∀ x : Byte, x &&& 0 = 0 := by intro x; simp
  rw [show 0xff000000#32 = w4 0xff 0 0 0 by decide,
    show 0x00ff0000#32 = w4 0 0xff 0 0 by decide,
    show 0x0000ff00#32 = w4 0 0 0xff 0 by decide,
    show 0x000000ff#32 = w4 0 0 0 0xff by decide]
  simp only [w4_and, w4_xor, h, h0]
  simp

theorem lastTe_eq (a b c d k : W32) {a0 a1 a2 a3 b0 b1 b2 b3 c0 c1 c2 c3 d0 d1 d2 d3 : Byte}
    (ha : a = w4 a0 a1 a2 a3) (hb : b = w4 b0 b1 b2 b3) (hc : c = w4 c0 c1 c2 c3)
    (hd : d = w4 d0 d1 d2 d3) :
    putU32 (lastCol Te4 a b c d k) = xorb [sbox a0, sbox b1, sbox c2, sbox d3] (putU32 k) := by
  subst ha hb hc hd
  unfold lastCol
  rw [putU32_xor, tab_Te4 (w4_b0 ..), tab_Te4 (w4_b1 ..), tab_Te4 (w4_b2 ..), tab_Te4 (w4_b3 ..),
    masks, putU32_w4]

theorem lastTd_eq (a b c d k : W32) {a0 a1 a2 a3 b0 b1 b2 b3 c0 c1 c2 c3 d0 d1 d2 d3 : Byte}
    (ha : a = w4 a0 a1 a2 a3) (hb : b = w4 b0 b1 b2 b3) (hc : c = w4 c0 c1 c2 c3)
    (hd : d = w4 d0 d1 d2 d3) :
    putU32 (lastCol Td4 a b c d k)
      = xorb [invSbox a0, invSbox b1, invSbox c2, invSbox d3] (putU32 k) := by
  subst ha hb hc hd
  unfold lastCol
  rw [putU32_xor, tab_Td4 (w4_b0 ..), tab_Td4 (w4_b1 ..), tab_Td4 (w4_b2 ..), tab_Td4 (w4_b3 ..),
    masks, putU32_w4]

theorem rotSub_eq (x : W32) :
    putU32 (rotSub x) = Spec.Aes.subWord (Spec.Aes.rotWord (putU32 x)) := by
  obtain ⟨a, b, c, d, rfl⟩ := exists_w4 x
  unfold rotSub
  rw [tab_Te4 (w4_b0 ..), tab_Te4 (w4_b1 ..), tab_Te4 (w4_b2 ..), tab_Te4 (w4_b3 ..),
    masks, putU32_w4, putU32_w4]
  rfl

theorem sub_eq (x : W32) : putU32 (sub x) = Spec.Aes.subWord (putU32 x) := by
  obtain ⟨a, b, c, d, rfl⟩ := exists_w4 x
  unfold sub
  rw [tab_Te4 (w4_b0 ..), tab_Te4 (w4_b1 ..), tab_Te4 (w4_b2 ..), tab_Te4 (w4_b3 ..),
    masks, putU32_w4, putU32_w4]
  rfl

theorem invMix_eq (x : W32) :
    putU32 (invMix x) = Spec.Aes.mulColumn 0x0e 0x0b 0x0d 0x09 (putU32 x) := by
  obtain ⟨a, b, c, d, rfl⟩ := exists_w4 x
  unfold invMix
  rw [tab_Te4 (w4_b0 ..), tab_Te4 (w4_b1 ..), tab_Te4 (w4_b2 ..), tab_Te4 (w4_b3 ..),
    tab_Td0 (w4_b3 ..), tab_Td1 (w4_b3 ..), tab_Td2 (w4_b3 ..), tab_Td3 (w4_b3 ..),
    w4_xor, w4_xor, w4_xor, putU32_w4, putU32_w4, Spec.Aes.mulColumn]
  simp only [invSbox_sbox]

/-! ### Rounds -/

/-- The bytes of the state. -/
def Q.bytes (q : Q) : Bytes := putU32 q.x0 ++ putU32 q.x1 ++ putU32 q.x2 ++ putU32 q.x3

/-- The key made of the words from `b`. -/
def keyAt (k : Nat → W32) (b : Nat) : Bytes :=
  putU32 (k b) ++ putU32 (k (b + 1)) ++ putU32 (k (b + 2)) ++ putU32 (k (b + 3))

theorem chunks_four (a b c d : Bytes) (ha : a.length = 4) (hb : b.length = 4)
    (hc : c.length = 4) (hd : d.length = 4) :
    chunks 4 (a ++ b ++ c ++ d) = [a, b, c, d] := by
  rw [List.append_assoc, List.append_assoc]
  match a, b, c, d, ha, hb, hc, hd with
  | [a0, a1, a2, a3], [b0, b1, b2, b3], [c0, c1, c2, c3], [d0, d1, d2, d3], _, _, _, _ =>
    simp [chunks]

theorem mulColumn_length (m0 m1 m2 m3 a0 a1 a2 a3 : Byte) :
    (Spec.Aes.mulColumn m0 m1 m2 m3 [a0, a1, a2, a3]).length = 4 := rfl

theorem encRound_eq (k : Nat → W32) (b : Nat) (q : Q) :
    (encRound k b q).bytes = Spec.Aes.encRound q.bytes (keyAt k b) := by
  obtain ⟨x0, x1, x2, x3⟩ := q
  obtain ⟨a0, a1, a2, a3, rfl⟩ := exists_w4 x0
  obtain ⟨b0, b1, b2, b3, rfl⟩ := exists_w4 x1
  obtain ⟨c0, c1, c2, c3, rfl⟩ := exists_w4 x2
  obtain ⟨d0, d1, d2, d3, rfl⟩ := exists_w4 x3
  unfold Q.bytes encRound keyAt Spec.Aes.encRound
  simp only
  rw [teCol_eq _ _ _ _ _ rfl rfl rfl rfl, teCol_eq _ _ _ _ _ rfl rfl rfl rfl,
    teCol_eq _ _ _ _ _ rfl rfl rfl rfl, teCol_eq _ _ _ _ _ rfl rfl rfl rfl]
  have e : Spec.Aes.shiftRows (Spec.Aes.subBytes (putU32 (w4 a0 a1 a2 a3) ++
      putU32 (w4 b0 b1 b2 b3) ++ putU32 (w4 c0 c1 c2 c3) ++ putU32 (w4 d0 d1 d2 d3)))
      = [sbox a0, sbox b1, sbox c2, sbox d3] ++ [sbox b0, sbox c1, sbox d2, sbox a3]
        ++ [sbox c0, sbox d1, sbox a2, sbox b3] ++ [sbox d0, sbox a1, sbox b2, sbox c3] := by
    simp only [putU32_w4]; rfl
  rw [e]
  unfold Spec.Aes.mixColumns
  rw [chunks_four _ _ _ _ rfl rfl rfl rfl]
  simp only [List.flatMap_cons, List.flatMap_nil, List.append_nil]
  rw [← List.append_assoc, ← List.append_assoc,
    xorb_append (by simp [mulColumn_length]), xorb_append (by simp [mulColumn_length]),
    xorb_append (by simp [mulColumn_length])]

theorem decRound_eq (k : Nat → W32) (b : Nat) (q : Q) :
    (decRound k b q).bytes = xorb (Spec.Aes.invMixColumns
      (Spec.Aes.invSubBytes (Spec.Aes.invShiftRows q.bytes))) (keyAt k b) := by
  obtain ⟨x0, x1, x2, x3⟩ := q
  obtain ⟨a0, a1, a2, a3, rfl⟩ := exists_w4 x0
  obtain ⟨b0, b1, b2, b3, rfl⟩ := exists_w4 x1
  obtain ⟨c0, c1, c2, c3, rfl⟩ := exists_w4 x2
  obtain ⟨d0, d1, d2, d3, rfl⟩ := exists_w4 x3
  unfold Q.bytes decRound keyAt
  simp only
  rw [tdCol_eq _ _ _ _ _ rfl rfl rfl rfl, tdCol_eq _ _ _ _ _ rfl rfl rfl rfl,
    tdCol_eq _ _ _ _ _ rfl rfl rfl rfl, tdCol_eq _ _ _ _ _ rfl rfl rfl rfl]
  have e : Spec.Aes.invSubBytes (Spec.Aes.invShiftRows (putU32 (w4 a0 a1 a2 a3) ++
      putU32 (w4 b0 b1 b2 b3) ++ putU32 (w4 c0 c1 c2 c3) ++ putU32 (w4 d0 d1 d2 d3)))
      = [invSbox a0, invSbox d1, invSbox c2, invSbox b3]
        ++ [invSbox b0, invSbox a1, invSbox d2, invSbox c3]
        ++ [invSbox c0, invSbox b1, invSbox a2, invSbox d3]
        ++ [invSbox d0, invSbox c1, invSbox b2, invSbox a3] := by
    simp only [putU32_w4]; rfl
  rw [e]
  unfold Spec.Aes.invMixColumns
  rw [chunks_four _ _ _ _ rfl rfl rfl rfl]
  simp only [List.flatMap_cons, List.flatMap_nil, List.append_nil]
  rw [← List.append_assoc, ← List.append_assoc,
    xorb_append (by simp [mulColumn_length]), xorb_append (by simp [mulColumn_length]),
    xorb_append (by simp [mulColumn_length])]

theorem encLast_eq (k : Nat → W32) (b : Nat) (t : Q) :
    putU32 (lastCol Te4 t.x0 t.x1 t.x2 t.x3 (k b))
      ++ putU32 (lastCol Te4 t.x1 t.x2 t.x3 t.x0 (k (b + 1)))
      ++ putU32 (lastCol Te4 t.x2 t.x3 t.x0 t.x1 (k (b + 2)))
      ++ putU32 (lastCol Te4 t.x3 t.x0 t.x1 t.x2 (k (b + 3)))
      = Spec.Aes.encLast t.bytes (keyAt k b) := by
  obtain ⟨x0, x1, x2, x3⟩ := t
  obtain ⟨a0, a1, a2, a3, rfl⟩ := exists_w4 x0
  obtain ⟨b0, b1, b2, b3, rfl⟩ := exists_w4 x1
  obtain ⟨c0, c1, c2, c3, rfl⟩ := exists_w4 x2
  obtain ⟨d0, d1, d2, d3, rfl⟩ := exists_w4 x3
  unfold Q.bytes keyAt Spec.Aes.encLast
  simp only
  rw [lastTe_eq _ _ _ _ _ rfl rfl rfl rfl, lastTe_eq _ _ _ _ _ rfl rfl rfl rfl,
    lastTe_eq _ _ _ _ _ rfl rfl rfl rfl, lastTe_eq _ _ _ _ _ rfl rfl rfl rfl]
  simp only [putU32_w4]
  rw [← xorb_append (by simp), ← xorb_append (by simp), ← xorb_append (by simp)]
  rfl

theorem decLast_eq (k : Nat → W32) (b : Nat) (t : Q) :
    putU32 (lastCol Td4 t.x0 t.x3 t.x2 t.x1 (k b))
      ++ putU32 (lastCol Td4 t.x1 t.x0 t.x3 t.x2 (k (b + 1)))
      ++ putU32 (lastCol Td4 t.x2 t.x1 t.x0 t.x3 (k (b + 2)))
      ++ putU32 (lastCol Td4 t.x3 t.x2 t.x1 t.x0 (k (b + 3)))
      = Spec.Aes.decLast t.bytes (keyAt k b) := by
  obtain ⟨x0, x1, x2, x3⟩ := t
  obtain ⟨a0, a1, a2, a3, rfl⟩ := exists_w4 x0
  obtain ⟨b0, b1, b2, b3, rfl⟩ := exists_w4 x1
  obtain ⟨c0, c1, c2, c3, rfl⟩ := exists_w4 x2
  obtain ⟨d0, d1, d2, d3, rfl⟩ := exists_w4 x3
  unfold Q.bytes keyAt Spec.Aes.decLast
  simp only
  rw [lastTd_eq _ _ _ _ _ rfl rfl rfl rfl, lastTd_eq _ _ _ _ _ rfl rfl rfl rfl,
    lastTd_eq _ _ _ _ _ rfl rfl rfl rfl, lastTd_eq _ _ _ _ _ rfl rfl rfl rfl]
  simp only [putU32_w4]
  rw [← xorb_append (by simp), ← xorb_append (by simp), ← xorb_append (by simp)]
  rfl

theorem start_eq (k : Nat → W32) {pt : Bytes} (h : pt.length = 16) :
    (start k pt).bytes = xorb pt (keyAt k 0) := by
  match pt, h with
  | [a0, a1, a2, a3, b0, b1, b2, b3, c0, c1, c2, c3, d0, d1, d2, d3], _ =>
    unfold Q.bytes start keyAt
    simp only [putU32_xor, getU32_eq, putU32_w4]
    rw [← xorb_append (by simp), ← xorb_append (by simp), ← xorb_append (by simp)]
    rfl

/-- The loop performs `2 r - 1` rounds and leaves the pointer on the last round key. -/
theorem loop_eq {round : Nat → Q → Q} {f : Bytes → Nat → Bytes}
    (h : ∀ b q, (round b q).bytes = f q.bytes b) : ∀ (r b : Nat) (s : Q), 0 < r →
    (loop round r b s).1.bytes
        = (List.range (2 * r - 1)).foldl (fun s i => f s (b + 4 * (i + 1))) s.bytes ∧
      (loop round r b s).2 = b + 8 * r
  | 0, _, _, h0 => absurd h0 (by omega)
  | r + 1, b, s, _ => by
    rw [loop]
    by_cases hr : r = 0
    · subst hr
      simp [h]
    · rw [if_neg hr]
      obtain ⟨h1, h2⟩ := loop_eq h r (b + 8) (round (b + 8) (round (b + 4) s)) (by omega)
      refine ⟨?_, by rw [h2]; omega⟩
      rw [h1, h, h, show 2 * (r + 1) - 1 = 2 * r - 1 + 1 + 1 by omega, List.range_succ_eq_map,
        List.foldl_cons, List.foldl_map, List.range_succ_eq_map, List.foldl_cons, List.foldl_map]
      simp only [Nat.succ_eq_add_one]
      congr 1
      · funext s i
        rw [show b + 8 + 4 * (i + 1) = b + 4 * (i + 1 + 1 + 1) by omega]

end Verif.Rijndael
