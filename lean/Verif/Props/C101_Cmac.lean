import Verif.Props.C101_MacLength
/-
C101, `MAC.aes_cmac`: messages of any lengths.
-/
namespace Verif

open Spec (cbcMac ivOf IVOk Splits cmacLast CMAC K1 K2 pad8000 extended)

variable {E : Bytes → Bytes}

theorem K1_length : (K1 E).length = 16 := ofBits_length _
theorem K2_length : (K2 E).length = 16 := ofBits_length _

theorem pad8000_len {x : Bytes} (h : x.length < 16) : (pad8000 16 x).length = 16 := by
  simp [Spec.pad8000]; omega

theorem cmacLast_length {x : Bytes} (h : x.length ≤ 16) : (cmacLast E x).length = 16 := by
  unfold Spec.cmacLast
  split
  · next h => exact xorb_len_eq K1_length h
  · exact xorb_len_eq K2_length (pad8000_len (by omega))

/-- Every message is split in one way. -/
theorem splits_exists (m : Bytes) : ∃ bs last, Splits m bs last := by
  by_cases hm : m = []
  · exact ⟨[], [], by simp [hm], by simp, by simp, by simp⟩
  · have hpos := List.length_pos_iff.2 hm
    refine ⟨chunks 16 (m.take (16 * ((m.length - 1) / 16))), m.drop (16 * ((m.length - 1) / 16)), ?_, ?_, ?_, ?_⟩
    · rw [chunks_flatten (by decide), List.take_append_drop]
    · refine chunks_length_of_dvd (by decide) _ ?_
      rw [List.length_take, Nat.min_eq_left (by omega)]; exact Nat.dvd_mul_right _ _
    · rw [List.length_drop]; omega
    · intro _ h
      have := congrArg List.length h
      rw [List.length_drop, List.length_nil] at this
      omega

theorem splits_length {m : Bytes} {bs : List Bytes} {last : Bytes} (h : Splits m bs last) :
    m.length = 16 * bs.length + last.length := by
  rw [h.eq, List.length_append, flatten_length_of bs h.blocks]

/-- CMAC of a message that is split. -/
theorem cmac_splits {m iv : Bytes} {bs : List Bytes} {last : Bytes} (h : Splits m bs last) :
    CMAC E iv m = E (xorb (cbcMac E 16 iv bs.flatten) (cmacLast E last)) := by
  have hm := splits_length h
  have hlast : bs ≠ [] → 0 < last.length := fun hb => List.length_pos_iff.2 (h.nonempty hb)
  have hb0 : bs = [] ∨ 0 < last.length := by
    by_cases hb : bs = []
    · exact .inl hb
    · exact .inr (hlast hb)
  have hs := h.short
  have hsplit : 16 * ((if m.length = 0 then 1 else (m.length + 15) / 16) - 1) = bs.flatten.length := by
    rw [flatten_length_of bs h.blocks]
    rcases hb0 with rfl | hb0
    · simp only [List.length_nil] at hm ⊢
      split <;> omega
    · rw [if_neg (by omega)]; omega
  have hfull : (m.length ≠ 0 ∧ 16 ∣ m.length) ↔ last.length = 16 := by
    rcases hb0 with rfl | hb0
    · simp only [List.length_nil] at hm
      omega
    · omega
  unfold Spec.CMAC Spec.cmacLast
  simp only
  rw [hsplit]
  simp only [hfull]
  rw [h.eq, List.take_left, List.drop_left]

theorem cmac_flatten_dvd {bs : List Bytes} (h : ∀ b ∈ bs, b.length = 16) : 16 ∣ bs.flatten.length := by
  rw [flatten_length_of bs h]; exact Nat.dvd_mul_right _ _

theorem pad8000_inj {x y : Bytes} (hx : x.length < 16) (hy : y.length < 16)
    (h : pad8000 16 x = pad8000 16 y) : x = y := by
  have hc := LibraryPadding.computes (n := 16) (by decide) (.inr ⟨rfl, rfl⟩ : LibraryPadding.fn (pad8000 16) _ 16)
  have e := congrArg Padding._8000.strip h
  rw [hc.strip_pad hx, hc.strip_pad hy] at e
  rw [← hc.pad_take (x := x), h, Except.ok.inj e, hc.pad_take]

/-- Two blocks, one complete and the other not, that the subkeys make equal. -/
def Spec.SubkeyCollision (E : Bytes → Bytes) (last last' : Bytes) : Prop :=
  last.length = 16 ∧ last'.length < 16 ∧ xorb (K1 E) (K2 E) = xorb last (pad8000 16 last')

theorem subkeyCollision_iff {x y : Bytes} (hx : x.length = 16) (hy : y.length < 16) :
    cmacLast E x = cmacLast E y ↔ Spec.SubkeyCollision E x y := by
  have hp := pad8000_len hy
  have e : cmacLast E x = cmacLast E y ↔ xorb (K1 E) x = xorb (K2 E) (pad8000 16 y) := by
    rw [Spec.cmacLast, if_pos hx, Spec.cmacLast, if_neg (by omega)]
  rw [e]
  unfold Spec.SubkeyCollision
  constructor
  · intro h
    refine ⟨hx, hy, ?_⟩
    have h1 : xorb (xorb (K1 E) x) x = K1 E := xorb_xorb_cancel (by rw [K1_length, hx])
    rw [← h1, h, xorb_comm (K2 E), xorb_comm _ x, ← xorb_assoc, xorb_xorb_cancel (by simp [hx, hp, K2_length])]
  · rintro ⟨_, _, h⟩
    have h1 : xorb (xorb (K1 E) (K2 E)) (K2 E) = K1 E :=
      xorb_xorb_cancel (by rw [K1_length, K2_length])
    rw [← h1, h, xorb_comm x, xorb_assoc, xorb_comm (K2 E) x, ← xorb_assoc, xorb_xorb_cancel (by simp [hx, hp, K2_length]),
      xorb_comm]

/-- How two different messages can have the same CMAC: either the beginnings are different, and the cipher
is applied to the same block after them; or only the last blocks are different, one of them is complete and
the other is not, and their difference is that of the subkeys. -/
inductive Spec.CmacCollision (E : Bytes → Bytes) (iv : Bytes) (bs bs' : List Bytes) (last last' : Bytes) : Prop
  | chain : bs ≠ bs' → xorb (cbcMac E 16 iv bs.flatten) (cmacLast E last)
      = xorb (cbcMac E 16 iv bs'.flatten) (cmacLast E last') → CmacCollision E iv bs bs' last last'
  | subkeys : bs = bs' → Spec.SubkeyCollision E last last' ∨ Spec.SubkeyCollision E last' last →
      CmacCollision E iv bs bs' last last'

theorem cmac_collision (hE : BlockInj 16 E) {iv m m' : Bytes} {bs bs' : List Bytes} {last last' : Bytes}
    (hi : iv.length = 16) (h : Splits m bs last) (h' : Splits m' bs' last') (hne : m ≠ m')
    (he : CMAC E iv m = CMAC E iv m') : Spec.CmacCollision E iv bs bs' last last' := by
  rw [cmac_splits h, cmac_splits h'] at he
  have l := cbcMac_length (by decide) hE.len hi (cmac_flatten_dvd h.blocks)
  have l' := cbcMac_length (by decide) hE.len hi (cmac_flatten_dvd h'.blocks)
  have k := cmacLast_length (E := E) h.short
  have k' := cmacLast_length (E := E) h'.short
  have e := hE.inj (xorb_len_eq l k) (xorb_len_eq l' k') he
  by_cases hb : bs = bs'
  · subst hb
    refine .subkeys rfl ?_
    have e' := xorb_inj_left (by rw [k, l]) (by rw [k', l]) e
    have hl : last ≠ last' := fun hl => hne (by rw [h.eq, h'.eq, hl])
    have s := h.short
    have s' := h'.short
    by_cases f : last.length = 16
    · by_cases f' : last'.length = 16
      · rw [Spec.cmacLast, if_pos f, Spec.cmacLast, if_pos f'] at e'
        exact absurd (xorb_inj_left (by rw [f, K1_length]) (by rw [f', K1_length]) e') hl
      · exact .inl ((subkeyCollision_iff f (by omega)).1 e')
    · by_cases f' : last'.length = 16
      · exact .inr ((subkeyCollision_iff f' (by omega)).1 e'.symm)
      · rw [Spec.cmacLast, if_neg f, Spec.cmacLast, if_neg f'] at e'
        have p := pad8000_len (x := last) (by omega)
        have p' := pad8000_len (x := last') (by omega)
        exact absurd (pad8000_inj (by omega) (by omega)
          (xorb_inj_left (by rw [p, K2_length]) (by rw [p', K2_length]) e')) hl
  · exact .chain hb e

/-! ### Extension -/

theorem splits_append {a l : Bytes} {bs : List Bytes} {last : Bytes} (ha : 16 ∣ a.length) (h : Splits l bs last)
    (hl : l ≠ []) : Splits (a ++ l) (chunks 16 a ++ bs) last := by
  refine ⟨?_, ?_, h.short, ?_⟩
  · rw [List.flatten_append, chunks_flatten (by decide), List.append_assoc, ← h.eq]
  · intro b hb
    rcases List.mem_append.1 hb with hb | hb
    · exact chunks_length_of_dvd (by decide) a ha b hb
    · exact h.blocks b hb
  · intro _ h0
    by_cases hb : bs = []
    · exact hl (by rw [h.eq, hb, h0]; rfl)
    · exact h.nonempty hb h0

theorem cmac_append {a l v : Bytes} (ha : 16 ∣ a.length) (hl : l ≠ []) :
    CMAC E v (a ++ l) = CMAC E (cbcMac E 16 v a) l := by
  obtain ⟨bs, last, h⟩ := splits_exists l
  rw [cmac_splits h, cmac_splits (splits_append ha h hl), List.flatten_append, chunks_flatten (by decide),
    cbcMac_append (by decide) ha]

theorem cmac_iv_inj (hE : BlockInj 16 E) {l v v' : Bytes} (hv : v.length = 16) (hv' : v'.length = 16)
    (h : CMAC E v l = CMAC E v' l) : v = v' := by
  obtain ⟨bs, last, hs⟩ := splits_exists l
  rw [cmac_splits hs, cmac_splits hs] at h
  have d := cmac_flatten_dvd hs.blocks
  have k := cmacLast_length (E := E) hs.short
  have c := cbcMac_length (by decide) hE.len hv d
  have c' := cbcMac_length (by decide) hE.len hv' d
  exact cbcMac_iv_inj (by decide) hE d hv hv' (xorb_inj_right (by rw [c, k]) (by rw [c', k])
    (hE.inj (xorb_len_eq c k) (xorb_len_eq c' k) h))

theorem splits_block {x : Bytes} (hx : x.length = 16) : Splits x [] x :=
  ⟨rfl, by simp, Nat.le_of_eq hx, by simp⟩

/-- The first block enters through the block function. -/
theorem cmac_first (hE : BlockInj 16 E) {x y r v w : Bytes} (hx : x.length = 16) (hy : y.length = 16)
    (hv : v.length = 16) (hw : w.length = 16) :
    CMAC E v (x ++ r) = CMAC E w (y ++ r) ↔ xorb x v = xorb y w := by
  by_cases hr : r = []
  · subst hr
    simp only [List.append_nil]
    rw [cmac_splits (splits_block hx), cmac_splits (splits_block hy)]
    simp only [List.flatten_nil, cbcMac_nil]
    rw [Spec.cmacLast, if_pos hx, Spec.cmacLast, if_pos hy]
    have e : ∀ x v : Bytes, xorb v (xorb (K1 E) x) = xorb (xorb x v) (K1 E) := fun x v => by
      rw [xorb_comm (K1 E), ← xorb_assoc, xorb_comm v]
    rw [e, e]
    have a := xorb_len_eq hx hv
    have b := xorb_len_eq hy hw
    constructor
    · intro h
      exact xorb_inj_right (by rw [a, K1_length]) (by rw [b, K1_length])
        (hE.inj (xorb_len_eq a K1_length) (xorb_len_eq b K1_length) h)
    · intro h; rw [h]
  · rw [cmac_append (by rw [hx]) hr, cmac_append (by rw [hy]) hr, cbcMac_block (by decide) hx,
      cbcMac_block (by decide) hy]
    have a := xorb_len_eq hx hv
    have b := xorb_len_eq hy hw
    constructor
    · intro h
      exact hE.inj a b (cmac_iv_inj hE (hE.len _ a) (hE.len _ b) h)
    · intro h; rw [h]

theorem dbl_eq_zero {x : BitVec 128} : Spec.dbl x = 0#128 ↔ x = 0#128 := by
  unfold Spec.dbl
  constructor
  · intro h
    by_cases hm : x.msb
    · rw [if_pos hm] at h
      have := congrArg (fun y => y.getLsbD 0) h
      simp at this
    · rw [if_neg hm] at h
      have h1 := congrArg BitVec.toNat h
      simp only [BitVec.toNat_shiftLeft, BitVec.toNat_ofNat] at h1
      have h2 : x.toNat < 2 ^ 127 := by
        have := BitVec.msb_eq_decide x
        rw [this] at hm
        simpa using hm
      apply BitVec.eq_of_toNat_eq
      rw [Nat.shiftLeft_eq] at h1
      simp only [BitVec.toNat_ofNat]
      omega
  · intro h
    subst h
    decide

theorem ofBits_eq_zero {x : BitVec 128} : Spec.ofBits x = List.replicate 16 0 ↔ x = 0#128 := by
  constructor
  · intro h
    have := congrArg Spec.toBits h
    rw [toBits_ofBits] at this
    rw [this]
    decide
  · intro h; subst h; decide

theorem toBits_eq_zero {l : Bytes} (hl : l.length = 16) : Spec.toBits l = 0#128 ↔ l = List.replicate 16 0 := by
  constructor
  · intro h
    have h1 := congrArg BitVec.toNat h
    have h2 : beNat l < 2 ^ 128 := by
      have := beNat_lt l
      rw [hl] at this
      exact this
    unfold Spec.toBits at h1
    rw [BitVec.toNat_ofNat, Nat.mod_eq_of_lt h2] at h1
    have h3 := natToBE_beNat l
    rw [hl, h1] at h3
    rw [← h3]
    decide
  · intro h; subst h; decide

theorem K1_eq_zero (hE : BlockInj 16 E) :
    K1 E = List.replicate 16 0 ↔ E (List.replicate 16 0) = List.replicate 16 0 := by
  unfold Spec.K1
  rw [ofBits_eq_zero, dbl_eq_zero, toBits_eq_zero (hE.len _ (by simp))]

theorem xorb_eq_right {a b : Bytes} (ha : a.length = 16) (hb : b.length = 16) :
    xorb a b = b ↔ a = List.replicate 16 0 := by
  have h0 : xorb (List.replicate 16 0) b = b := by rw [xorb_comm, xorb_zeros hb]
  constructor
  · intro h
    exact xorb_inj_right (c := b) (by rw [ha, hb]) (by simp [hb]) (h.trans h0.symm)
  · intro h; rw [h]; exact h0

/-- CMAC and CBC-MAC of complete blocks. -/
theorem cmac_eq_cbcMac (hE : BlockInj 16 E) {iv m : Bytes} (hi : iv.length = 16) (hm : m ≠ [])
    (hd : 16 ∣ m.length) :
    CMAC E iv m = cbcMac E 16 iv m ↔ E (List.replicate 16 0) = List.replicate 16 0 := by
  obtain ⟨bs, last, h⟩ := splits_exists m
  have hl := splits_length h
  have hs := h.short
  have h16 : last.length = 16 := by
    have hp : 0 < last.length := by
      by_cases hb : bs = []
      · have := List.length_pos_iff.2 hm
        rw [hl, hb, List.length_nil] at this
        omega
      · exact List.length_pos_iff.2 (h.nonempty hb)
    omega
  have d := cmac_flatten_dvd h.blocks
  have c := cbcMac_length (by decide) hE.len hi d
  have e : cbcMac E 16 iv m = E (xorb last (cbcMac E 16 iv bs.flatten)) := by
    rw [h.eq, cbcMac_append (by decide) d, cbcMac_block (by decide) h16]
  rw [cmac_splits h, e, Spec.cmacLast, if_pos h16, ← K1_eq_zero hE, xorb_comm last]
  have k := xorb_len_eq (K1_length (E := E)) h16
  rw [← xorb_eq_right (K1_length (E := E)) h16]
  constructor
  · intro h'
    exact xorb_inj_left (by rw [k, c]) (by rw [h16, c]) (hE.inj (xorb_len_eq c k) (xorb_len_eq c h16) h')
  · intro h'; rw [h']

theorem cmac_extended (hE : BlockInj 16 E) {iv m b r : Bytes} (hi : iv.length = 16) (hm : m ≠ [])
    (hd : 16 ∣ m.length) (hb : b.length = 16) :
    CMAC E iv (extended iv (CMAC E iv m) m b r) = CMAC E iv (b ++ r)
      ↔ E (List.replicate 16 0) = List.replicate 16 0 := by
  have hT : (CMAC E iv m).length = 16 := by
    obtain ⟨bs, last, h⟩ := splits_exists m
    rw [cmac_splits h]
    exact hE.len _ (xorb_len_eq (cbcMac_length (by decide) hE.len hi (cmac_flatten_dvd h.blocks))
      (cmacLast_length h.short))
  have c := cbcMac_length (by decide) hE.len hi hd
  have x := xorb_len_eq hb hi
  have y := xorb_len_eq x hT
  unfold Spec.extended
  rw [List.append_assoc, cmac_append hd (by
      intro h0
      have := congrArg List.length h0
      rw [List.length_append, y, List.length_nil] at this
      omega), cmac_first hE y hb c hi, ← cmac_eq_cbcMac hE hi hm hd, xorb_assoc]
  constructor
  · intro h
    have h0 : xorb (xorb (CMAC E iv m) (cbcMac E 16 iv m)) (xorb b iv) = xorb b iv := by rw [xorb_comm]; exact h
    rw [xorb_eq_right (xorb_len_eq hT c) x] at h0
    have h1 := xorb_xorb_cancel (a := CMAC E iv m) (b := cbcMac E 16 iv m) (by rw [hT, c])
    rw [h0] at h1
    rw [← h1, xorb_comm, xorb_zeros c]
  · intro h
    rw [h, ← xorb_assoc, xorb_xorb_cancel (by rw [x, c])]

section
variable {env : Env} {iv : Option Bytes} {key : Bytes} {host : Cipher.AesHost} {h : AnyHash}

/-- C101, `MAC.aes_cmac`, messages of any lengths: if two different messages have the same tag, then there is
a collision in the chain, or the subkeys, which depend on the key only, are in a given relation. -/
theorem C101_cmac (hh : MAC.aesCmac env host iv key = some (.ok h)) {ops ops' : List HOp}
    (l : ∀ op ∈ ops, op.Legal) (l' : ∀ op ∈ ops', op.Legal) {bs bs' : List Bytes} {last last' : Bytes}
    (hs : Splits (hinputOf ops) bs last) (hs' : Splits (hinputOf ops') bs' last')
    (hne : hinputOf ops ≠ hinputOf ops') (he : h.show ops = h.show ops') :
    Spec.CmacCollision (Spec.Aes.encrypt key) (ivOf 16 iv) bs bs' last last' := by
  obtain ⟨hk, hi, hsh⟩ := makesMac_inv (C17_mac_aes_cmac host) hh
  rw [hsh _ l, hsh _ l'] at he
  exact cmac_collision (aes_blockInj hk) (ivOf_length hi) hs hs' hne (Except.ok.inj (Option.some.inj he))

/-- C101, `MAC.aes_cmac`, messages of at most one block, both complete or both incomplete: different
messages have different tags. -/
theorem C101_cmac_one_block (hh : MAC.aesCmac env host iv key = some (.ok h)) {ops ops' : List HOp}
    (l : ∀ op ∈ ops, op.Legal) (l' : ∀ op ∈ ops', op.Legal) (hs : (hinputOf ops).length ≤ 16)
    (hs' : (hinputOf ops').length ≤ 16) (hf : (hinputOf ops).length = 16 ↔ (hinputOf ops').length = 16)
    (hne : hinputOf ops ≠ hinputOf ops') : h.show ops ≠ h.show ops' := by
  intro he
  cases C101_cmac hh l l' (bs := []) (bs' := []) ⟨rfl, by simp, hs, by simp⟩ ⟨rfl, by simp, hs', by simp⟩ hne he with
  | chain h' _ => exact h' rfl
  | subkeys _ h' =>
    rcases h' with ⟨a, b, _⟩ | ⟨a, b, _⟩
    · exact Nat.ne_of_lt b (hf.1 a)
    · exact Nat.ne_of_lt b (hf.2 a)

/-- C101, `MAC.aes_cmac`: messages whose last blocks are related as in `C101_cmac` do have the same tag. -/
theorem C101_cmac_subkeys (hh : MAC.aesCmac env host iv key = some (.ok h)) {ops ops' : List HOp}
    (l : ∀ op ∈ ops, op.Legal) (l' : ∀ op ∈ ops', op.Legal) {bs : List Bytes} {last last' : Bytes}
    (hs : Splits (hinputOf ops) bs last) (hs' : Splits (hinputOf ops') bs last')
    (hc : Spec.SubkeyCollision (Spec.Aes.encrypt key) last last') : h.show ops = h.show ops' := by
  obtain ⟨hk, hi, hsh⟩ := makesMac_inv (C17_mac_aes_cmac host) hh
  rw [hsh _ l, hsh _ l', cmac_splits hs, cmac_splits hs', (subkeyCollision_iff hc.1 hc.2.1).2 hc]

/-- C101, `MAC.aes_cmac`: the extension of C101_forgery gives the tag of `b ++ r` only if the key encrypts the
block of zeroes to itself. -/
theorem C101_cmac_extension (hh : MAC.aesCmac env host iv key = some (.ok h)) {ops ops2 ops3 : List HOp}
    {T b rest : Bytes} (l : ∀ op ∈ ops, op.Legal) (l2 : ∀ op ∈ ops2, op.Legal) (l3 : ∀ op ∈ ops3, op.Legal)
    (hb : b.length = 16) (hm : hinputOf ops ≠ []) (hd : 16 ∣ (hinputOf ops).length)
    (hT : h.show ops = some (.ok T)) (e2 : hinputOf ops2 = b ++ rest)
    (e3 : hinputOf ops3 = extended (ivOf 16 iv) T (hinputOf ops) b rest) :
    h.show ops3 = h.show ops2 ↔ Spec.Aes.encrypt key (List.replicate 16 0) = List.replicate 16 0 := by
  obtain ⟨hk, hi, hsh⟩ := makesMac_inv (C17_mac_aes_cmac host) hh
  rw [hsh _ l] at hT
  have hT := Except.ok.inj (Option.some.inj hT)
  subst hT
  rw [hsh _ l2, hsh _ l3, e2, e3, ← cmac_extended (aes_blockInj hk) (ivOf_length hi) hm hd hb (r := rest)]
  simp

end

end Verif

namespace Verif.Example

open Spec (cbcMac ivOf extended Forgeable SameLength macValue cmacLast Splits)

/-- The calls that add `m` character by character. -/
def addAll (m : Bytes) : List HOp := m.map .addChar

theorem addAll_legal (m : Bytes) : ∀ op ∈ addAll m, op.Legal := by
  intro op h
  obtain ⟨c, _, rfl⟩ := List.mem_map.1 h
  trivial

theorem addAll_input (m : Bytes) : hinputOf (addAll m) = m := by
  induction m with
  | nil => rfl
  | cons c m ih => exact congrArg (c :: ·) ih

/-- A forgery on `MAC.aes` (C101_forgery): the tag of "0123456789abcdef" gives that of a message of three
blocks, equal to that of "fedcba9876543210" and 16 zeroes. -/
example : ∃ h T, MAC.aes env64 (.table []) none none aesKey = some (.ok h) ∧
    h.show (addAll (ascii "0123456789abcdef")) = some (.ok T) ∧
    h.show (addAll (extended (List.replicate 16 0) T (ascii "0123456789abcdef") (ascii "fedcba9876543210")
      (List.replicate 16 0)))
      = h.show (addAll (ascii "fedcba9876543210" ++ List.replicate 16 0)) := by
  have hm := C15_mac_aes (env := env64) (iv := none) (key := aesKey) (.table []) Spec.PadOk.none
  obtain ⟨h, h1, _, h2⟩ := hm.success (by decide) (by simp [Spec.IVOk])
  have hT := h2 _ (addAll_legal (ascii "0123456789abcdef"))
  rw [addAll_input, macValue, if_pos (by decide)] at hT
  refine ⟨h, _, h1, hT, ?_⟩
  refine C101_forgery.1 (.table []) .none h h1 (addAll (ascii "0123456789abcdef")) _ _ _
    (ascii "fedcba9876543210") (List.replicate 16 0) (addAll_legal _) (addAll_legal _) (addAll_legal _)
    (by decide) hT (addAll_input _) ?_
  rw [addAll_input, addAll_input]
  rfl

/-- Two messages of two blocks with the same tag of `MAC.des` (C101_fixed_length): there are such messages. -/
example : ∃ h m m' T, MAC.des env64 none none desKey = some (.ok h) ∧
    SameLength h (addAll m) (addAll m') T T := by
  have hm := C15_mac_des (env := env64) (iv := none) (key := desKey) Spec.PadOk.none
  obtain ⟨h, h1, _, h2⟩ := hm.success (by decide) (by simp [Spec.IVOk])
  let E := Spec.Des.encrypt desKey
  let a : Bytes := List.replicate 8 0
  let a' : Bytes := List.replicate 8 1
  have ha : (E (xorb a a)).length = 8 := Spec.Des.encrypt_length _ _
  have ha' : (E (xorb a' a)).length = 8 := Spec.Des.encrypt_length _ _
  have hx : (xorb (E (xorb a a)) (E (xorb a' a))).length = 8 := xorb_len_eq ha ha'
  have v : ∀ x y : Bytes, x.length = 8 → y.length = 8 →
      h.show (addAll (x ++ y)) = some (.ok (E (xorb y (E (xorb x a))))) := by
    intro x y hx hy
    have := h2 _ (addAll_legal (x ++ y))
    rw [addAll_input, macValue, if_pos (show 8 ∣ (id (x ++ y) : Bytes).length by simp [hx, hy])] at this
    rw [this]
    show some (Except.ok (cbcMac E 8 a (x ++ y))) = _
    rw [cbcMac_append (by decide) (by rw [hx]), cbcMac_block (by decide) hy, cbcMac_block (by decide) hx]
  refine ⟨h, a ++ a, a' ++ xorb (E (xorb a a)) (E (xorb a' a)), _, h1, addAll_legal _, addAll_legal _,
    v a a rfl rfl, ?_, ?_, ?_⟩
  · rw [v a' _ rfl hx, xorb_xorb_cancel (by rw [ha, ha']), xorb_comm a (E _), show a = List.replicate 8 0 from rfl, xorb_zeros ha]
  · rw [addAll_input, addAll_input, List.length_append, List.length_append, hx]; rfl
  · rw [addAll_input, addAll_input]
    intro e
    have := congrArg List.head? e
    revert this
    decide

/-- Two messages that differ in their second block, padded (C101_one_block). -/
example : ∃ h T T', MAC.aes env64 (.table []) none (some Padding._8000) aesKey = some (.ok h) ∧
    SameLength h (addAll (List.replicate 16 7 ++ [1, 2])) (addAll (List.replicate 16 7 ++ [1, 3])) T T' ∧ T ≠ T' := by
  have hm := C15_mac_aes (env := env64) (iv := none) (key := aesKey) (.table []) Spec.PadOk._8000
  obtain ⟨h, h1, _, h2⟩ := hm.success (by decide) (by simp [Spec.IVOk])
  have t := h2 _ (addAll_legal (List.replicate 16 7 ++ [1, 2]))
  have t' := h2 _ (addAll_legal (List.replicate 16 7 ++ [1, 3]))
  rw [addAll_input, macValue, if_pos (by decide)] at t t'
  have s := SameLength.mk (addAll_legal _) (addAll_legal _) t t' (by decide) (by decide)
  exact ⟨h, _, _, h1, s, C101_one_block.1 (.table []) ._8000 h h1 _ _ _ _ 1 s (by decide) (by decide)⟩

/-- CMAC of "abc" and of "abd" are different (C101_cmac_one_block). -/
example : ∃ h, MAC.aesCmac env64 (.table []) none aesKey = some (.ok h) ∧
    h.show (addAll (ascii "abc")) ≠ h.show (addAll (ascii "abd")) := by
  obtain ⟨h, h1, _, _⟩ := (C17_mac_aes_cmac (env := env64) (iv := none) (key := aesKey) (.table [])).success
    (by decide) (by simp [Spec.IVOk])
  exact ⟨h, h1, C101_cmac_one_block h1 (addAll_legal _) (addAll_legal _) (by decide) (by decide) (by decide)
    (by decide)⟩

/-- The empty message and a message of one block that have the same CMAC (C101_cmac, C101_cmac_subkeys): there
is one for each key. -/
example : ∃ h m, MAC.aesCmac env64 (.table []) none aesKey = some (.ok h) ∧ m ≠ [] ∧
    h.show (addAll m) = h.show (addAll []) := by
  obtain ⟨h, h1, _, _⟩ := (C17_mac_aes_cmac (env := env64) (iv := none) (key := aesKey) (.table [])).success
    (by decide) (by simp [Spec.IVOk])
  let m := xorb (xorb (Spec.K1 (Spec.Aes.encrypt aesKey)) (Spec.K2 (Spec.Aes.encrypt aesKey))) (Spec.pad8000 16 [])
  have hk := xorb_len_eq (K1_length (E := Spec.Aes.encrypt aesKey)) (K2_length (E := Spec.Aes.encrypt aesKey))
  have hp := pad8000_len (x := []) (by decide)
  have hm : m.length = 16 := xorb_len_eq hk hp
  refine ⟨h, m, h1, fun h0 => by rw [h0] at hm; simp at hm, ?_⟩
  refine C101_cmac_subkeys h1 (addAll_legal _) (addAll_legal _) (bs := []) (last := m) (last' := [])
    (by rw [addAll_input]; exact splits_block hm) (by rw [addAll_input]; exact ⟨rfl, by simp, by simp, by simp⟩)
    ⟨hm, by decide, ?_⟩
  exact (xorb_xorb_cancel (by rw [hk, hp])).symm

/-- The extension of a message of one block (C101_cmac_extension). -/
example : ∃ h T, MAC.aesCmac env64 (.table []) none aesKey = some (.ok h) ∧
    h.show (addAll (ascii "0123456789abcdef")) = some (.ok T) ∧
    (h.show (addAll (extended (List.replicate 16 0) T (ascii "0123456789abcdef") (ascii "fedcba9876543210") []))
      = h.show (addAll (ascii "fedcba9876543210" ++ []))
      ↔ Spec.Aes.encrypt aesKey (List.replicate 16 0) = List.replicate 16 0) := by
  obtain ⟨h, h1, _, h2⟩ := (C17_mac_aes_cmac (env := env64) (iv := none) (key := aesKey) (.table [])).success
    (by decide) (by simp [Spec.IVOk])
  have hT := h2 _ (addAll_legal (ascii "0123456789abcdef"))
  refine ⟨h, _, h1, hT, ?_⟩
  refine C101_cmac_extension h1 (addAll_legal (ascii "0123456789abcdef")) (addAll_legal _) (addAll_legal _)
    (by decide) (by decide) (by decide) hT (addAll_input _) ?_
  rw [addAll_input, addAll_input]
  rfl

end Verif.Example
