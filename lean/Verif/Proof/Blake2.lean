import Verif.Spec.Blake2
import Verif.Proof.Lazy
import Verif.Proof.Hash
/-
The C code of BLAKE2 computes the functions of RFC 7693.
-/
namespace Verif
open Spec

/-- The parameters of the code are those of the specification. -/
structure Blake2Conf (p : Blake2Params) (c : Blake2Code p.w) : Prop where
  w : p.w = 8 * c.k
  kpos : 0 < c.k
  small : 16 * c.k < 2 ^ p.w
  load : ∀ b : Bytes, c.k ≤ b.length → c.load b = BitVec.ofNat p.w (leNat (b.take c.k))
  r1 : ∀ x, c.rotr x c.r1 = x.rotateRight p.R1
  r2 : ∀ x, c.rotr x c.r2 = x.rotateRight p.R2
  r3 : ∀ x, c.rotr x c.r3 = x.rotateRight p.R3
  r4 : ∀ x, c.rotr x c.r4 = x.rotateRight p.R4
  rounds : c.rounds = p.r
  sigma : ∀ i < p.r, blake2Sigma.getD i [] = SIGMA.getD (i % 10) []
  iv : c.iv = p.IV
  ivlen : p.IV.length = 8

theorem getD_set_self {v : List (BitVec w)} {a : Nat} (h : a < v.length) (x : BitVec w) :
    (v.set a x).getD a 0 = x := by simp [h]
theorem getD_set_ne {v : List (BitVec w)} {a b : Nat} (h : a ≠ b) (x : BitVec w) :
    (v.set a x).getD b 0 = v.getD b 0 := by simp [List.getElem?_set, h]

section
variable {p : Blake2Params} {c : Blake2Code p.w} (hc : Blake2Conf p c)
include hc

theorem blake2Mix_eq {v : List (BitVec p.w)} {i j k l : Nat} (hi : i < v.length) (hj : j < v.length)
    (hk : k < v.length) (hl : l < v.length) (hij : i ≠ j) (hik : i ≠ k) (hil : i ≠ l) (hjk : j ≠ k)
    (hjl : j ≠ l) (hkl : k ≠ l) (x y : BitVec p.w) :
    blake2Mix c v i j k l x y = p.G v i j k l x y := by
  unfold blake2Mix Blake2Params.G
  simp only
  rw [hc.r1, hc.r2, hc.r3, hc.r4]
  simp only [getD_set_self, getD_set_ne, List.length_set, hi, hj, hk, hl, hij, hik, hil, hjk, hjl,
    hkl, hij.symm, hik.symm, hil.symm, hjk.symm, hjl.symm, hkl.symm, ne_eq, not_false_eq_true,
    ← BitVec.add_assoc]
  apply List.ext_getElem?
  intro n
  simp only [List.getElem?_set, List.length_set]
  by_cases h1 : i = n
  · subst h1; simp [hij.symm, hik.symm, hil.symm, hi]
  · by_cases h2 : j = n
    · subst h2; simp [hjk.symm, hjl.symm, hj]
    · by_cases h3 : k = n
      · subst h3; simp [h1, h2, hkl.symm, hk]
      · by_cases h4 : l = n
        · subst h4; simp [h1, h2, h3, hl]
        · simp [h1, h2, h3, h4]

theorem blake2Mix_eq16 {v : List (BitVec p.w)} (i j k l : Nat) (x y : BitVec p.w) 
    (hv : v.length = 16)
    (h : i < 16 ∧ j < 16 ∧ k < 16 ∧ l < 16 ∧ i ≠ j ∧ i ≠ k ∧ i ≠ l ∧ j ≠ k ∧ j ≠ l ∧ k ≠ l) :
    blake2Mix c v i j k l x y = p.G v i j k l x y := by
  obtain ⟨h1, h2, h3, h4, h5, h6, h7, h8, h9, h10⟩ := h
  exact blake2Mix_eq hc (by omega) (by omega) (by omega) (by omega) h5 h6 h7 h8 h9 h10 x y

omit hc in
theorem G_length (v : List (BitVec p.w)) (a b c' d : Nat) (x y : BitVec p.w) :
    (p.G v a b c' d x y).length = v.length := by simp [Blake2Params.G]

theorem blake2Round_eq {v m : List (BitVec p.w)} (hv : v.length = 16) {i : Nat} (hi : i < p.r) :
    blake2Round c m v i = p.round m v i := by
  unfold blake2Round Blake2Params.round
  simp only
  rw [hc.sigma i hi]
  rw [blake2Mix_eq16 hc 0 4, blake2Mix_eq16 hc 1 5, blake2Mix_eq16 hc 2 6, blake2Mix_eq16 hc 3 7,
    blake2Mix_eq16 hc 0 5, blake2Mix_eq16 hc 1 6, blake2Mix_eq16 hc 2 7, blake2Mix_eq16 hc 3 4]
  all_goals first | decide | simp only [G_length, hv]

omit hc in
theorem round_length (m v : List (BitVec p.w)) (i : Nat) : (p.round m v i).length = v.length := by
  simp [Blake2Params.round, G_length]

theorem blake2Rounds_eq (m : List (BitVec p.w)) (is : List Nat) (his : ∀ i ∈ is, i < p.r)
    {v : List (BitVec p.w)} (hv : v.length = 16) :
    is.foldl (blake2Round c m) v = is.foldl (p.round m) v := by
  induction is generalizing v with
  | nil => rw [List.foldl_nil, List.foldl_nil]
  | cons i is ih =>
    have hl : (p.round m v i).length = 16 := (round_length m v i).trans hv
    have h2 : ∀ j ∈ is, j < p.r := fun j hj => his j (List.mem_cons_of_mem _ hj)
    have := ih h2 hl
    rw [List.foldl_cons, List.foldl_cons, blake2Round_eq hc hv (his i List.mem_cons_self), this]

theorem blake2_words {d : Bytes} (hd : d.length = 16 * c.k) :
    (List.range 16).map (fun i => c.load (d.drop (i * c.k)))
      = (chunks (p.w / 8) d).map fun b => BitVec.ofNat p.w (leNat b) := by
  have hk := hc.kpos
  have hw : p.w / 8 = c.k := by have := hc.w; omega
  rw [hw]
  apply List.ext_getElem?
  intro i
  rw [List.getElem?_map, List.getElem?_map]
  by_cases hi : i < 16
  · have hlt : i * c.k + c.k ≤ d.length := by
      rw [hd, ← Nat.succ_mul]; exact Nat.mul_le_mul_right _ hi
    rw [List.getElem?_range hi, chunks_getElem? hk d i (by omega), Option.map_some, Option.map_some,
      hc.load _ (by rw [List.length_drop]; omega)]
  · rw [List.getElem?_eq_none (by simp; omega), List.getElem?_eq_none]
    · rfl
    · rw [chunks_length hk, hd]
      have : (16 * c.k + c.k - 1) / c.k ≤ 16 := by
        rw [Nat.div_le_iff_le_mul_add_pred hk]; rw [Nat.mul_comm]; omega
      omega

theorem blake2_len {s : Blake2State p.w} {T n : Nat} (h0 : s.len0 = BitVec.ofNat p.w T)
    (h1 : s.len1 = BitVec.ofNat p.w (T / 2 ^ p.w)) (hn : n ≤ 16 * c.k) :
    s.len0 + BitVec.ofNat p.w n = BitVec.ofNat p.w (T + n) ∧
    (if s.len0 + BitVec.ofNat p.w n < BitVec.ofNat p.w n then s.len1 + 1 else s.len1)
      = BitVec.ofNat p.w ((T + n) / 2 ^ p.w) := by
  have hlt : n < 2 ^ p.w := Nat.lt_of_le_of_lt hn hc.small
  have hpos : 0 < 2 ^ p.w := Nat.pow_pos (by decide)
  have e0 : s.len0 + BitVec.ofNat p.w n = BitVec.ofNat p.w (T + n) := by
    rw [h0, ← BitVec.ofNat_add]
  refine ⟨e0, ?_⟩
  rw [e0, h1]
  have hm := Nat.mod_lt T hpos
  have hdm := Nat.div_add_mod T (2 ^ p.w)
  have hTn : T + n = (T % 2 ^ p.w + n) + 2 ^ p.w * (T / 2 ^ p.w) := by omega
  have hdiv : (T + n) / 2 ^ p.w = T / 2 ^ p.w + (T % 2 ^ p.w + n) / 2 ^ p.w := by
    rw [hTn, Nat.add_mul_div_left _ _ hpos]
    omega
  have hmod : (T + n) % 2 ^ p.w = (T % 2 ^ p.w + n) % 2 ^ p.w := by
    rw [hTn, Nat.add_mul_mod_self_left]
  have hlt' : BitVec.ofNat p.w (T + n) < BitVec.ofNat p.w n ↔ (T % 2 ^ p.w + n) % 2 ^ p.w < n := by
    rw [BitVec.lt_def, BitVec.toNat_ofNat, BitVec.toNat_ofNat, hmod, Nat.mod_eq_of_lt hlt]
  simp only [hlt']
  rw [hdiv]
  generalize hr : T % 2 ^ p.w = r at *
  by_cases hcar : r + n < 2 ^ p.w
  · rw [Nat.mod_eq_of_lt hcar, if_neg (by omega), Nat.div_eq_of_lt hcar, Nat.add_zero]
  · have hd1 : (r + n) / 2 ^ p.w = 1 := Nat.div_eq_of_lt_le (by omega) (by omega)
    have hm1 : (r + n) % 2 ^ p.w = r + n - 2 ^ p.w := by
      rw [Nat.mod_eq_sub_mod (by omega), Nat.mod_eq_of_lt (by omega)]
    rw [hm1, if_pos (by omega), hd1, BitVec.ofNat_add]
    rfl

/-- The compression function. -/
theorem blake2Compress_eq {s : Blake2State p.w} {T n : Nat} (hh : s.h.length = 8)
    (h0 : s.len0 = BitVec.ofNat p.w T) (h1 : s.len1 = BitVec.ofNat p.w (T / 2 ^ p.w))
    (hn : n ≤ 16 * c.k) {d : Bytes} (hd : d.length = 16 * c.k) (f : Bool) :
    blake2Compress c s d n f = ⟨p.F s.h d (T + n) f, BitVec.ofNat p.w (T + n),
      BitVec.ofNat p.w ((T + n) / 2 ^ p.w)⟩ := by
  obtain ⟨e0, e1⟩ := blake2_len hc h0 h1 hn
  unfold blake2Compress Blake2Params.F
  simp only
  rw [e1, e0, blake2_words hc hd, hc.iv, hc.rounds]
  have hiv := hc.ivlen
  generalize p.IV = iv at hiv
  generalize s.h = h at hh
  match iv, hiv, h, hh with
  | [i0, i1, i2, i3, i4, i5, i6, i7], _, [a0, a1, a2, a3, a4, a5, a6, a7], _ =>
    have hnot : ∀ x : BitVec p.w, x ^^^ BitVec.allOnes p.w = ~~~x := by intro x; simp
    have hv : (if f = true then
        ((([a0, a1, a2, a3, a4, a5, a6, a7] ++ [i0, i1, i2, i3, i4, i5, i6, i7]).set 12
          (([a0, a1, a2, a3, a4, a5, a6, a7] ++ [i0, i1, i2, i3, i4, i5, i6, i7]).getD 12 0 ^^^
            BitVec.ofNat p.w (T + n))).set 13
          ((([a0, a1, a2, a3, a4, a5, a6, a7] ++ [i0, i1, i2, i3, i4, i5, i6, i7]).set 12
          (([a0, a1, a2, a3, a4, a5, a6, a7] ++ [i0, i1, i2, i3, i4, i5, i6, i7]).getD 12 0 ^^^
            BitVec.ofNat p.w (T + n))).getD 13 0 ^^^ BitVec.ofNat p.w ((T + n) / 2 ^ p.w))).set 14
          (((([a0, a1, a2, a3, a4, a5, a6, a7] ++ [i0, i1, i2, i3, i4, i5, i6, i7]).set 12
          (([a0, a1, a2, a3, a4, a5, a6, a7] ++ [i0, i1, i2, i3, i4, i5, i6, i7]).getD 12 0 ^^^
            BitVec.ofNat p.w (T + n))).set 13
          ((([a0, a1, a2, a3, a4, a5, a6, a7] ++ [i0, i1, i2, i3, i4, i5, i6, i7]).set 12
          (([a0, a1, a2, a3, a4, a5, a6, a7] ++ [i0, i1, i2, i3, i4, i5, i6, i7]).getD 12 0 ^^^
            BitVec.ofNat p.w (T + n))).getD 13 0 ^^^ BitVec.ofNat p.w ((T + n) / 2 ^ p.w))).getD 14 0
            ^^^ BitVec.allOnes p.w)
        else
        ((([a0, a1, a2, a3, a4, a5, a6, a7] ++ [i0, i1, i2, i3, i4, i5, i6, i7]).set 12
          (([a0, a1, a2, a3, a4, a5, a6, a7] ++ [i0, i1, i2, i3, i4, i5, i6, i7]).getD 12 0 ^^^
            BitVec.ofNat p.w (T + n))).set 13
          ((([a0, a1, a2, a3, a4, a5, a6, a7] ++ [i0, i1, i2, i3, i4, i5, i6, i7]).set 12
          (([a0, a1, a2, a3, a4, a5, a6, a7] ++ [i0, i1, i2, i3, i4, i5, i6, i7]).getD 12 0 ^^^
            BitVec.ofNat p.w (T + n))).getD 13 0 ^^^ BitVec.ofNat p.w ((T + n) / 2 ^ p.w))))
        = [a0, a1, a2, a3, a4, a5, a6, a7, i0, i1, i2, i3, i4 ^^^ BitVec.ofNat p.w (T + n),
            i5 ^^^ BitVec.ofNat p.w ((T + n) / 2 ^ p.w), if f then ~~~i6 else i6, i7] := by
      cases f
      · rfl
      · simp [hnot]
    rw [hv, blake2Rounds_eq hc _ _ (fun i hi => List.mem_range.1 hi) (by rfl)]
    simp only [← BitVec.xor_assoc]
    rfl

omit hc in
theorem F_length (h : List (BitVec p.w)) (d : Bytes) (t : Nat) (f : Bool) :
    (p.F h d t f).length = 8 := by simp [Blake2Params.F]

theorem bb_eq : p.bb = 16 * c.k := by
  have := hc.w
  unfold Blake2Params.bb; omega

/-- Full blocks. -/
theorem blake2_absorb (bs : List Bytes) (hbs : ∀ b ∈ bs, b.length = 16 * c.k) {s : Blake2State p.w}
    {i : Nat} (hh : s.h.length = 8) (h0 : s.len0 = BitVec.ofNat p.w (i * p.bb))
    (h1 : s.len1 = BitVec.ofNat p.w (i * p.bb / 2 ^ p.w)) :
    bs.foldl (blake2Block c) s = ⟨p.absorb i s.h bs, BitVec.ofNat p.w ((i + bs.length) * p.bb),
      BitVec.ofNat p.w ((i + bs.length) * p.bb / 2 ^ p.w)⟩ ∧ (p.absorb i s.h bs).length = 8 := by
  induction bs generalizing s i with
  | nil =>
    rw [List.foldl_nil, List.length_nil, Nat.add_zero, ← h0, ← h1]
    exact ⟨rfl, hh⟩
  | cons b bs ih =>
    have hb := hbs b List.mem_cons_self
    have hcmp : blake2Block c s b = ⟨p.F s.h b ((i + 1) * p.bb) false,
        BitVec.ofNat p.w ((i + 1) * p.bb), BitVec.ofNat p.w ((i + 1) * p.bb / 2 ^ p.w)⟩ := by
      unfold blake2Block
      rw [blake2Compress_eq hc hh h0 h1 (Nat.le_refl _) hb false, ← bb_eq hc, Nat.succ_mul]
    have := ih (fun b hb => hbs b (List.mem_cons_of_mem _ hb))
      (s := ⟨p.F s.h b ((i + 1) * p.bb) false, BitVec.ofNat p.w ((i + 1) * p.bb),
        BitVec.ofNat p.w ((i + 1) * p.bb / 2 ^ p.w)⟩) (i := i + 1) (F_length _ _ _ _) rfl rfl
    rw [List.foldl_cons, hcmp, List.length_cons, show i + (bs.length + 1) = i + 1 + bs.length by omega]
    exact this

omit hc in
theorem padBlock_full {b : Bytes} (h : b.length = p.bb) : p.padBlock b = b := by
  simp [Blake2Params.padBlock, h]

/-- What is hashed: the key block, if any, and the message. -/
def blake2Data (p : Blake2Params) (key m : Bytes) : Bytes :=
  (if key.length > 0 then p.padBlock key else []) ++ m

omit hc in
theorem blocks_eq {key m : Bytes} (hpos : 0 < p.bb) (hk : key.length ≤ p.bb) {bs : List Bytes}
    {rest : Bytes} (he : blake2Data p key m = bs.flatten ++ rest) (hbs : ∀ b ∈ bs, b.length = p.bb)
    (hr : rest.length ≤ p.bb) (hne : bs ≠ [] → rest ≠ []) :
    p.blocks key m = bs ++ [p.padBlock rest] := by
  have hall : (if key.length > 0 then [p.padBlock key] else []) ++ (chunks p.bb m).map p.padBlock
      = (chunks p.bb (blake2Data p key m)).map p.padBlock := by
    unfold blake2Data
    by_cases hk0 : key.length > 0
    · have hl : (p.padBlock key).length = p.bb := by
        simp [Blake2Params.padBlock]; omega
      rw [if_pos hk0, if_pos hk0, chunks_append hpos hl, List.map_cons, padBlock_full hl]
      rfl
    · rw [if_neg hk0, if_neg hk0]; rfl
  unfold Blake2Params.blocks
  simp only
  rw [hall, he, chunks_flatten_append hpos _ hbs, List.map_append]
  have hid : bs.map p.padBlock = bs := by
    conv => rhs; rw [← List.map_id bs]
    exact List.map_congr_left fun b hb => padBlock_full (hbs b hb)
  rw [hid]
  by_cases hrest : rest = []
  · subst hrest
    have : bs = [] := by
      cases bs with
      | nil => rfl
      | cons b bs => exact absurd rfl (hne (by simp))
    subst this
    simp [chunks_nil]
  · have : chunks p.bb rest = [rest] := by
      rw [chunks_cons hpos hrest, List.take_of_length_le hr, List.drop_eq_nil_of_le hr, chunks_nil]
    rw [this, if_neg (by simp)]
    rfl

end

theorem natToLE_getElem? (n x i : Nat) (h : i < n) :
    (natToLE n x)[i]? = some (BitVec.ofNat 8 (x / 256 ^ i)) := by
  induction n generalizing x i with
  | zero => omega
  | succ n ih =>
    cases i with
    | zero => simp [natToLE]
    | succ i =>
      rw [natToLE, List.getElem?_cons_succ, ih _ _ (by omega), Nat.div_div_eq_div_mul,
        Nat.pow_succ, Nat.mul_comm 256]

/-- Bytes of an array of words, little-endian. -/
theorem flattenLE_getElem? {w k : Nat} (hk : 0 < k) (ws : List (BitVec w)) (i : Nat)
    (h : i < k * ws.length) :
    ((ws.map fun x => natToLE k x.toNat).flatten)[i]?
      = some (((ws.getD (i / k) 0) >>> (8 * (i % k))).setWidth 8) := by
  induction ws generalizing i with
  | nil => simp at h
  | cons x ws ih =>
    rw [List.map_cons, List.flatten_cons]
    by_cases hi : i < k
    · rw [List.getElem?_append_left (by simpa using hi), natToLE_getElem? _ _ _ hi,
        Nat.div_eq_of_lt hi, Nat.mod_eq_of_lt hi]
      congr 1
      apply BitVec.eq_of_toNat_eq
      simp [Nat.shiftRight_eq_div_pow, Nat.pow_mul]
    · rw [List.getElem?_append_right (by simp; omega), natToLE_length,
        ih _ (by rw [List.length_cons, Nat.mul_succ] at h; omega)]
      have e1 : i / k = (i - k) / k + 1 := by
        rw [← Nat.add_div_right _ hk, Nat.sub_add_cancel (by omega)]
      have e2 : i % k = (i - k) % k := by rw [Nat.mod_eq_sub_mod (by omega)]
      rw [e1, e2]
      rfl

theorem blake2_output {w k n : Nat} (hk : 0 < k) (ws : List (BitVec w)) (h : n ≤ k * ws.length) :
    (List.range n).map (fun i => ((ws.getD (i / k) 0) >>> (8 * (i % k))).setWidth 8)
      = ((ws.map fun x => natToLE k x.toNat).flatten).take n := by
  apply List.ext_getElem?
  intro i
  by_cases hi : i < n
  · rw [List.getElem?_map, List.getElem?_range hi, List.getElem?_take_of_lt hi,
      flattenLE_getElem? hk ws i (by omega)]
    rfl
  · rw [List.getElem?_eq_none (by simp; omega), List.getElem?_eq_none (by simp; omega)]

section
variable {p : Blake2Params} {c : Blake2Code p.w} (hc : Blake2Conf p c)

/-- The initial chaining value. -/
def blake2H0 (c : Blake2Code w) (nn kk : Nat) : Blake2State w :=
  ⟨c.iv.set 0 (c.iv.getD 0 0 ^^^ BitVec.ofNat w (0x01010000 ||| (kk <<< 8) ||| nn)), 0, 0⟩

/-- The context reflects the message. -/
def Blake2Rep (p : Blake2Params) (c : Blake2Code p.w) (nn : Nat) (key m : Bytes)
    (x : Blake2Ctx p.w) : Prop :=
  LRep (16 * c.k) (blake2Block c) (blake2H0 c nn key.length) (blake2Data p key m) x

include hc

theorem blake2Rep_init {nn : Nat} {key buf0 : Bytes} (hb : buf0.length = 16 * c.k)
    (hk : key.length ≤ 16 * c.k) :
    ∃ x, blake2Init c nn key buf0 = some x ∧ Blake2Rep p c nn key [] x := by
  have hpos := hc.kpos
  have hbb := bb_eq hc
  unfold blake2Init
  simp only
  by_cases hk0 : key.length > 0
  · rw [if_pos hk0]
    have w1 : cWrite buf0 0 (List.replicate (16 * c.k) 0) = some (List.replicate (16 * c.k) 0) := by
      rw [show (0 : Int) = ((0 : Nat) : Int) by rfl, cWrite_ok (by simp; omega),
        splice_full (by simp; omega)]
    have w2 : cWrite (List.replicate (16 * c.k) 0) 0 key = some (p.padBlock key) := by
      rw [show (0 : Int) = ((0 : Nat) : Int) by rfl, cWrite_ok (by simp; omega)]
      congr 1
      simp [splice, Blake2Params.padBlock, hbb]
    rw [w1]
    simp only [Option.bind_eq_bind, Option.bind_some]
    rw [w2]
    have hl : (p.padBlock key).length = 16 * c.k := by simp [Blake2Params.padBlock, hbb]; omega
    refine ⟨_, rfl, hl, [], p.padBlock key, ?_, by simp, by omega, by simp, rfl, hl.symm, ?_⟩
    · simp [blake2Data, if_pos hk0]
    · exact List.take_of_length_le (by simp)
  · rw [if_neg hk0]
    refine ⟨_, rfl, hb, [], [], ?_, by simp, by simp, by simp, rfl, rfl, by simp⟩
    simp [blake2Data, if_neg hk0]

theorem blake2_spec {nn : Nat} {key : Bytes} (hk : key.length ≤ 8 * c.k) (hn : nn ≤ 8 * c.k)
    (h0 : 0x01010000#p.w ^^^ BitVec.ofNat p.w (key.length * 2 ^ 8) ^^^ BitVec.ofNat p.w nn
      = BitVec.ofNat p.w (0x01010000 ||| (key.length <<< 8) ||| nn)) :
    StubSpec (Blake2Rep p c nn key) (blake2Add c) (blake2Final c nn) (p.hash nn key) where
  update m x d hr _ := by
    have := lazyAdd_rep (by have := hc.kpos; omega) hr d
    rw [blake2Data, List.append_assoc] at this
    exact this
  final m x hr := by
    have hpos := hc.kpos
    have hbb := bb_eq hc
    obtain ⟨hb, bs, rest, he, hbs, hle, hne, hh, hnb, htk⟩ := hr
    have hblk := blocks_eq (p := p) (by omega) (by omega) he (by rw [hbb]; exact hbs) (by omega) hne
    have hbuf : cWrite x.buffer x.numbytes (List.replicate (16 * c.k - x.numbytes) 0)
        = some (p.padBlock rest) := by
      rw [cWrite_ok (by simp; omega), splice_prefix (p := rest) (by rw [hnb]; exact htk)
        (by simp; omega), hnb, Blake2Params.padBlock, hbb]
    have hiv : (blake2H0 c nn key.length).h.length = 8 := by simp [blake2H0, hc.iv, hc.ivlen]
    obtain ⟨habs, hal⟩ := blake2_absorb hc bs hbs (s := blake2H0 c nn key.length) (i := 0) hiv
      (by simp [blake2H0]) (by simp [blake2H0])
    rw [← hh] at habs
    have hpl : (p.padBlock rest).length = 16 * c.k := by simp [Blake2Params.padBlock, hbb]; omega
    have hcmp := blake2Compress_eq hc (s := x.h) (T := bs.length * p.bb) (n := x.numbytes)
      (by rw [habs]; exact hal) (by rw [habs]; simp) (by rw [habs]; simp) (by omega) hpl true
    have htot : bs.length * p.bb + x.numbytes
        = if key.length = 0 then m.length else m.length + p.bb := by
      have := congrArg List.length he
      rw [List.length_append, flatten_length_of bs hbs, blake2Data, List.length_append] at this
      rw [hbb, hnb, Nat.mul_comm]
      by_cases hk0 : key.length > 0
      · rw [if_pos hk0] at this
        rw [if_neg (by omega)]
        simp only [Blake2Params.padBlock, List.length_append, List.length_replicate] at this
        omega
      · rw [if_neg hk0] at this
        rw [if_pos (by omega)]
        simp at this
        omega
    refine ⟨⟨blake2Compress c x.h (p.padBlock rest) x.numbytes true, x.numbytes,
      p.padBlock rest⟩, ?_⟩
    unfold blake2Final
    rw [hbuf]
    simp only [Option.bind_eq_bind, Option.bind_some]
    have hdig : (List.range nn).map (fun i =>
        (((blake2Compress c x.h (p.padBlock rest) x.numbytes true).h.getD (i / c.k) 0)
          >>> (8 * (i % c.k))).setWidth 8) = p.hash nn key m := by
      rw [hcmp, blake2_output hpos _ (by rw [F_length]; omega)]
      unfold Blake2Params.hash
      simp only
      rw [hblk, List.dropLast_concat, List.getLastD_concat, htot,
        show p.w / 8 = c.k by have := hc.w; omega]
      have hx : x.h.h = p.absorb 0 (p.IV.set 0 (p.IV.getD 0 0 ^^^ 0x01010000#p.w
          ^^^ BitVec.ofNat p.w (key.length * 2 ^ 8) ^^^ BitVec.ofNat p.w nn)) bs := by
        rw [habs]
        simp only [blake2H0]
        rw [← h0, hc.iv, ← BitVec.xor_assoc, ← BitVec.xor_assoc]
      rw [hx]
    rw [hdig]
    rfl

end

theorem blake2b_conf : Blake2Conf Spec.blake2b blake2bCode where
  w := rfl
  kpos := by decide
  small := by decide
  load b h := le64or_eq h
  r1 x := ror64_eq x (by decide)
  r2 x := ror64_eq x (by decide)
  r3 x := ror64_eq x (by decide)
  r4 x := ror64_eq x (by decide)
  rounds := rfl
  sigma := by decide
  iv := by decide +kernel
  ivlen := by decide +kernel

theorem blake2s_conf : Blake2Conf Spec.blake2s blake2sCode where
  w := rfl
  kpos := by decide
  small := by decide
  load b h := le32or_eq h
  r1 x := ror32_eq x (by decide)
  r2 x := ror32_eq x (by decide)
  r3 x := ror32_eq x (by decide)
  r4 x := ror32_eq x (by decide)
  rounds := rfl
  sigma := by decide
  iv := by decide +kernel
  ivlen := by decide +kernel

/-- The parameter block: or and xor agree on disjoint bytes. -/
theorem blake2_param (w : Nat) {kk nn : Nat} (hk : kk < 256) (hn : nn < 256) :
    0x01010000#w ^^^ BitVec.ofNat w (kk * 2 ^ 8) ^^^ BitVec.ofNat w nn
      = BitVec.ofNat w (0x01010000 ||| (kk <<< 8) ||| nn) := by
  have e2 : ∀ a b : Nat, BitVec.ofNat w a ^^^ BitVec.ofNat w b = BitVec.ofNat w (a ^^^ b) := by
    intro a b; simp
  rw [e2, e2]
  congr 1
  have h1 : ∀ k : Fin 256, 0x01010000 ^^^ (k.val * 2 ^ 8) = 0x01010000 ||| (k.val <<< 8) := by
    decide +kernel
  have h1 := h1 ⟨kk, hk⟩
  simp only at h1
  rw [h1]
  have h2 : 0x01010000 ||| (kk <<< 8) = 2 ^ 8 * (0x10100 ||| kk) := by
    rw [Nat.shiftLeft_eq]
    apply Nat.eq_of_testBit_eq
    intro i
    rw [Nat.testBit_or, show 0x01010000 = 2 ^ 8 * 0x10100 by decide, Nat.mul_comm kk,
      Nat.testBit_two_pow_mul, Nat.testBit_two_pow_mul, Nat.testBit_two_pow_mul, Nat.testBit_or]
    cases decide (i ≥ 8) <;> simp
  rw [h2]
  apply Nat.eq_of_testBit_eq
  intro i
  rw [Nat.testBit_xor, Nat.testBit_or, Nat.testBit_two_pow_mul]
  by_cases hi : i ≥ 8
  · rw [Nat.testBit_lt_two_pow (Nat.lt_of_lt_of_le (show nn < 2 ^ 8 from hn)
      (Nat.pow_le_pow_right (by decide) hi))]
    simp
  · simp [hi]

end Verif
