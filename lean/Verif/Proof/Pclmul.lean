import Verif.Proof.Ghash
/-
GHASH multiplication, carry-less multiplication version. Both the code and the specification are
additive in each argument; they agree on powers of two.
-/
namespace Verif

open Spec

/-- Exclusive or of `f 0, ..., f (n - 1)`. -/
def xsum {w : Nat} : Nat → (Nat → BitVec w) → BitVec w
  | 0, _ => 0
  | n + 1, f => xsum n f ^^^ f n

theorem xsum_bits {w : Nat} (a : BitVec w) (n j : Nat) :
    (xsum n fun i => if a.getLsbD i then BitVec.twoPow w i else 0).getLsbD j
      = (decide (j < n) && a.getLsbD j) := by
  induction n with
  | zero => simp [xsum]
  | succ n ih =>
    rw [xsum, BitVec.getLsbD_xor, ih]
    by_cases hj : j = n
    · subst hj
      cases h : a.getLsbD j
      · simp
      · have := BitVec.lt_of_getLsbD h
        simp [this]
    · have : (if a.getLsbD n then BitVec.twoPow w n else 0).getLsbD j = false := by
        cases a.getLsbD n
        · simp
        · simp [BitVec.getLsbD_twoPow]; omega
      rw [this]
      by_cases h2 : j < n
      · simp [h2, show j < n + 1 by omega]
      · simp [h2, show ¬ j < n + 1 by omega]

theorem xsum_self {w : Nat} (a : BitVec w) :
    (xsum w fun i => if a.getLsbD i then BitVec.twoPow w i else 0) = a := by
  apply BitVec.eq_of_getLsbD_eq
  intro i hi
  rw [xsum_bits]; simp [hi]

/-- `f` is additive. -/
def Additive {w v : Nat} (f : BitVec w → BitVec v) : Prop := ∀ a b, f (a ^^^ b) = f a ^^^ f b

theorem Additive.zero {w v : Nat} {f : BitVec w → BitVec v} (h : Additive f) : f 0 = 0 := by
  have := h 0 0
  rw [show (0 : BitVec w) ^^^ 0 = 0 by simp] at this
  rw [this]; simp

theorem Additive.xsum {w v : Nat} {f : BitVec w → BitVec v} (h : Additive f) (n : Nat)
    (g : Nat → BitVec w) : f (Verif.xsum n g) = Verif.xsum n fun i => f (g i) := by
  induction n with
  | zero => exact h.zero
  | succ n ih => rw [Verif.xsum, h, ih, Verif.xsum]

theorem Additive.ext {w v : Nat} {f g : BitVec w → BitVec v} (hf : Additive f) (hg : Additive g)
    (h : ∀ i < w, f (BitVec.twoPow w i) = g (BitVec.twoPow w i)) (a : BitVec w) : f a = g a := by
  rw [← xsum_self a, hf.xsum, hg.xsum]
  have : ∀ n, n ≤ w → (Verif.xsum n fun i => f (if a.getLsbD i then BitVec.twoPow w i else 0))
      = Verif.xsum n fun i => g (if a.getLsbD i then BitVec.twoPow w i else 0) := by
    intro n
    induction n with
    | zero => intro _; rfl
    | succ n ih =>
      intro hn
      rw [Verif.xsum, Verif.xsum, ih (by omega)]
      congr 1
      cases a.getLsbD n
      · simp only [Bool.false_eq_true, if_false]; rw [hf.zero, hg.zero]
      · simp only [if_true]; exact h n (by omega)
  exact this w (Nat.le_refl w)

/-- Two functions additive in each argument and equal on powers of two are equal. -/
theorem biadditive_ext {w v : Nat} {f g : BitVec w → BitVec w → BitVec v}
    (hf1 : ∀ b, Additive fun a => f a b) (hf2 : ∀ a, Additive (f a))
    (hg1 : ∀ b, Additive fun a => g a b) (hg2 : ∀ a, Additive (g a))
    (h : ∀ i < w, ∀ j < w, f (BitVec.twoPow w i) (BitVec.twoPow w j)
      = g (BitVec.twoPow w i) (BitVec.twoPow w j)) (a b : BitVec w) : f a b = g a b :=
  Additive.ext (hf1 b) (hg1 b) (fun i hi => Additive.ext (hf2 _) (hg2 _) (h i hi) b) a

theorem xor4 {w : Nat} (a b c d : BitVec w) : a ^^^ b ^^^ (c ^^^ d) = a ^^^ c ^^^ (b ^^^ d) := by ac_rfl

theorem gfHorner_add_right (bs : List Bool) : Additive fun y => gfHorner y bs := by
  intro y z
  induction bs with
  | nil => simp [gfHorner]
  | cons b bs ih =>
    simp only [gfHorner] at ih ⊢
    rw [ih, gfMulX_xor]
    cases b <;> simp [xor4]

theorem gfHorner_add_left (y : BitVec 128) (f g : Nat → Bool) (l : List Nat) :
    gfHorner y (l.map fun i => f i ^^ g i) = gfHorner y (l.map f) ^^^ gfHorner y (l.map g) := by
  induction l with
  | nil => simp [gfHorner]
  | cons i l ih =>
    simp only [List.map_cons, gfHorner]
    rw [ih, gfMulX_xor]
    generalize gfMulX (gfHorner y (l.map f)) = u
    generalize gfMulX (gfHorner y (l.map g)) = v
    cases f i <;> cases g i <;> simp
    · ac_rfl
    · ac_rfl
    · rw [xor4]; simp

theorem gfMul_add_left (y : BitVec 128) : Additive fun x => gfMul x y := by
  intro x x'
  dsimp only
  rw [gfMul_eq, gfMul_eq, gfMul_eq, ← gfHorner_add_left]
  congr 1
  apply List.map_congr_left
  intro i _
  simp

theorem gfMul_add_right (x : BitVec 128) : Additive (gfMul x) := by
  intro y y'
  rw [gfMul_eq, gfMul_eq, gfMul_eq]
  exact gfHorner_add_right _ y y'

/-- Multiplication by x, iterated. -/
def gfPow : Nat → BitVec 128 → BitVec 128
  | 0, y => y
  | n + 1, y => gfMulX (gfPow n y)

theorem gfPow_add (m n : Nat) (y : BitVec 128) : gfPow (m + n) y = gfPow m (gfPow n y) := by
  induction m with
  | zero => rw [Nat.zero_add]; rfl
  | succ m ih => rw [Nat.succ_add, gfPow, gfPow, ih]

theorem gfHorner_falses (y : BitVec 128) (n : Nat) : gfHorner y (List.replicate n false) = 0 := by
  induction n with
  | zero => rfl
  | succ n ih => rw [List.replicate_succ, gfHorner, ih, gfMulX_zero]; simp

theorem gfHorner_single (y : BitVec 128) (m r : Nat) :
    gfHorner y (List.replicate m false ++ true :: List.replicate r false) = gfPow m y := by
  induction m with
  | zero => rw [List.replicate_zero, List.nil_append, gfHorner, gfHorner_falses, gfMulX_zero, gfPow]; simp
  | succ m ih => rw [List.replicate_succ, List.cons_append, gfHorner, ih, gfPow]; simp

theorem gfMul_twoPow (i : Nat) (hi : i < 128) (y : BitVec 128) :
    gfMul (BitVec.twoPow 128 i) y = gfPow (127 - i) y := by
  rw [gfMul_eq, ← gfHorner_single y (127 - i) i]
  congr 1
  apply List.ext_getElem
  · simp; omega
  · intro k h1 h2
    simp only [List.length_map, List.length_range] at h1
    simp only [List.getElem_map, List.getElem_range, BitVec.getMsbD_twoPow]
    rw [List.getElem_append]
    simp only [List.length_replicate]
    split
    · simp; omega
    · rw [List.getElem_cons]
      split
      · simp; omega
      · simp; omega

theorem gfPow_one (j : Nat) (hj : j < 128) : BitVec.twoPow 128 j = gfPow (127 - j) (BitVec.twoPow 128 127) := by
  have step : ∀ j < 127, BitVec.twoPow 128 j = gfMulX (BitVec.twoPow 128 (j + 1)) := by decide +kernel
  have : ∀ n, n ≤ 127 → BitVec.twoPow 128 (127 - n) = gfPow n (BitVec.twoPow 128 127) := by
    intro n
    induction n with
    | zero => intro _; rfl
    | succ n ih =>
      intro hn
      rw [gfPow, ← ih (by omega), step _ (by omega), show 127 - (n + 1) + 1 = 127 - n by omega]
  have := this (127 - j) (by omega)
  rwa [show 127 - (127 - j) = j by omega] at this

theorem gfMul_basis (i j : Nat) (hi : i < 128) (hj : j < 128) :
    gfMul (BitVec.twoPow 128 i) (BitVec.twoPow 128 j) = gfPow (254 - (i + j)) (BitVec.twoPow 128 127) := by
  rw [gfMul_twoPow i hi, gfPow_one j hj, ← gfPow_add]
  congr 1
  omega

/-- The product of SP 800-38D is commutative. -/
theorem gfMul_comm (a b : BitVec 128) : gfMul a b = gfMul b a :=
  biadditive_ext (f := gfMul) (g := fun a b => gfMul b a) gfMul_add_left gfMul_add_right
    gfMul_add_right gfMul_add_left
    (fun i hi j hj => by rw [gfMul_basis i j hi hj, gfMul_basis j i hj hi, Nat.add_comm]) a b

/-! The code. -/

theorem clmul64_fold (a b : W64) (n : Nat) :
    (List.range n).foldl (fun acc i => if a.getLsbD i then acc ^^^ (b.setWidth 128 <<< i) else acc) 0
      = xsum n fun i => if a.getLsbD i then b.setWidth 128 <<< i else 0 := by
  induction n with
  | zero => rfl
  | succ n ih =>
    rw [List.range_succ, List.foldl_append, ih, List.foldl_cons, List.foldl_nil, xsum]
    cases a.getLsbD n <;> simp

theorem clmul64_eq (a b : W64) :
    clmul64 a b = xsum 64 fun i => if a.getLsbD i then b.setWidth 128 <<< i else 0 := clmul64_fold a b 64

theorem xsum_add {w : Nat} (n : Nat) (f g : Nat → BitVec w) :
    (xsum n fun i => f i ^^^ g i) = xsum n f ^^^ xsum n g := by
  induction n with
  | zero => simp [xsum]
  | succ n ih => rw [xsum, xsum, xsum, ih, xor4]

theorem setWidth_add (w v : Nat) : Additive fun x : BitVec w => x.setWidth v := fun a b => by
  simp

theorem shl_add {w : Nat} (n : Nat) : Additive fun x : BitVec w => x <<< n := fun a b => by
  simp [BitVec.shiftLeft_xor_distrib]

theorem shr_add {w : Nat} (n : Nat) : Additive fun x : BitVec w => x >>> n := fun a b => by
  simp [BitVec.ushiftRight_xor_distrib]

theorem clmul64_add_left (b : W64) : Additive fun a => clmul64 a b := by
  intro x y
  dsimp only
  rw [clmul64_eq, clmul64_eq, clmul64_eq, ← xsum_add]
  congr 1
  funext i
  rw [BitVec.getLsbD_xor]
  cases x.getLsbD i <;> cases y.getLsbD i <;> simp

theorem clmul64_add_right (a : W64) : Additive (clmul64 a) := by
  intro x y
  rw [clmul64_eq, clmul64_eq, clmul64_eq, ← xsum_add]
  congr 1
  funext i
  cases a.getLsbD i
  · simp
  · simp [BitVec.shiftLeft_xor_distrib]

theorem xsum_single {w : Nat} (n k : Nat) (p : Nat → Bool) (f : Nat → BitVec w)
    (hp : ∀ i, p i = decide (i = k)) :
    (xsum n fun i => if p i then f i else 0) = if k < n then f k else 0 := by
  induction n with
  | zero => simp [xsum]
  | succ n ih =>
    rw [xsum, ih, hp]
    by_cases h : n = k
    · subst h; simp
    · by_cases h2 : k < n
      · simp [h, h2, show k < n + 1 by omega]
      · simp [h, h2, show ¬ k < n + 1 by omega]

theorem twoPow_bit (w k i : Nat) : (BitVec.twoPow w k).getLsbD i = (decide (i < w) && decide (i = k)) := by
  rw [BitVec.getLsbD_twoPow, Bool.eq_iff_iff]
  simp only [Bool.and_eq_true, decide_eq_true_eq]
  omega

theorem clmul64_twoPow (i j : Nat) (hi : i < 64) (hj : j < 64) :
    clmul64 (BitVec.twoPow 64 i) (BitVec.twoPow 64 j) = BitVec.twoPow 128 (i + j) := by
  rw [clmul64_eq, xsum_single 64 i _ _ (fun k => by
    rw [BitVec.getLsbD_twoPow]
    by_cases h : k = i
    · subst h; simp [hi]
    · simp [h]; omega), if_pos hi]
  apply BitVec.eq_of_getLsbD_eq
  intro k hk
  rw [Bool.eq_iff_iff]
  simp only [BitVec.getLsbD_shiftLeft, BitVec.getLsbD_setWidth, twoPow_bit,
    Bool.and_eq_true, decide_eq_true_eq, Bool.not_eq_true', decide_eq_false_iff_not]
  omega

theorem lanes32_bit (f : W32 → W32) (x : BitVec 128) (i : Nat) (hi : i < 128) :
    (lanes32 f x).getLsbD i = (f ((x >>> (32 * (i / 32))).setWidth 32)).getLsbD (i % 32) := by
  unfold lanes32
  rw [BitVec.getLsbD_append, BitVec.getLsbD_append, BitVec.getLsbD_append]
  by_cases h0 : i < 32
  · simp [h0, show i / 32 = 0 by omega, show i % 32 = i by omega]
  · by_cases h1 : i < 64
    · simp [h0, show i - 32 < 32 by omega, show i / 32 = 1 by omega, show i % 32 = i - 32 by omega]
    · by_cases h2 : i < 96
      · simp [h0, show ¬ i - 32 < 32 by omega, show i - 32 - 32 < 32 by omega, show i / 32 = 2 by omega,
          show i % 32 = i - 32 - 32 by omega]
      · simp [h0, show ¬ i - 32 < 32 by omega, show ¬ i - 32 - 32 < 32 by omega, show i / 32 = 3 by omega,
          show i % 32 = i - 32 - 32 - 32 by omega]

theorem lanes32_add {f : W32 → W32} (hf : Additive f) : Additive (lanes32 f) := by
  intro x y
  apply BitVec.eq_of_getLsbD_eq
  intro i hi
  rw [BitVec.getLsbD_xor, lanes32_bit _ _ _ hi, lanes32_bit _ _ _ hi, lanes32_bit _ _ _ hi]
  rw [BitVec.ushiftRight_xor_distrib, BitVec.setWidth_xor, hf, BitVec.getLsbD_xor]

theorem slliEpi32_add (n : Nat) : Additive fun x => slliEpi32 x n := lanes32_add (shl_add n)
theorem srliEpi32_add (n : Nat) : Additive fun x => srliEpi32 x n := lanes32_add (shr_add n)
theorem slliSi128_add (n : Nat) : Additive fun x => slliSi128 x n := shl_add _
theorem srliSi128_add (n : Nat) : Additive fun x => srliSi128 x n := shr_add _

theorem slliEpi32_bit (x : BitVec 128) (n i : Nat) (hi : i < 128) (hn : n < 32) :
    (slliEpi32 x n).getLsbD i = (decide (n ≤ i % 32) && x.getLsbD (i - n)) := by
  rw [slliEpi32, lanes32_bit _ _ _ hi, BitVec.getLsbD_shiftLeft, BitVec.getLsbD_setWidth,
    BitVec.getLsbD_ushiftRight]
  by_cases h : n ≤ i % 32
  · simp only [h, decide_true, Bool.true_and, show i % 32 < 32 by omega, show ¬ i % 32 < n by omega,
      decide_false, Bool.not_false, show i % 32 - n < 32 by omega]
    congr 1
    omega
  · simp [h, show i % 32 < n by omega]

theorem srliEpi32_bit (x : BitVec 128) (n i : Nat) (hi : i < 128) :
    (srliEpi32 x n).getLsbD i = (decide (i % 32 + n < 32) && x.getLsbD (i + n)) := by
  rw [srliEpi32, lanes32_bit _ _ _ hi, BitVec.getLsbD_ushiftRight, BitVec.getLsbD_setWidth,
    BitVec.getLsbD_ushiftRight]
  by_cases h : i % 32 + n < 32
  · simp only [h, decide_true, Bool.true_and, show n + i % 32 < 32 by omega]
    congr 1
    omega
  · simp [h, show ¬ n + i % 32 < 32 by omega]

theorem pclmulShift_ok (lo hi : BitVec 128) :
    pclmulShift lo hi = (lo <<< 1, (hi <<< 1) ^^^ (lo >>> 127)) := by
  have h1 : ∀ x : BitVec 128, ∀ i < 128, (slliEpi32 x 1 ||| slliSi128 (srliEpi32 x 31) 4).getLsbD i
      = (x <<< 1).getLsbD i := by
    intro x i hi
    rw [BitVec.getLsbD_or, slliEpi32_bit _ _ _ hi (by decide), slliSi128, BitVec.getLsbD_shiftLeft,
      BitVec.getLsbD_shiftLeft]
    by_cases h : 1 ≤ i % 32
    · by_cases h2 : i < 32
      · simp [h, h2, hi]; omega
      · rw [srliEpi32_bit _ _ _ (by omega)]
        simp [h, h2, hi, show ¬ (i - 32) % 32 + 31 < 32 by omega]; omega
    · by_cases h2 : i < 32
      · simp [h, h2, hi]; omega
      · rw [srliEpi32_bit _ _ _ (by omega)]
        simp [h, h2, hi, show (i - 32) % 32 + 31 < 32 by omega, show i - 32 + 31 = i - 1 by omega]; omega
  unfold pclmulShift
  dsimp only
  congr 1
  · exact BitVec.eq_of_getLsbD_eq (h1 lo)
  · apply BitVec.eq_of_getLsbD_eq
    intro i hi'
    rw [BitVec.getLsbD_or, h1 hi i hi', BitVec.getLsbD_xor, srliSi128, BitVec.getLsbD_ushiftRight,
      BitVec.getLsbD_ushiftRight]
    by_cases h : i < 32
    · rw [srliEpi32_bit _ _ _ (by omega)]
      by_cases h0 : i = 0
      · subst h0; simp
      · simp [show ¬ (8 * 12 + i) % 32 + 31 < 32 by omega, BitVec.getLsbD_of_ge lo (127 + i) (by omega)]
    · rw [BitVec.getLsbD_of_ge _ (8 * 12 + i) (by omega), BitVec.getLsbD_of_ge lo (127 + i) (by omega)]
      simp

/-- The code between the loads and the store, as one function. -/
def pclmulCore (a b : BitVec 128) : BitVec 128 :=
  pclmulReduce (pclmulShift (pclmulProduct a b).1 (pclmulProduct a b).2).1
    (pclmulShift (pclmulProduct a b).1 (pclmulProduct a b).2).2

theorem pclmulReduce_add (a b c d : BitVec 128) :
    pclmulReduce (a ^^^ c) (b ^^^ d) = pclmulReduce a b ^^^ pclmulReduce c d := by
  unfold pclmulReduce
  dsimp only
  have sl : ∀ (x y : BitVec 128) n, slliEpi32 (x ^^^ y) n = slliEpi32 x n ^^^ slliEpi32 y n :=
    fun x y n => slliEpi32_add n x y
  have sr : ∀ (x y : BitVec 128) n, srliEpi32 (x ^^^ y) n = srliEpi32 x n ^^^ srliEpi32 y n :=
    fun x y n => srliEpi32_add n x y
  have bl : ∀ (x y : BitVec 128) n, slliSi128 (x ^^^ y) n = slliSi128 x n ^^^ slliSi128 y n :=
    fun x y n => slliSi128_add n x y
  have br : ∀ (x y : BitVec 128) n, srliSi128 (x ^^^ y) n = srliSi128 x n ^^^ srliSi128 y n :=
    fun x y n => srliSi128_add n x y
  rw [sl a c, sl a c, sl a c]
  rw [xor4 (slliEpi32 a 31), xor4 (slliEpi32 a 31 ^^^ slliEpi32 a 30)]
  generalize slliEpi32 a 31 ^^^ slliEpi32 a 30 ^^^ slliEpi32 a 25 = p
  generalize slliEpi32 c 31 ^^^ slliEpi32 c 30 ^^^ slliEpi32 c 25 = q
  rw [bl p q, br p q]
  rw [xor4 a]
  generalize a ^^^ slliSi128 p 12 = a'
  generalize c ^^^ slliSi128 q 12 = c'
  rw [sr a' c', sr a' c', sr a' c']
  generalize srliEpi32 a' 1 = x1
  generalize srliEpi32 a' 2 = x2
  generalize srliEpi32 a' 7 = x3
  generalize srliEpi32 c' 1 = y1
  generalize srliEpi32 c' 2 = y2
  generalize srliEpi32 c' 7 = y3
  generalize srliSi128 p 4 = u
  generalize srliSi128 q 4 = v
  ac_rfl

theorem pclmulProduct_eq (a b : BitVec 128) : pclmulProduct a b
    = (clmul64 (loQ a) (loQ b) ^^^ slliSi128 (clmul64 (loQ a) (hiQ b) ^^^ clmul64 (hiQ a) (loQ b)) 8,
       clmul64 (hiQ a) (hiQ b) ^^^ srliSi128 (clmul64 (loQ a) (hiQ b) ^^^ clmul64 (hiQ a) (loQ b)) 8) := rfl

theorem pclmulProduct_add_left (a a' b : BitVec 128) : pclmulProduct (a ^^^ a') b
    = ((pclmulProduct a b).1 ^^^ (pclmulProduct a' b).1, (pclmulProduct a b).2 ^^^ (pclmulProduct a' b).2) := by
  rw [pclmulProduct_eq, pclmulProduct_eq, pclmulProduct_eq]
  have l : ∀ x y : BitVec 128, loQ (x ^^^ y) = loQ x ^^^ loQ y := fun x y => setWidth_add _ _ x y
  have h : ∀ x y : BitVec 128, hiQ (x ^^^ y) = hiQ x ^^^ hiQ y := fun x y => by
    unfold hiQ; rw [BitVec.ushiftRight_xor_distrib, BitVec.setWidth_xor]
  have c : ∀ x y z : W64, clmul64 (x ^^^ y) z = clmul64 x z ^^^ clmul64 y z :=
    fun x y z => clmul64_add_left z x y
  have bl : ∀ (x y : BitVec 128) n, slliSi128 (x ^^^ y) n = slliSi128 x n ^^^ slliSi128 y n :=
    fun x y n => slliSi128_add n x y
  have br : ∀ (x y : BitVec 128) n, srliSi128 (x ^^^ y) n = srliSi128 x n ^^^ srliSi128 y n :=
    fun x y n => srliSi128_add n x y
  rw [l, h, c, c, c, c]
  generalize clmul64 (loQ a) (loQ b) = x1
  generalize clmul64 (loQ a') (loQ b) = x2
  generalize clmul64 (loQ a) (hiQ b) = x3
  generalize clmul64 (loQ a') (hiQ b) = x4
  generalize clmul64 (hiQ a) (loQ b) = x5
  generalize clmul64 (hiQ a') (loQ b) = x6
  generalize clmul64 (hiQ a) (hiQ b) = x7
  generalize clmul64 (hiQ a') (hiQ b) = x8
  rw [xor4 x3 x4, bl, br]
  dsimp only
  rw [xor4 x1 x2, xor4 x7 x8]

theorem pclmulProduct_add_right (a b b' : BitVec 128) : pclmulProduct a (b ^^^ b')
    = ((pclmulProduct a b).1 ^^^ (pclmulProduct a b').1, (pclmulProduct a b).2 ^^^ (pclmulProduct a b').2) := by
  rw [pclmulProduct_eq, pclmulProduct_eq, pclmulProduct_eq]
  have l : ∀ x y : BitVec 128, loQ (x ^^^ y) = loQ x ^^^ loQ y := fun x y => setWidth_add _ _ x y
  have h : ∀ x y : BitVec 128, hiQ (x ^^^ y) = hiQ x ^^^ hiQ y := fun x y => by
    unfold hiQ; rw [BitVec.ushiftRight_xor_distrib, BitVec.setWidth_xor]
  have c : ∀ x y z : W64, clmul64 x (y ^^^ z) = clmul64 x y ^^^ clmul64 x z :=
    fun x y z => clmul64_add_right x y z
  have bl : ∀ (x y : BitVec 128) n, slliSi128 (x ^^^ y) n = slliSi128 x n ^^^ slliSi128 y n :=
    fun x y n => slliSi128_add n x y
  have br : ∀ (x y : BitVec 128) n, srliSi128 (x ^^^ y) n = srliSi128 x n ^^^ srliSi128 y n :=
    fun x y n => srliSi128_add n x y
  rw [l, h, c, c, c, c]
  generalize clmul64 (loQ a) (loQ b) = x1
  generalize clmul64 (loQ a) (loQ b') = x2
  generalize clmul64 (loQ a) (hiQ b) = x3
  generalize clmul64 (loQ a) (hiQ b') = x4
  generalize clmul64 (hiQ a) (loQ b) = x5
  generalize clmul64 (hiQ a) (loQ b') = x6
  generalize clmul64 (hiQ a) (hiQ b) = x7
  generalize clmul64 (hiQ a) (hiQ b') = x8
  rw [xor4 x3 x4, bl, br]
  dsimp only
  rw [xor4 x1 x2, xor4 x7 x8]

theorem pclmulShiftReduce_add (a b c d : BitVec 128) :
    pclmulReduce (pclmulShift (a ^^^ c) (b ^^^ d)).1 (pclmulShift (a ^^^ c) (b ^^^ d)).2
      = pclmulReduce (pclmulShift a b).1 (pclmulShift a b).2
        ^^^ pclmulReduce (pclmulShift c d).1 (pclmulShift c d).2 := by
  rw [pclmulShift_ok, pclmulShift_ok, pclmulShift_ok]
  dsimp only
  rw [BitVec.shiftLeft_xor_distrib, BitVec.shiftLeft_xor_distrib, BitVec.ushiftRight_xor_distrib, xor4,
    pclmulReduce_add]

theorem pclmulCore_add_left (b : BitVec 128) : Additive fun a => pclmulCore a b := by
  intro a a'
  dsimp only
  unfold pclmulCore
  rw [pclmulProduct_add_left]
  exact pclmulShiftReduce_add _ _ _ _

theorem pclmulCore_add_right (a : BitVec 128) : Additive (pclmulCore a) := by
  intro b b'
  unfold pclmulCore
  rw [pclmulProduct_add_right]
  exact pclmulShiftReduce_add _ _ _ _

theorem loQ_twoPow (i : Nat) : loQ (BitVec.twoPow 128 i) = if i < 64 then BitVec.twoPow 64 i else 0 := by
  apply BitVec.eq_of_getLsbD_eq
  intro k hk
  rw [loQ, BitVec.getLsbD_setWidth, twoPow_bit]
  split
  · rw [Bool.eq_iff_iff]; simp only [twoPow_bit, Bool.and_eq_true, decide_eq_true_eq]; omega
  · rw [Bool.eq_iff_iff]
    simp only [BitVec.ofNat_eq_ofNat, BitVec.getLsbD_zero, Bool.and_eq_true,
      decide_eq_true_eq, Bool.false_eq_true, iff_false]; omega

theorem hiQ_twoPow (i : Nat) (hi : i < 128) :
    hiQ (BitVec.twoPow 128 i) = if i < 64 then 0 else BitVec.twoPow 64 (i - 64) := by
  apply BitVec.eq_of_getLsbD_eq
  intro k hk
  rw [hiQ, BitVec.getLsbD_setWidth, BitVec.getLsbD_ushiftRight, twoPow_bit]
  split
  · rw [Bool.eq_iff_iff]
    simp only [BitVec.ofNat_eq_ofNat, BitVec.getLsbD_zero, Bool.and_eq_true,
      decide_eq_true_eq, Bool.false_eq_true, iff_false]; omega
  · rw [Bool.eq_iff_iff]; simp only [twoPow_bit, Bool.and_eq_true, decide_eq_true_eq]; omega

theorem twoPow_shl (k n : Nat) : (BitVec.twoPow 128 k) <<< n = BitVec.twoPow 128 (k + n) := by
  apply BitVec.eq_of_getLsbD_eq
  intro i hi
  rw [Bool.eq_iff_iff]
  simp only [BitVec.getLsbD_shiftLeft, twoPow_bit,
    Bool.and_eq_true, decide_eq_true_eq, Bool.not_eq_true', decide_eq_false_iff_not]
  omega

theorem twoPow_shr (k n : Nat) (hk : k < 128) :
    (BitVec.twoPow 128 k) >>> n = if n ≤ k then BitVec.twoPow 128 (k - n) else 0 := by
  apply BitVec.eq_of_getLsbD_eq
  intro i hi
  rw [BitVec.getLsbD_ushiftRight, twoPow_bit]
  split
  · rw [Bool.eq_iff_iff]; simp only [twoPow_bit, Bool.and_eq_true, decide_eq_true_eq]; omega
  · rw [Bool.eq_iff_iff]
    simp only [BitVec.ofNat_eq_ofNat, BitVec.getLsbD_zero, Bool.and_eq_true,
      decide_eq_true_eq, Bool.false_eq_true, iff_false]; omega

theorem pclmulProduct_basis (i j : Nat) (hi : i < 128) (hj : j < 128) :
    pclmulProduct (BitVec.twoPow 128 i) (BitVec.twoPow 128 j)
      = (BitVec.twoPow 128 (i + j), if i + j < 128 then 0 else BitVec.twoPow 128 (i + j - 128)) := by
  have z1 : ∀ x, clmul64 0 x = 0 := fun x => (clmul64_add_left x).zero
  have z2 : ∀ x, clmul64 x 0 = 0 := fun x => (clmul64_add_right x).zero
  have big : ∀ k, 128 ≤ k → BitVec.twoPow 128 k = 0 := by
    intro k hk
    apply BitVec.eq_of_getLsbD_eq
    intro m hm
    rw [twoPow_bit]; simp; omega
  unfold pclmulProduct
  dsimp only
  rw [loQ_twoPow, loQ_twoPow, hiQ_twoPow i hi, hiQ_twoPow j hj, slliSi128, srliSi128]
  by_cases h1 : i < 64 <;> by_cases h2 : j < 64
  · simp only [h1, h2, if_true, z1, z2, clmul64_twoPow i j h1 h2, show i + j < 128 by omega]
    simp
  · simp only [h1, h2, if_true, if_false, z1, z2, clmul64_twoPow i (j - 64) h1 (by omega)]
    rw [show (0 : BitVec 128) ^^^ ((BitVec.twoPow 128 (i + (j - 64)) ^^^ 0) <<< (8 * 8))
      = BitVec.twoPow 128 (i + (j - 64)) <<< 64 by simp,
      show (0 : BitVec 128) ^^^ ((BitVec.twoPow 128 (i + (j - 64)) ^^^ 0) >>> (8 * 8))
      = BitVec.twoPow 128 (i + (j - 64)) >>> 64 by simp, twoPow_shl, twoPow_shr _ _ (by omega)]
    rw [show i + (j - 64) + 64 = i + j by omega]
    by_cases h : i + j < 128
    · rw [if_pos h, if_neg (by omega)]
    · rw [if_neg h, if_pos (by omega), show i + (j - 64) - 64 = i + j - 128 by omega]
  · simp only [h1, h2, if_true, if_false, z1, z2, clmul64_twoPow (i - 64) j (by omega) h2]
    rw [show (0 : BitVec 128) ^^^ ((0 ^^^ BitVec.twoPow 128 (i - 64 + j)) <<< (8 * 8))
      = BitVec.twoPow 128 (i - 64 + j) <<< 64 by simp,
      show (0 : BitVec 128) ^^^ ((0 ^^^ BitVec.twoPow 128 (i - 64 + j)) >>> (8 * 8))
      = BitVec.twoPow 128 (i - 64 + j) >>> 64 by simp, twoPow_shl, twoPow_shr _ _ (by omega)]
    rw [show i - 64 + j + 64 = i + j by omega]
    by_cases h : i + j < 128
    · rw [if_pos h, if_neg (by omega)]
    · rw [if_neg h, if_pos (by omega), show i - 64 + j - 64 = i + j - 128 by omega]
  · simp only [h1, h2, if_false, z1, z2, clmul64_twoPow (i - 64) (j - 64) (by omega) (by omega)]
    rw [if_neg (by omega), big (i + j) (by omega), show i - 64 + (j - 64) = i + j - 128 by omega]
    simp

theorem pclmulReduce_basis : ∀ k < 255,
    pclmulReduce (pclmulShift (BitVec.twoPow 128 k) (if k < 128 then 0 else BitVec.twoPow 128 (k - 128))).1
      (pclmulShift (BitVec.twoPow 128 k) (if k < 128 then 0 else BitVec.twoPow 128 (k - 128))).2
      = gfPow (254 - k) (BitVec.twoPow 128 127) := by
  decide +kernel

theorem pclmulCore_ok (a b : BitVec 128) : pclmulCore a b = gfMul a b :=
  biadditive_ext (f := pclmulCore) (g := gfMul) pclmulCore_add_left pclmulCore_add_right
    gfMul_add_left gfMul_add_right
    (fun i hi j hj => by
      rw [gfMul_basis i j hi hj, pclmulCore, pclmulProduct_basis i j hi hj]
      exact pclmulReduce_basis (i + j) (by omega)) a b

theorem sum_bytes (b : Bytes) :
    ((List.range b.length).map fun i => (byteAt b (b.length - 1 - i)).toNat * 256 ^ i).sum = beNat b := by
  induction b with
  | nil => rfl
  | cons c bs ih =>
    rw [List.length_cons, List.range_succ, List.map_append, List.sum_append, beNat, ← ih, Nat.add_comm]
    congr 1
    · simp [byteAt]
    · congr 1
      apply List.map_congr_left
      intro i hi
      have hi := List.mem_range.1 hi
      rw [show bs.length + 1 - 1 - i = (bs.length - 1 - i) + 1 by omega]
      simp [byteAt]

theorem loadReverse16_ok {b : Bytes} (h : b.length = 16) : loadReverse16 b = block128 b := by
  have := sum_bytes b
  rw [h] at this
  rw [block128, ← this]
  rfl

theorem storeReverse16_ok (x : BitVec 128) : storeReverse16 x = unblock128 x := by
  unfold storeReverse16 unblock128
  simp only [natToBE, List.range, List.range.loop, List.map]
  congr <;> (apply BitVec.eq_of_toNat_eq; simp [Nat.shiftRight_eq_div_pow])

theorem pclmulMult_ok {h x : Bytes} (hh : h.length = 16) (hx : x.length = 16) :
    pclmulMult h x = Spec.ghashMul x h := by
  have : pclmulMult h x = storeReverse16 (pclmulCore (loadReverse16 h) (loadReverse16 x)) := rfl
  rw [this, storeReverse16_ok, pclmulCore_ok, loadReverse16_ok hh, loadReverse16_ok hx, gfMul_comm, ghashMul]

end Verif
