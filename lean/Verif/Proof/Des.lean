import Verif.Model.Des
import Verif.Spec.Des
import Verif.Proof.Checked
import Verif.Proof.Block
/-
DES: the code computes FIPS 46-3.
-/
namespace Verif.Des

open Spec.Des (ofBits permute)

/-! ### Functions that commute with xor or with or are determined by their values on single bits -/

def XLin (f : BitVec m → BitVec n) : Prop := ∀ x y, f (x ^^^ y) = f x ^^^ f y

theorem XLin.zero {f : BitVec m → BitVec n} (h : XLin f) : f 0#m = 0#n := by
  have := h 0#m 0#m
  rwa [BitVec.xor_self, BitVec.xor_self] at this

theorem step_xor (x : BitVec w) (i : Nat) : (x.setWidth (i + 1)).setWidth w
    = (x.setWidth i).setWidth w ^^^ (if x.getLsbD i then BitVec.twoPow w i else 0#w) := by
  apply BitVec.eq_of_getLsbD_eq
  intro j hj
  by_cases hb : x.getLsbD i
  · simp only [hb, if_true]
    by_cases hij : i = j
    · subst hij; simp [hj, hb]
    · by_cases h2 : j < i
      · simp [hj, Ne.symm hij, h2, show j < i + 1 by omega]
      · simp only [BitVec.getLsbD_setWidth, BitVec.getLsbD_xor, BitVec.getLsbD_twoPow, h2, hij,
          show ¬ j < i + 1 by omega, decide_false, Bool.and_false, Bool.false_and, Bool.xor_false]
  · simp only [hb]
    by_cases hij : i = j
    · subst hij; rw [Bool.not_eq_true] at hb; simp [hb]
    · by_cases h2 : j < i
      · simp [hj, h2, show j < i + 1 by omega]
      · simp [hj, h2, show ¬ j < i + 1 by omega]

theorem XLin.ext {f g : BitVec m → BitVec n} (hf : XLin f) (hg : XLin g)
    (h : ∀ i, i < m → f (BitVec.twoPow m i) = g (BitVec.twoPow m i)) (x : BitVec m) : f x = g x := by
  have key : ∀ i, i ≤ m → f ((x.setWidth i).setWidth m) = g ((x.setWidth i).setWidth m) := by
    intro i
    induction i with
    | zero =>
      intro _
      have : (x.setWidth 0).setWidth m = 0#m := by
        apply BitVec.eq_of_getLsbD_eq; intro j hj; simp
      rw [this, hf.zero, hg.zero]
    | succ i ih =>
      intro hi
      rw [step_xor, hf, hg, ih (by omega)]
      split
      · rw [h i (by omega)]
      · rw [hf.zero, hg.zero]
  have := key m (by omega)
  simpa using this

/-! ### Bits of permuted vectors -/

theorem getMsbD_twoPow' {n i j : Nat} (hi : i < n) (hj : j < n) :
    (BitVec.twoPow n (n - 1 - i)).getMsbD j = decide (i = j) := by
  rw [BitVec.getMsbD_eq_getLsbD, BitVec.getLsbD_twoPow]
  simp only [hj, decide_true, Bool.true_and, show n - 1 - i < n by omega]
  by_cases h : i = j
  · simp [h]
  · simp [h, show ¬ n - 1 - i = n - 1 - j by omega]

theorem ofBits_aux (n : Nat) (p : Nat → Bool) (k : Nat) (hk : k ≤ n) (j : Nat) (hj : j < n) :
    ((List.range k).foldl (fun w j => if p j then w ||| BitVec.twoPow n (n - 1 - j) else w)
      0#n).getMsbD j = (decide (j < k) && p j) := by
  induction k with
  | zero => simp
  | succ k ih =>
    rw [List.range_succ, List.foldl_append]
    simp only [List.foldl_cons, List.foldl_nil]
    have ih := ih (by omega)
    by_cases hp : p k
    · simp only [hp, if_true, BitVec.getMsbD_or, ih, getMsbD_twoPow' (show k < n by omega) hj]
      by_cases h : k = j
      · subst h; simp [hp]
      · simp [h, show j < k + 1 ↔ j < k by omega]
    · simp only [hp]
      rw [if_neg (by simp), ih]
      by_cases h : k = j
      · subst h; simp [hp]
      · simp [show j < k + 1 ↔ j < k by omega]

theorem getMsbD_ofBits {n : Nat} {p : Nat → Bool} {j : Nat} (hj : j < n) :
    (ofBits n p).getMsbD j = p j := by
  rw [ofBits, ofBits_aux n p n (Nat.le_refl _) j hj]; simp [hj]

theorem eq_of_getMsbD {n : Nat} {x y : BitVec n} (h : ∀ j, j < n → x.getMsbD j = y.getMsbD j) :
    x = y := by
  apply BitVec.eq_of_getLsbD_eq
  intro i hi
  have := h (n - 1 - i) (by omega)
  rw [BitVec.getMsbD_eq_getLsbD, BitVec.getMsbD_eq_getLsbD] at this
  simpa [show n - 1 - i < n by omega, show n - 1 - (n - 1 - i) = i by omega] using this

theorem getMsbD_permute {n m : Nat} {t : List Nat} {x : BitVec m} {j : Nat} (hj : j < n) :
    (permute n t x).getMsbD j = x.getMsbD (t.getD j 0 - 1) := getMsbD_ofBits hj

theorem permute_xlin (n : Nat) (t : List Nat) : XLin (permute (m := m) n t) := by
  intro x y
  apply eq_of_getMsbD
  intro j hj
  rw [BitVec.getMsbD_xor, getMsbD_permute hj, getMsbD_permute hj, getMsbD_permute hj,
    BitVec.getMsbD_xor]

theorem permute_or (n : Nat) (t : List Nat) (x y : BitVec m) :
    permute n t (x ||| y) = permute n t x ||| permute n t y := by
  apply eq_of_getMsbD
  intro j hj
  rw [BitVec.getMsbD_or, getMsbD_permute hj, getMsbD_permute hj, getMsbD_permute hj,
    BitVec.getMsbD_or]

/-! ### Linear functions on pairs of words -/

def PLin (f : W32 × W32 → W32 × W32) : Prop :=
  ∀ a b c d, f (a ^^^ b, c ^^^ d) = ((f (a, c)).1 ^^^ (f (b, d)).1, (f (a, c)).2 ^^^ (f (b, d)).2)

theorem PLin.comp {f g : W32 × W32 → W32 × W32} (hf : PLin f) (hg : PLin g) :
    PLin (fun p => f (g p)) := by
  intro a b c d
  simp only [hg a b c d, hf (g (a, c)).1]

theorem PLin.flip : PLin Des.flip := fun _ _ _ _ => rfl

theorem and_xor_r {w : Nat} (x y m : BitVec w) : (x ^^^ y) &&& m = (x &&& m) ^^^ (y &&& m) := by
  apply BitVec.eq_of_getLsbD_eq
  intro i hi
  simp [Bool.and_xor_distrib_right]

theorem swap_plin (n : Nat) (m : W32) : PLin (swap n m) := by
  intro a b c d
  simp only [swap, BitVec.ushiftRight_xor_distrib, and_xor_r, BitVec.shiftLeft_xor_distrib,
    Prod.mk.injEq]
  constructor <;> ac_rfl

theorem or_rot_xlin {a b : Nat} (hab : a + b = 32) :
    XLin (fun x : W32 => (x <<< a) ||| (x >>> b)) := by
  intro x y
  apply BitVec.eq_of_getLsbD_eq
  intro i hi
  by_cases h : i < a
  · simp [h]
  · simp [hi, h, BitVec.getLsbD_of_ge _ _ (show 32 ≤ b + i by omega)]

theorem and_one (x : W32) : (x >>> 31) &&& 1#32 = x >>> 31 := by
  apply BitVec.eq_of_getLsbD_eq
  intro i hi
  by_cases h : i = 0
  · subst h; simp
  · simp [h, BitVec.getLsbD_of_ge _ _ (show 32 ≤ 31 + i by omega)]

theorem mask_plin (m : W32) : PLin (fun p => (p.1 ^^^ ((p.1 ^^^ p.2) &&& m), p.2 ^^^ ((p.1 ^^^ p.2) &&& m))) := by
  intro a b c d
  simp only [and_xor_r, Prod.mk.injEq]
  constructor <;> ac_rfl

theorem fst_plin {f : W32 → W32} (h : XLin f) : PLin (fun p => (f p.1, p.2)) := by
  intro a b c d
  simp only [h a b]

theorem snd_plin {f : W32 → W32} (h : XLin f) : PLin (fun p => (p.1, f p.2)) := by
  intro a b c d
  simp only [h c d]

theorem initial_plin : PLin initial := by
  have h1 := or_rot_xlin (a := 1) (b := 31) rfl
  have e : initial = fun p => (fun p : W32 × W32 => ((fun x : W32 => (x <<< 1) ||| (x >>> 31)) p.1, p.2))
      ((fun p => (p.1 ^^^ ((p.1 ^^^ p.2) &&& 0xaaaaaaaa#32), p.2 ^^^ ((p.1 ^^^ p.2) &&& 0xaaaaaaaa#32)))
      ((fun p : W32 × W32 => (p.1, (fun x : W32 => (x <<< 1) ||| (x >>> 31)) p.2))
      (flip (swap 8 0x00ff00ff#32 (flip (flip (swap 2 0x33333333#32 (flip
        (swap 16 0x0000ffff#32 (swap 4 0x0f0f0f0f#32 p))))))))))  := by
    funext p
    simp only [initial, and_one]
  rw [e]
  exact (fst_plin h1).comp ((mask_plin _).comp ((snd_plin h1).comp (PLin.flip.comp ((swap_plin _ _).comp
    (PLin.flip.comp (PLin.flip.comp ((swap_plin _ _).comp (PLin.flip.comp ((swap_plin _ _).comp
      (swap_plin _ _))))))))))

theorem final_plin : PLin final := by
  have h1 := or_rot_xlin (a := 31) (b := 1) rfl
  have e : final = fun p => flip (flip (swap 4 0x0f0f0f0f#32 (flip (flip (swap 16 0x0000ffff#32 (flip
      (swap 2 0x33333333#32 (swap 8 0x00ff00ff#32
      ((fun p : W32 × W32 => ((fun x : W32 => (x <<< 31) ||| (x >>> 1)) p.1, p.2))
      ((fun p => (p.1 ^^^ ((p.1 ^^^ p.2) &&& 0xaaaaaaaa#32), p.2 ^^^ ((p.1 ^^^ p.2) &&& 0xaaaaaaaa#32)))
      ((fun p : W32 × W32 => (p.1, (fun x : W32 => (x <<< 31) ||| (x >>> 1)) p.2)) p))))))))))) := rfl
  rw [e]
  exact PLin.flip.comp (PLin.flip.comp ((swap_plin _ _).comp (PLin.flip.comp (PLin.flip.comp
    ((swap_plin _ _).comp (PLin.flip.comp ((swap_plin _ _).comp ((swap_plin _ _).comp
      ((fst_plin h1).comp ((mask_plin _).comp (snd_plin h1)))))))))))

theorem extract_xlin (s l : Nat) : XLin (fun x : BitVec w => x.extractLsb' s l) := by
  intro x y
  apply BitVec.eq_of_getLsbD_eq
  intro i hi
  simp [hi]

theorem append_xor (a b : BitVec m) (c d : BitVec n) :
    (a ^^^ b) ++ (c ^^^ d) = (a ++ c) ^^^ (b ++ d) := by
  apply BitVec.eq_of_getLsbD_eq
  intro i hi
  simp only [BitVec.getLsbD_append, BitVec.getLsbD_xor]
  split <;> rfl

theorem rotateLeft_xlin (r : Nat) : XLin (fun x : BitVec w => x.rotateLeft r) := by
  intro x y
  apply eq_of_getMsbD
  intro i hi
  simp only [BitVec.getMsbD_rotateLeft, BitVec.getMsbD_xor, hi, decide_true, Bool.true_and]

/-- A function on pairs as a function on 64 bits. -/
def join (f : W32 × W32 → W32 × W32) (x : BitVec 64) : BitVec 64 :=
  (f (x.extractLsb' 32 32, x.extractLsb' 0 32)).1 ++ (f (x.extractLsb' 32 32, x.extractLsb' 0 32)).2

theorem join_xlin {f : W32 × W32 → W32 × W32} (h : PLin f) : XLin (join f) := by
  intro x y
  unfold join
  have e1 := extract_xlin (w := 64) 32 32 x y
  have e2 := extract_xlin (w := 64) 0 32 x y
  simp only at e1 e2
  rw [e1, e2, h, append_xor]

theorem append_inj {a b : BitVec m} {c d : BitVec n} (h : a ++ c = b ++ d) : a = b ∧ c = d := by
  constructor
  · apply BitVec.eq_of_getLsbD_eq
    intro i hi
    have := congrArg (fun z => z.getLsbD (i + n)) h
    simpa [BitVec.getLsbD_append, show ¬ i + n < n by omega] using this
  · apply BitVec.eq_of_getLsbD_eq
    intro i hi
    have := congrArg (fun z => z.getLsbD i) h
    simpa [BitVec.getLsbD_append, hi] using this

theorem initial_eq (x : BitVec 64) :
    initial (x.extractLsb' 32 32, x.extractLsb' 0 32)
      = (((permute 64 Spec.Des.IP x).extractLsb' 32 32).rotateLeft 1,
         ((permute 64 Spec.Des.IP x).extractLsb' 0 32).rotateLeft 1) := by
  have h : join initial x = ((permute 64 Spec.Des.IP x).extractLsb' 32 32).rotateLeft 1
      ++ ((permute 64 Spec.Des.IP x).extractLsb' 0 32).rotateLeft 1 := by
    refine XLin.ext (f := join initial) (g := fun x =>
      ((permute 64 Spec.Des.IP x).extractLsb' 32 32).rotateLeft 1
      ++ ((permute 64 Spec.Des.IP x).extractLsb' 0 32).rotateLeft 1) (join_xlin initial_plin) ?_ ?_ x
    · intro x y
      have e1 := extract_xlin (w := 64) 32 32 (permute 64 Spec.Des.IP x) (permute 64 Spec.Des.IP y)
      have e2 := extract_xlin (w := 64) 0 32 (permute 64 Spec.Des.IP x) (permute 64 Spec.Des.IP y)
      have e3 := fun x y => rotateLeft_xlin (w := 32) 1 x y
      simp only at e1 e2 e3
      simp only [permute_xlin 64 Spec.Des.IP x y, e1, e2, e3, append_xor]
    · decide +kernel
  exact Prod.ext_iff.mpr (append_inj h)

theorem final_eq (L R : W32) :
    let y := permute 64 Spec.Des.FP (R ++ L)
    final (L.rotateLeft 1, R.rotateLeft 1) = (y.extractLsb' 32 32, y.extractLsb' 0 32) := by
  intro y
  have hx : ∀ x : BitVec 64, join (fun p => final (p.1.rotateLeft 1, p.2.rotateLeft 1)) x
      = permute 64 Spec.Des.FP (x.extractLsb' 0 32 ++ x.extractLsb' 32 32) := by
    intro x
    refine XLin.ext (f := join (fun p => final (p.1.rotateLeft 1, p.2.rotateLeft 1)))
      (g := fun x : BitVec 64 => permute 64 Spec.Des.FP (x.extractLsb' 0 32 ++ x.extractLsb' 32 32))
      (join_xlin ?_) ?_ ?_ x
    · exact final_plin.comp ((fst_plin (rotateLeft_xlin 1)).comp (snd_plin (rotateLeft_xlin 1)))
    · intro x y
      have e1 := extract_xlin (w := 64) 32 32 x y
      have e2 := extract_xlin (w := 64) 0 32 x y
      simp only at e1 e2
      simp only [e1, e2, append_xor]
      exact permute_xlin _ _ _ _
    · decide +kernel
  have h1 : (L ++ R).extractLsb' 32 32 = L := by
    apply BitVec.eq_of_getLsbD_eq; intro i hi
    rw [BitVec.getLsbD_extractLsb', BitVec.getLsbD_append, if_neg (by omega), Nat.add_sub_cancel_left]
    simp [hi]
  have h2 : (L ++ R).extractLsb' 0 32 = R := by
    apply BitVec.eq_of_getLsbD_eq; intro i hi
    rw [BitVec.getLsbD_extractLsb', BitVec.getLsbD_append, if_pos (by omega), Nat.zero_add]
    simp [hi]
  have h := hx (L ++ R)
  unfold join at h
  rw [h1, h2] at h
  have hy : y = y.extractLsb' 32 32 ++ y.extractLsb' 0 32 := by
    apply BitVec.eq_of_getLsbD_eq; intro i hi
    rw [BitVec.getLsbD_append, BitVec.getLsbD_extractLsb', BitVec.getLsbD_extractLsb']
    split
    · simp [*]
    · rw [show 32 + (i - 32) = i by omega]
      simp [show i - 32 < 32 by omega]
  have h' : _ = y := h
  rw [hy] at h'
  exact Prod.ext_iff.mpr (append_inj h')

/-! ### The cipher function -/

def OLin (f : BitVec m → BitVec n) : Prop := f 0#m = 0#n ∧ ∀ x y, f (x ||| y) = f x ||| f y

theorem step_or (x : BitVec w) (i : Nat) : (x.setWidth (i + 1)).setWidth w
    = (x.setWidth i).setWidth w ||| (if x.getLsbD i then BitVec.twoPow w i else 0#w) := by
  split
  · exact BitVec.setWidth_setWidth_succ_eq_setWidth_setWidth_or_twoPow_of_getLsbD_true ‹_›
  · rw [BitVec.or_zero]
    exact BitVec.setWidth_setWidth_succ_eq_setWidth_setWidth_of_getLsbD_false (by simp_all)

theorem OLin.ext {f g : BitVec m → BitVec n} (hf : OLin f) (hg : OLin g)
    (h : ∀ i, i < m → f (BitVec.twoPow m i) = g (BitVec.twoPow m i)) (x : BitVec m) : f x = g x := by
  have key : ∀ i, i ≤ m → f ((x.setWidth i).setWidth m) = g ((x.setWidth i).setWidth m) := by
    intro i
    induction i with
    | zero =>
      intro _
      have : (x.setWidth 0).setWidth m = 0#m := by
        apply BitVec.eq_of_getLsbD_eq; intro j hj; simp
      rw [this, hf.1, hg.1]
    | succ i ih =>
      intro hi
      rw [step_or, hf.2, hg.2, ih (by omega)]
      split
      · rw [h i (by omega)]
      · rw [hf.1, hg.1]
  have := key m (by omega)
  simpa using this

theorem extract_or (s l : Nat) (x y : BitVec w) :
    (x ||| y).extractLsb' s l = x.extractLsb' s l ||| y.extractLsb' s l := by
  apply BitVec.eq_of_getLsbD_eq
  intro i hi
  simp [hi]

theorem and_or_r {w : Nat} (x y m : BitVec w) : (x ||| y) &&& m = (x &&& m) ||| (y &&& m) := by
  apply BitVec.eq_of_getLsbD_eq
  intro i hi
  simp [Bool.and_or_distrib_right]

theorem rotateLeft_or (r : Nat) (x y : BitVec w) :
    (x ||| y).rotateLeft r = x.rotateLeft r ||| y.rotateLeft r := by
  apply eq_of_getMsbD
  intro i hi
  simp only [BitVec.getMsbD_rotateLeft, BitVec.getMsbD_or, hi, decide_true, Bool.true_and]

/-- The two raw words of an iteration key. -/
def hi24 (K : BitVec 48) : W32 := (K.extractLsb' 24 24).setWidth 32
def lo24 (K : BitVec 48) : W32 := (K.extractLsb' 0 24).setWidth 32

/-- The two cooked words of an iteration key. -/
def word0 (K : BitVec 48) : W32 := (cook2 (hi24 K) (lo24 K)).getD 0 0
def word1 (K : BitVec 48) : W32 := (cook2 (hi24 K) (lo24 K)).getD 1 0

theorem word0_idx (K : BitVec 48) :
    (word0 K >>> 24) &&& 0x3f#32 = (K.extractLsb' 42 6).setWidth 32
    ∧ (word0 K >>> 16) &&& 0x3f#32 = (K.extractLsb' 30 6).setWidth 32
    ∧ (word0 K >>> 8) &&& 0x3f#32 = (K.extractLsb' 18 6).setWidth 32
    ∧ (word0 K >>> 0) &&& 0x3f#32 = (K.extractLsb' 6 6).setWidth 32 := by
  have hl : ∀ s : Nat, OLin (fun K => (word0 K >>> s) &&& 0x3f#32) := by
    intro s
    refine ⟨by simp [word0, cook2, hi24, lo24], fun x y => ?_⟩
    simp only [word0, cook2, hi24, lo24, List.getD_cons_zero, extract_or, BitVec.setWidth_or,
      and_or_r, BitVec.shiftLeft_or_distrib, BitVec.ushiftRight_or_distrib]
    ac_rfl
  have hr : ∀ s, OLin (fun K : BitVec 48 => (K.extractLsb' s 6).setWidth 32) := by
    intro s
    refine ⟨by simp, fun x y => ?_⟩
    simp only [extract_or, BitVec.setWidth_or]
  exact ⟨OLin.ext (hl 24) (hr 42) (by decide +kernel) K, OLin.ext (hl 16) (hr 30) (by decide +kernel) K,
    OLin.ext (hl 8) (hr 18) (by decide +kernel) K, OLin.ext (hl 0) (hr 6) (by decide +kernel) K⟩

theorem word1_idx (K : BitVec 48) :
    (word1 K >>> 24) &&& 0x3f#32 = (K.extractLsb' 36 6).setWidth 32
    ∧ (word1 K >>> 16) &&& 0x3f#32 = (K.extractLsb' 24 6).setWidth 32
    ∧ (word1 K >>> 8) &&& 0x3f#32 = (K.extractLsb' 12 6).setWidth 32
    ∧ (word1 K >>> 0) &&& 0x3f#32 = (K.extractLsb' 0 6).setWidth 32 := by
  have hl : ∀ s : Nat, OLin (fun K => (word1 K >>> s) &&& 0x3f#32) := by
    intro s
    refine ⟨by simp [word1, cook2, hi24, lo24], fun x y => ?_⟩
    simp only [word1, cook2, hi24, lo24, List.getD_cons_zero, List.getD_cons_succ, extract_or,
      BitVec.setWidth_or, and_or_r, BitVec.shiftLeft_or_distrib, BitVec.ushiftRight_or_distrib]
    ac_rfl
  have hr : ∀ s, OLin (fun K : BitVec 48 => (K.extractLsb' s 6).setWidth 32) := by
    intro s
    refine ⟨by simp, fun x y => ?_⟩
    simp only [extract_or, BitVec.setWidth_or]
  exact ⟨OLin.ext (hl 24) (hr 36) (by decide +kernel) K, OLin.ext (hl 16) (hr 24) (by decide +kernel) K,
    OLin.ext (hl 8) (hr 12) (by decide +kernel) K, OLin.ext (hl 0) (hr 0) (by decide +kernel) K⟩

theorem exp_idx (R : W32) :
    let E := permute 48 Spec.Des.E R
    let x := R.rotateLeft 1
    (((x <<< 28 ||| x >>> 4) >>> 24) &&& 0x3f#32 = (E.extractLsb' 42 6).setWidth 32
    ∧ ((x <<< 28 ||| x >>> 4) >>> 16) &&& 0x3f#32 = (E.extractLsb' 30 6).setWidth 32
    ∧ ((x <<< 28 ||| x >>> 4) >>> 8) &&& 0x3f#32 = (E.extractLsb' 18 6).setWidth 32
    ∧ ((x <<< 28 ||| x >>> 4) >>> 0) &&& 0x3f#32 = (E.extractLsb' 6 6).setWidth 32)
    ∧ ((x >>> 24) &&& 0x3f#32 = (E.extractLsb' 36 6).setWidth 32
    ∧ (x >>> 16) &&& 0x3f#32 = (E.extractLsb' 24 6).setWidth 32
    ∧ (x >>> 8) &&& 0x3f#32 = (E.extractLsb' 12 6).setWidth 32
    ∧ (x >>> 0) &&& 0x3f#32 = (E.extractLsb' 0 6).setWidth 32) := by
  intro E x
  have hl : ∀ s : Nat, OLin (fun R : W32 => (((R.rotateLeft 1) <<< 28 ||| (R.rotateLeft 1) >>> 4) >>> s) &&& 0x3f#32) := by
    intro s
    refine ⟨by simp [show (0#32).rotateLeft 1 = 0#32 by decide], fun x y => ?_⟩
    simp only [rotateLeft_or,
      and_or_r, BitVec.shiftLeft_or_distrib, BitVec.ushiftRight_or_distrib]
    ac_rfl
  have hl' : ∀ s : Nat, OLin (fun R : W32 => ((R.rotateLeft 1) >>> s) &&& 0x3f#32) := by
    intro s
    refine ⟨by simp [show (0#32).rotateLeft 1 = 0#32 by decide], fun x y => ?_⟩
    simp only [rotateLeft_or, and_or_r, BitVec.ushiftRight_or_distrib]
  have hr : ∀ s, OLin (fun R : W32 => ((permute 48 Spec.Des.E R).extractLsb' s 6).setWidth 32) := by
    intro s
    refine ⟨?_, fun x y => ?_⟩
    · simp [show permute 48 Spec.Des.E 0#32 = 0#48 by decide]
    · simp only [permute_or, extract_or, BitVec.setWidth_or]
  exact ⟨⟨OLin.ext (hl 24) (hr 42) (by decide +kernel) R, OLin.ext (hl 16) (hr 30) (by decide +kernel) R,
    OLin.ext (hl 8) (hr 18) (by decide +kernel) R, OLin.ext (hl 0) (hr 6) (by decide +kernel) R⟩,
   ⟨OLin.ext (hl' 24) (hr 36) (by decide +kernel) R, OLin.ext (hl' 16) (hr 24) (by decide +kernel) R,
    OLin.ext (hl' 8) (hr 12) (by decide +kernel) R, OLin.ext (hl' 0) (hr 0) (by decide +kernel) R⟩⟩

/-- The table `SP` with the selection function `S` whose output is shifted by `sh`. -/
def SPok (SP : List W32) (S : List Nat) (sh : Nat) : Prop :=
  ∀ n, n < 64 → SP.getD n 0 = (permute 32 Spec.Des.P
    (((Spec.Des.select S (BitVec.ofNat 6 n)).setWidth 32 : W32) <<< sh)).rotateLeft 1

instance (SP S sh) : Decidable (SPok SP S sh) := by unfold SPok; infer_instance

theorem sp1 : SPok SP1 Spec.Des.S1 28 := by decide +kernel
theorem sp2 : SPok SP2 Spec.Des.S2 24 := by decide +kernel
theorem sp3 : SPok SP3 Spec.Des.S3 20 := by decide +kernel
theorem sp4 : SPok SP4 Spec.Des.S4 16 := by decide +kernel
theorem sp5 : SPok SP5 Spec.Des.S5 12 := by decide +kernel
theorem sp6 : SPok SP6 Spec.Des.S6 8 := by decide +kernel
theorem sp7 : SPok SP7 Spec.Des.S7 4 := by decide +kernel
theorem sp8 : SPok SP8 Spec.Des.S8 0 := by decide +kernel

theorem SPok.get {SP S sh} (h : SPok SP S sh) (y : BitVec 6) {w : W32} (hw : w = y.setWidth 32) :
    SP.getD w.toNat 0 = (permute 32 Spec.Des.P
      (((Spec.Des.select S y).setWidth 32 : W32) <<< sh)).rotateLeft 1 := by
  have e : w.toNat = y.toNat := by
    rw [hw, BitVec.toNat_setWidth]; exact Nat.mod_eq_of_lt (by omega)
  have := h y.toNat y.isLt
  rw [e, this]
  simp

theorem nibbles (a b c d e f g h : BitVec 4) : (a ++ b ++ c ++ d ++ e ++ f ++ g ++ h : BitVec 32)
    = (a.setWidth 32) <<< 28 ||| (b.setWidth 32) <<< 24 ||| (c.setWidth 32) <<< 20
      ||| (d.setWidth 32) <<< 16 ||| (e.setWidth 32) <<< 12 ||| (f.setWidth 32) <<< 8
      ||| (g.setWidth 32) <<< 4 ||| (h.setWidth 32) <<< 0 := by
  apply BitVec.eq_of_getLsbD_eq
  intro i hi
  have : i = 0 ∨ i = 1 ∨ i = 2 ∨ i = 3 ∨ i = 4 ∨ i = 5 ∨ i = 6 ∨ i = 7 ∨ i = 8 ∨ i = 9 ∨ i = 10 ∨ i = 11 ∨ i = 12 ∨ i = 13 ∨ i = 14 ∨ i = 15 ∨ i = 16 ∨ i = 17 ∨ i = 18 ∨ i = 19 ∨ i = 20 ∨ i = 21 ∨ i = 22 ∨ i = 23 ∨ i = 24 ∨ i = 25 ∨ i = 26 ∨ i = 27 ∨ i = 28 ∨ i = 29 ∨ i = 30 ∨ i = 31 := by omega
  rcases this with rfl | rfl | rfl | rfl | rfl | rfl | rfl | rfl | rfl | rfl | rfl | rfl | rfl | rfl | rfl | rfl | rfl | rfl | rfl | rfl | rfl | rfl | rfl | rfl | rfl | rfl | rfl | rfl | rfl | rfl | rfl | rfl <;>
    (simp only [BitVec.getLsbD_append, BitVec.getLsbD_or, BitVec.getLsbD_shiftLeft, BitVec.getLsbD_setWidth]
     simp [BitVec.getLsbD_of_ge])

theorem fval_eq (R : W32) (K : BitVec 48) :
    fval (R.rotateLeft 1) (word0 K) (word1 K) = (Spec.Des.f R K).rotateLeft 1 := by
  obtain ⟨a1, a3, a5, a7⟩ := word0_idx K
  obtain ⟨a2, a4, a6, a8⟩ := word1_idx K
  obtain ⟨⟨b1, b3, b5, b7⟩, ⟨b2, b4, b6, b8⟩⟩ := exp_idx R
  have hx : ∀ t, ((permute 48 Spec.Des.E R).extractLsb' t 6).setWidth 32 ^^^ (K.extractLsb' t 6).setWidth 32
      = ((permute 48 Spec.Des.E R ^^^ K).extractLsb' t 6).setWidth 32 := by
    intro t
    have := extract_xlin (w := 48) t 6 (permute 48 Spec.Des.E R) K
    simp only at this
    rw [this, BitVec.setWidth_xor]
  simp only [fval, BitVec.ushiftRight_xor_distrib, and_xor_r, a1, a2, a3, a4, a5, a6, a7, a8,
    b1, b2, b3, b4, b5, b6, b7, b8, hx]
  rw [sp1.get _ rfl, sp2.get _ rfl, sp3.get _ rfl, sp4.get _ rfl, sp5.get _ rfl, sp6.get _ rfl,
    sp7.get _ rfl, sp8.get _ rfl]
  simp only [Spec.Des.f, Spec.Des.S, nibbles, permute_or, rotateLeft_or]
  ac_rfl

/-! ### Blocks -/

theorem getD_lt {α : Type} {l : List α} {d : α} {i : Nat} (h : i < l.length) : l.getD i d = l[i] := by
  simp [List.getD_eq_getElem?_getD, h]

theorem beNat_getMsbD (b : Bytes) {l : Nat} (hl : l < 8 * b.length) :
    (beNat b).testBit (8 * b.length - 1 - l) = (b.getD (l / 8) 0).getMsbD (l % 8) := by
  induction b generalizing l with
  | nil => simp at hl
  | cons c bs ih =>
    have hlt := beNat_lt bs
    rw [show (256 : Nat) = 2 ^ 8 by rfl, ← Nat.pow_mul] at hlt
    rw [List.length_cons] at hl ⊢
    rw [beNat, show (256 : Nat) = 2 ^ 8 by rfl, ← Nat.pow_mul, Nat.mul_comm c.toNat,
        Nat.testBit_two_pow_mul_add _ hlt]
    by_cases h : l < 8
    · rw [if_neg (by omega), Nat.div_eq_of_lt h, Nat.mod_eq_of_lt h, List.getD_cons_zero,
        BitVec.getMsbD_eq_getLsbD, ← BitVec.testBit_toNat]
      simp only [h, decide_true, Bool.true_and]
      congr 1
      omega
    · rw [if_pos (by omega)]
      have := ih (l := l - 8) (by omega)
      rw [show 8 * (bs.length + 1) - 1 - l = 8 * bs.length - 1 - (l - 8) by omega, this,
        show l / 8 = (l - 8) / 8 + 1 by omega, List.getD_cons_succ, show l % 8 = (l - 8) % 8 by omega]

theorem ofBytes_getMsbD {b : Bytes} (hb : b.length = 8) {l : Nat} (hl : l < 64) :
    (Spec.Des.ofBytes b).getMsbD l = (b.getD (l / 8) 0).getMsbD (l % 8) := by
  rw [← beNat_getMsbD b (by omega), hb, Spec.Des.ofBytes, BitVec.getMsbD_eq_getLsbD,
    BitVec.getLsbD_ofNat]
  simp [hl, show 63 - l < 64 by omega]

theorem word4 (a b c d : Byte) {i : Nat} (hi : i < 32) :
    ((a.setWidth 32 : W32) <<< 24 ||| (b.setWidth 32) <<< 16 ||| (c.setWidth 32) <<< 8
      ||| d.setWidth 32).getMsbD i = ([a, b, c, d].getD (i / 8) 0).getMsbD (i % 8) := by
  have : i = 0 ∨ i = 1 ∨ i = 2 ∨ i = 3 ∨ i = 4 ∨ i = 5 ∨ i = 6 ∨ i = 7 ∨ i = 8 ∨ i = 9 ∨ i = 10 ∨ i = 11 ∨ i = 12 ∨ i = 13 ∨ i = 14 ∨ i = 15 ∨ i = 16 ∨ i = 17 ∨ i = 18 ∨ i = 19 ∨ i = 20 ∨ i = 21 ∨ i = 22 ∨ i = 23 ∨ i = 24 ∨ i = 25 ∨ i = 26 ∨ i = 27 ∨ i = 28 ∨ i = 29 ∨ i = 30 ∨ i = 31 := by omega
  rcases this with rfl | rfl | rfl | rfl | rfl | rfl | rfl | rfl | rfl | rfl | rfl | rfl | rfl | rfl | rfl | rfl | rfl | rfl | rfl | rfl | rfl | rfl | rfl | rfl | rfl | rfl | rfl | rfl | rfl | rfl | rfl | rfl <;>
    simp [BitVec.getMsbD_eq_getLsbD, BitVec.getLsbD_of_ge]

theorem scrunch_eq {b : Bytes} (hb : b.length = 8) :
    scrunch b = ((Spec.Des.ofBytes b).extractLsb' 32 32, (Spec.Des.ofBytes b).extractLsb' 0 32) := by
  match b, hb with
  | [b0, b1, b2, b3, b4, b5, b6, b7], hb =>
    apply Prod.ext
    · apply eq_of_getMsbD
      intro j hj
      rw [BitVec.getMsbD_extractLsb', show 64 - (32 + 32 - j) = j by omega,
        ofBytes_getMsbD hb (by omega)]
      simp only [hj, decide_true, Bool.true_and, show 32 + 32 - j ≤ 64 by omega]
      refine (word4 b0 b1 b2 b3 hj).trans ?_
      have : j / 8 = 0 ∨ j / 8 = 1 ∨ j / 8 = 2 ∨ j / 8 = 3 := by omega
      rcases this with h | h | h | h <;> rw [h] <;> rfl
    · apply eq_of_getMsbD
      intro j hj
      rw [BitVec.getMsbD_extractLsb', show 64 - (0 + 32 - j) = 32 + j by omega,
        ofBytes_getMsbD hb (by omega)]
      simp only [hj, decide_true, Bool.true_and, show 0 + 32 - j ≤ 64 by omega]
      refine (word4 b4 b5 b6 b7 hj).trans ?_
      rw [show (32 + j) / 8 = j / 8 + 4 by omega, show (32 + j) % 8 = j % 8 by omega]
      have : j / 8 = 0 ∨ j / 8 = 1 ∨ j / 8 = 2 ∨ j / 8 = 3 := by omega
      rcases this with h | h | h | h <;> rw [h] <;> rfl

theorem unscrun_eq (y : BitVec 64) :
    unscrun (y.extractLsb' 32 32, y.extractLsb' 0 32) = natToBE 8 y.toNat := by
  simp only [unscrun, natToBE]
  have hy := y.isLt
  congr <;> (apply BitVec.eq_of_toNat_eq; simp [Nat.shiftRight_eq_div_pow]; try omega)

/-! ### Key schedule -/

theorem bigbyte_eq : ∀ j, j < 24 → bigbyte.getD j 0 = (BitVec.twoPow 24 (24 - 1 - j)).setWidth 32 := by
  decide +kernel

theorem rawKey_eq (pr : List Bool) (d : Nat) : rawKey pr d
    = (ofBits 24 fun j => pr.getD (pc2.getD (j + d) 0) false).setWidth 32 := by
  have key : ∀ k, k ≤ 24 → (List.range k).foldl
      (fun w j => if pr.getD (pc2.getD (j + d) 0) false then w ||| bigbyte.getD j 0 else w) 0#32
      = ((List.range k).foldl (fun w j => if pr.getD (pc2.getD (j + d) 0) false
          then w ||| BitVec.twoPow 24 (24 - 1 - j) else w) 0#24).setWidth 32 := by
    intro k
    induction k with
    | zero => intro _; rfl
    | succ k ih =>
      intro hk
      rw [List.range_succ, List.foldl_append, List.foldl_append]
      simp only [List.foldl_cons, List.foldl_nil]
      rw [ih (by omega), bigbyte_eq k (by omega)]
      split
      · rw [BitVec.setWidth_or]
      · rfl
  exact key 24 (Nat.le_refl _)

theorem bytebit_eq : ∀ m, m < 8 → ∀ c : Nat, c < 256 →
    (BitVec.ofNat 8 c &&& bytebit.getD m 0 != 0) = (BitVec.ofNat 8 c).getMsbD m := by decide +kernel

theorem pc1_eq : ∀ t, t < 56 → pc1.getD t 0 = Spec.Des.PC1.getD t 0 - 1 ∧ pc1.getD t 0 < 64 := by
  decide +kernel

theorem pc1m_eq {key : Bytes} (hk : key.length = 8) {t : Nat} (ht : t < 56) :
    (pc1m key).getD t false = (permute 56 Spec.Des.PC1 (Spec.Des.ofBytes key)).getMsbD t := by
  obtain ⟨h1, h2⟩ := pc1_eq t ht
  rw [getMsbD_permute ht, ← h1, ofBytes_getMsbD hk h2]
  have hl : t < (pc1m key).length := by simp [pc1m, ht]
  rw [getD_lt hl]
  simp only [pc1m, List.getElem_map, List.getElem_range]
  have e := bytebit_eq (pc1.getD t 0 % 8) (by omega) (key.getD (pc1.getD t 0 / 8) 0).toNat
    (BitVec.isLt _)
  rw [BitVec.ofNat_toNat, BitVec.setWidth_eq] at e
  rw [← e, Nat.shiftRight_eq_div_pow, show (7 : Nat) = 2 ^ 3 - 1 by rfl, Nat.and_two_pow_sub_one_eq_mod]

/-- The number of shifts before iteration key `n`. -/
def tot (n : Nat) : Nat := (Spec.Des.shifts.take n).sum

theorem CD_eq (key : BitVec 64) (n : Nat) (hn : n ≤ 16) :
    (∀ t, t < 28 → (Spec.Des.CD key n).1.getMsbD t
      = (permute 56 Spec.Des.PC1 key).getMsbD ((t + tot n) % 28))
    ∧ (∀ t, t < 28 → (Spec.Des.CD key n).2.getMsbD t
      = (permute 56 Spec.Des.PC1 key).getMsbD (28 + (t + tot n) % 28)) := by
  induction n with
  | zero =>
    constructor <;> intro t ht <;>
      simp only [Spec.Des.CD, tot, List.take_zero, List.sum_nil, Nat.add_zero, Nat.mod_eq_of_lt ht,
        BitVec.getMsbD_extractLsb', ht, decide_true, Bool.true_and]
    · rw [show 56 - (28 + 28 - t) = t by omega]; simp [show 28 + 28 - t ≤ 56 by omega]
    · rw [show 56 - (0 + 28 - t) = 28 + t by omega]; simp [show 0 + 28 - t ≤ 56 by omega]
  | succ n ih =>
    obtain ⟨h1, h2⟩ := ih (by omega)
    have ht : tot (n + 1) = tot n + Spec.Des.shifts.getD n 0 := by
      have : ∀ n, n < 16 → tot (n + 1) = tot n + Spec.Des.shifts.getD n 0 := by decide
      exact this n (by omega)
    constructor <;> intro t htl <;> simp only [Spec.Des.CD, BitVec.getMsbD_rotateLeft, htl,
      decide_true, Bool.true_and]
    · rw [h1 _ (Nat.mod_lt _ (by decide)), ht]
      congr 1; omega
    · rw [h2 _ (Nat.mod_lt _ (by decide)), ht]
      congr 1; omega

theorem totrot_eq : ∀ i, i < 16 → totrot.getD i 0 = tot (i + 1) ∧ totrot.getD i 0 ≤ 28 := by decide

theorem pcr_eq {key : Bytes} (hk : key.length = 8) {i : Nat} (hi : i < 16) {t : Nat} (ht : t < 56) :
    (pcr (pc1m key) i).getD t false
      = ((Spec.Des.CD (Spec.Des.ofBytes key) (i + 1)).1
          ++ (Spec.Des.CD (Spec.Des.ofBytes key) (i + 1)).2).getMsbD t := by
  obtain ⟨e1, e2⟩ := CD_eq (Spec.Des.ofBytes key) (i + 1) (by omega)
  obtain ⟨f1, f2⟩ := totrot_eq i hi
  have hl : t < (pcr (pc1m key) i).length := by simp [pcr]; omega
  rw [getD_lt hl, BitVec.getMsbD_append]
  simp only [pcr]
  by_cases h : t < 28
  · rw [List.getElem_append_left (by simpa using h), if_neg (by omega), e1 t h]
    simp only [List.getElem_map, List.getElem_range]
    rw [← f1]
    split
    · rw [pc1m_eq hk (by omega)]; congr 1; omega
    · rw [pc1m_eq hk (by omega)]; congr 1; omega
  · rw [List.getElem_append_right (by simpa using h), if_pos (by omega), e2 (t - 28) (by omega)]
    simp only [List.getElem_map, List.getElem_range, List.length_map, List.length_range]
    rw [← f1]
    split
    · rw [pc1m_eq hk (by omega)]; congr 1; omega
    · rw [pc1m_eq hk (by omega)]; congr 1; omega

theorem pc2_eq : ∀ t, t < 48 → pc2.getD t 0 = Spec.Des.PC2.getD t 0 - 1 ∧ pc2.getD t 0 < 56 := by
  decide +kernel

theorem roundKey_getMsbD {key : Bytes} (hk : key.length = 8) {i : Nat} (hi : i < 16) {t : Nat}
    (ht : t < 48) : (Spec.Des.roundKey (Spec.Des.ofBytes key) i).getMsbD t
      = (pcr (pc1m key) i).getD (pc2.getD t 0) false := by
  obtain ⟨h1, h2⟩ := pc2_eq t ht
  rw [pcr_eq hk hi h2]
  simp only [Spec.Des.roundKey]
  rw [getMsbD_permute ht, h1]

theorem raw_eq {key : Bytes} (hk : key.length = 8) {i : Nat} (hi : i < 16) :
    rawKey (pcr (pc1m key) i) 0 = hi24 (Spec.Des.roundKey (Spec.Des.ofBytes key) i)
    ∧ rawKey (pcr (pc1m key) i) 24 = lo24 (Spec.Des.roundKey (Spec.Des.ofBytes key) i) := by
  rw [rawKey_eq, rawKey_eq, hi24, lo24]
  constructor <;> congr 1 <;> apply eq_of_getMsbD <;> intro j hj <;>
    rw [getMsbD_ofBits hj, ← roundKey_getMsbD hk hi (by omega), BitVec.getMsbD_extractLsb']
  · simp [hj, show 48 - (24 + 24 - j) = j by omega, show 24 + 24 - j ≤ 48 by omega]
  · simp [hj, show 48 - (0 + 24 - j) = j + 24 by omega, show 48 - (24 - j) = j + 24 by omega,
      show 24 - j ≤ 48 by omega]

theorem cook2_eq (K : BitVec 48) : cook2 (hi24 K) (lo24 K) = [word0 K, word1 K] := rfl

theorem cookey_flatMap (l : List Nat) (a b : Nat → W32) :
    cookey (l.flatMap fun i => [a i, b i]) = l.flatMap fun i => cook2 (a i) (b i) := by
  induction l with
  | nil => rfl
  | cons x l ih => simp only [List.flatMap_cons, List.cons_append, List.nil_append, cookey, ih]

/-- The iteration keys in the order used. -/
def keysOf (key : Bytes) (de1 : Bool) : List (BitVec 48) :=
  if de1 then (Spec.Des.roundKeys (Spec.Des.ofBytes key)).reverse
  else Spec.Des.roundKeys (Spec.Des.ofBytes key)

theorem rawKeys_eq (key : Bytes) (de1 : Bool) : rawKeys key de1
    = (if de1 then (List.range 16).reverse else List.range 16).flatMap
      fun i => [rawKey (pcr (pc1m key) i) 0, rawKey (pcr (pc1m key) i) 24] := by
  unfold rawKeys
  generalize pc1m key = pm
  have : ∀ (g : Nat → Nat → W32), (List.range 16).foldl (fun kn i =>
    let m := if de1 then (15 - i) <<< 1 else i <<< 1
    (kn.set m (g i 0)).set (m + 1) (g i 24)) (List.replicate 32 0)
    = (if de1 then (List.range 16).reverse else List.range 16).flatMap fun i => [g i 0, g i 24] := by
    intro g
    cases de1 <;> simp [List.range, List.range.loop, List.replicate, List.flatMap_cons]
  exact this fun i d => rawKey (pcr pm i) d

theorem cookKey_eq {key : Bytes} (hk : key.length = 8) (de1 : Bool) :
    cookKey key de1 = (keysOf key de1).flatMap fun K => [word0 K, word1 K] := by
  rw [cookKey, rawKeys_eq, cookey_flatMap]
  have e : keysOf key de1 = (if de1 then (List.range 16).reverse else List.range 16).map
      (Spec.Des.roundKey (Spec.Des.ofBytes key)) := by
    unfold keysOf Spec.Des.roundKeys
    cases de1
    · rfl
    · simp only [if_true]; rw [List.map_reverse]
  rw [e, List.flatMap_map]
  rw [List.flatMap_def, List.flatMap_def]
  congr 1
  apply List.map_congr_left
  intro i hi
  have hi : i < 16 := by
    cases de1 <;> simpa using hi
  obtain ⟨h1, h2⟩ := raw_eq hk hi
  rw [h1, h2, cook2_eq]

/-! ### The whole cipher -/

theorem rounds_eq (n : Nat) (Ks : List (BitVec 48)) (hn : Ks.length = 2 * n) (L R : W32) :
    rounds n (Ks.flatMap fun K => [word0 K, word1 K]) (L.rotateLeft 1, R.rotateLeft 1)
      = ((Ks.foldl Spec.Des.round (L, R)).1.rotateLeft 1,
         (Ks.foldl Spec.Des.round (L, R)).2.rotateLeft 1) := by
  induction n generalizing Ks L R with
  | zero => rw [List.length_eq_zero_iff.1 hn]; rfl
  | succ n ih =>
    match Ks, hn with
    | K1 :: K2 :: Ks, hn =>
      simp only [List.flatMap_cons, List.cons_append, List.nil_append, rounds, List.getD_cons_zero,
        List.getD_cons_succ, List.drop_succ_cons, List.drop_zero]
      have hx := fun x y => rotateLeft_xlin (w := 32) 1 x y
      simp only at hx
      rw [fval_eq, ← hx, fval_eq, ← hx, ih Ks (by simp at hn; omega)]
      rfl

theorem transform_eq {key : Bytes} (hk : key.length = 8) (de1 : Bool) {b : Bytes}
    (hb : b.length = 8) : transform (cookKey key de1) b
      = some (natToBE 8 (Spec.Des.crypt (keysOf key de1) (Spec.Des.ofBytes b)).toNat) := by
  have hl : (keysOf key de1).length = 16 := by
    unfold keysOf Spec.Des.roundKeys
    cases de1 <;> simp
  have hl2 : (cookKey key de1).length = 32 := by
    have : ∀ l : List (BitVec 48), (l.flatMap fun K => [word0 K, word1 K]).length = 2 * l.length := by
      intro l
      induction l with
      | nil => rfl
      | cons K l ih => rw [List.flatMap_cons, List.length_append, ih]; simp; omega
    rw [cookKey_eq hk, this, hl]
  unfold transform
  rw [if_neg (by omega), scrunch_eq hb, initial_eq, cookKey_eq hk, rounds_eq 8 _ hl, final_eq,
    unscrun_eq]
  rfl

theorem enc_stub {key : Bytes} (hk : key.length = 8) {b : Bytes} (hb : b.length = 8) :
    transform (cookKey key false) b = some (Spec.Des.encrypt key b) := transform_eq hk false hb

theorem dec_stub {key : Bytes} (hk : key.length = 8) {b : Bytes} (hb : b.length = 8) :
    transform (cookKey key true) b = some (Spec.Des.decrypt key b) := transform_eq hk true hb

/-! ### Inversion -/

theorem feistel (Ks : List (BitVec 48)) (s : W32 × W32) :
    Ks.reverse.foldl Spec.Des.round ((Ks.foldl Spec.Des.round s).2, (Ks.foldl Spec.Des.round s).1)
      = (s.2, s.1) := by
  induction Ks generalizing s with
  | nil => rfl
  | cons K Ks ih =>
    rw [List.foldl_cons, List.reverse_cons, List.foldl_append, ih]
    simp only [Spec.Des.round, List.foldl_cons, List.foldl_nil]
    rw [BitVec.xor_assoc, BitVec.xor_self, BitVec.xor_zero]

theorem ip_fp (y : BitVec 64) : permute 64 Spec.Des.IP (permute 64 Spec.Des.FP y) = y := by
  apply eq_of_getMsbD
  intro j hj
  have : ∀ j, j < 64 → Spec.Des.IP.getD j 0 - 1 < 64
      ∧ Spec.Des.FP.getD (Spec.Des.IP.getD j 0 - 1) 0 - 1 = j := by decide +kernel
  obtain ⟨h1, h2⟩ := this j hj
  rw [getMsbD_permute hj, getMsbD_permute h1, h2]

theorem fp_ip (y : BitVec 64) : permute 64 Spec.Des.FP (permute 64 Spec.Des.IP y) = y := by
  apply eq_of_getMsbD
  intro j hj
  have : ∀ j, j < 64 → Spec.Des.FP.getD j 0 - 1 < 64
      ∧ Spec.Des.IP.getD (Spec.Des.FP.getD j 0 - 1) 0 - 1 = j := by decide +kernel
  obtain ⟨h1, h2⟩ := this j hj
  rw [getMsbD_permute hj, getMsbD_permute h1, h2]

theorem extract_hi (L R : W32) : (L ++ R).extractLsb' 32 32 = L := by
  apply BitVec.eq_of_getLsbD_eq; intro i hi
  rw [BitVec.getLsbD_extractLsb', BitVec.getLsbD_append, if_neg (by omega), Nat.add_sub_cancel_left]
  simp [hi]

theorem extract_lo (L R : W32) : (L ++ R).extractLsb' 0 32 = R := by
  apply BitVec.eq_of_getLsbD_eq; intro i hi
  rw [BitVec.getLsbD_extractLsb', BitVec.getLsbD_append, if_pos (by omega), Nat.zero_add]
  simp [hi]

theorem append_extract (y : BitVec 64) : y.extractLsb' 32 32 ++ y.extractLsb' 0 32 = y := by
  apply BitVec.eq_of_getLsbD_eq; intro i hi
  rw [BitVec.getLsbD_append, BitVec.getLsbD_extractLsb', BitVec.getLsbD_extractLsb']
  split
  · simp [*]
  · rw [show 32 + (i - 32) = i by omega]
    simp [show i - 32 < 32 by omega]

theorem crypt_crypt (Ks : List (BitVec 48)) (x : BitVec 64) :
    Spec.Des.crypt Ks.reverse (Spec.Des.crypt Ks x) = x := by
  simp only [Spec.Des.crypt]
  rw [ip_fp, extract_hi, extract_lo, feistel]
  exact (congrArg _ (append_extract _)).trans (fp_ip x)

theorem ofBytes_natToBE (y : BitVec 64) : Spec.Des.ofBytes (natToBE 8 y.toNat) = y := by
  unfold Spec.Des.ofBytes
  rw [beNat_natToBE, Nat.mod_eq_of_lt (by have := y.isLt; omega)]
  simp

theorem natToBE_ofBytes {b : Bytes} (hb : b.length = 8) : natToBE 8 (Spec.Des.ofBytes b).toNat = b := by
  have := beNat_lt b
  rw [hb] at this
  rw [Spec.Des.ofBytes, BitVec.toNat_ofNat, Nat.mod_eq_of_lt (by omega)]
  have := natToBE_beNat b
  rwa [hb] at this

end Verif.Des

namespace Verif.Spec.Des

theorem decrypt_encrypt (key : Bytes) {b : Bytes} (hb : b.length = 8) :
    decrypt key (encrypt key b) = b := by
  unfold decrypt encrypt
  rw [Verif.Des.ofBytes_natToBE, Verif.Des.crypt_crypt, Verif.Des.natToBE_ofBytes hb]

theorem encrypt_decrypt (key : Bytes) {b : Bytes} (hb : b.length = 8) :
    encrypt key (decrypt key b) = b := by
  unfold decrypt encrypt
  have := Verif.Des.crypt_crypt (roundKeys (ofBytes key)).reverse (ofBytes b)
  rw [List.reverse_reverse] at this
  rw [Verif.Des.ofBytes_natToBE, this, Verif.Des.natToBE_ofBytes hb]

theorem encrypt_length (key b : Bytes) : (encrypt key b).length = 8 := natToBE_length _ _
theorem decrypt_length (key b : Bytes) : (decrypt key b).length = 8 := natToBE_length _ _

theorem decrypt3_encrypt3 (key : Bytes) {b : Bytes} (hb : b.length = 8) :
    decrypt3 key (encrypt3 key b) = b := by
  simp only [decrypt3, encrypt3]
  rw [decrypt_encrypt _ (decrypt_length _ _), encrypt_decrypt _ (encrypt_length _ _),
    decrypt_encrypt _ hb]

theorem encrypt3_decrypt3 (key : Bytes) {b : Bytes} (hb : b.length = 8) :
    encrypt3 key (decrypt3 key b) = b := by
  simp only [decrypt3, encrypt3]
  rw [encrypt_decrypt _ (encrypt_length _ _), decrypt_encrypt _ (decrypt_length _ _),
    encrypt_decrypt _ hb]

end Verif.Spec.Des
