import Verif.Proof.Blake3Wide
/-
BLAKE3: the stack of chaining values.
-/
namespace Verif
open Spec

/-- Number of bits set. -/
def pc (n : Nat) : Nat := if _h : n = 0 then 0 else n % 2 + pc (n / 2)
termination_by n
decreasing_by omega

theorem pc_zero : pc 0 = 0 := by rw [pc, dif_pos rfl]
theorem pc_step (n : Nat) : pc n = n % 2 + pc (n / 2) := by
  by_cases h : n = 0
  · subst h; simp [pc_zero]
  · rw [pc, dif_neg h]

theorem pc_add (e : Nat) : ∀ {n : Nat}, n < 2 ^ e → pc (2 ^ e + n) = 1 + pc n := by
  induction e with
  | zero =>
    intro n hn
    have : n = 0 := by omega
    subst this
    rw [pc_step]
  | succ e ih =>
    intro n hn
    rw [Nat.pow_succ] at *
    rw [pc_step, pc_step n, show (2 ^ e * 2 + n) / 2 = 2 ^ e + n / 2 by omega, ih (by omega)]
    omega

theorem pc_pow (e : Nat) : pc (2 ^ e) = 1 := by
  have := pc_add e (n := 0) (Nat.pow_pos (by decide))
  rwa [Nat.add_zero, pc_zero] at this

theorem pc_pos {n : Nat} (h : 0 < n) : 1 ≤ pc n := by
  induction n using Nat.strongRecOn with
  | _ n ih =>
    rw [pc_step]
    by_cases h1 : n / 2 = 0
    · omega
    · have := ih (n / 2) (by omega) (by omega); omega

theorem pc_filter (k : Nat) : ∀ {n : Nat}, n < 2 ^ k →
    ((List.range k).filter fun i => n.testBit i).length = pc n := by
  induction k with
  | zero => intro n h; have : n = 0 := by omega
            subst this; simp [pc_zero]
  | succ k ih =>
    intro n h
    rw [Nat.pow_succ] at h
    rw [List.range_succ_eq_map, pc_step, ← ih (n := n / 2) (by omega), List.filter_cons,
      List.filter_map, Function.comp_def]
    simp only [Nat.testBit_succ]
    rw [Nat.testBit_zero]
    rcases Nat.mod_two_eq_zero_or_one n with h2 | h2 <;> simp [h2]
    omega

theorem b3Popcnt_eq {n : Nat} (h : n < 2 ^ 64) : b3Popcnt (BitVec.ofNat 64 n) = pc n := by
  rw [← pc_filter 64 h]
  unfold b3Popcnt
  congr 1
  refine List.filter_congr fun i hi => ?_
  rw [List.mem_range] at hi
  rw [BitVec.getLsbD_ofNat]; simp [hi]

theorem pc_le {n k : Nat} (h : n < 2 ^ k) : pc n ≤ k := by
  rw [← pc_filter k h]
  exact Nat.le_trans (List.length_filter_le _ _) (by simp)

theorem leftLen_pow {e k : Nat} (h0 : 0 < k) (h1 : k ≤ 1024 * 2 ^ e) :
    B3.leftLen (1024 * 2 ^ e + k) = 1024 * 2 ^ e := by
  unfold B3.leftLen
  have hp : 0 < 2 ^ e := Nat.pow_pos (by decide)
  have : Nat.log2 ((1024 * 2 ^ e + k - 1) / 1024) = e := by
    rw [Nat.log2_eq_iff (by omega), Nat.pow_succ]
    omega
  rw [this]

theorem tree_join {key : List W32} {d : W32} {t e : Nat} {m1 m2 : Bytes}
    (h1 : m1.length = 1024 * 2 ^ e) (h0 : 0 < m2.length) (h2 : m2.length ≤ 1024 * 2 ^ e) :
    B3.tree key d t (m1 ++ m2) =
      B3.parentNode key d (B3.tree key d t m1).cv (B3.tree key d (t + 2 ^ e) m2).cv := by
  have hp : 0 < 2 ^ e := Nat.pow_pos (by decide)
  rw [tree_big (by rw [List.length_append]; omega), List.length_append, h1, leftLen_pow h0 h2,
    List.take_left' h1, List.drop_left' h1, Nat.mul_div_cancel_left _ (by decide)]

/-- The stack (bottom first) holds the chaining values of successive subtrees of the data `m`,
from chunk number `t`; each is a power of two of chunks, at least as large as all those above. -/
inductive Segs (key : List W32) (d : W32) : Nat → Bytes → List Bytes → Prop
  | nil (t : Nat) : Segs key d t [] []
  | cons (t e : Nat) (m1 m2 : Bytes) (cvs : List Bytes) (h1 : m1.length = 1024 * 2 ^ e)
      (h2 : m2.length ≤ 1024 * 2 ^ e) (h : Segs key d (t + 2 ^ e) m2 cvs) :
      Segs key d t (m1 ++ m2) (cvBytes (B3.tree key d t m1) :: cvs)

variable {key : List W32} {d : W32}

theorem Segs.cvs_len {t : Nat} {m : Bytes} {cvs : List Bytes} (h : Segs key d t m cvs) :
    ∀ c ∈ cvs, c.length = 32 := by
  induction h with
  | nil => simp
  | cons t e m1 m2 cvs h1 h2 h ih =>
    intro c hc
    rcases List.mem_cons.1 hc with hc | hc
    · rw [hc, cvBytes_length]
    · exact ih c hc

/-- The rest of the data is a whole number of chunks. -/
theorem segs_count {e n : Nat} {m1 m2 : Bytes} (h1 : m1.length = 1024 * 2 ^ e)
    (h : (m1 ++ m2).length = 1024 * n) : m2.length = 1024 * (n - 2 ^ e) ∧ n = 2 ^ e + (n - 2 ^ e) := by
  rw [List.length_append] at h; omega

theorem Segs.pc_le {t : Nat} {m : Bytes} {cvs : List Bytes} (h : Segs key d t m cvs) :
    ∀ {n : Nat}, m.length = 1024 * n → pc n ≤ cvs.length := by
  induction h with
  | nil => intro n h; have : n = 0 := by simp at h; omega
           subst this; rw [pc_zero]; exact Nat.zero_le _
  | cons t e m1 m2 cvs h1 h2 h ih =>
    intro n hn
    obtain ⟨hm2, hn2⟩ := segs_count h1 hn
    have := ih hm2
    rw [List.length_cons]
    by_cases hlt : n - 2 ^ e < 2 ^ e
    · rw [hn2, pc_add e hlt]; omega
    · have : n = 2 ^ (e + 1) := by rw [Nat.pow_succ]; omega
      rw [this, pc_pow]; omega

theorem Segs.nil_of {t : Nat} {m : Bytes} (h : Segs key d t m []) : m = [] := by
  cases h; rfl

theorem Segs.nonempty {t : Nat} {m : Bytes} {cvs : List Bytes} (h : Segs key d t m cvs)
    (hc : cvs ≠ []) : 0 < m.length := by
  cases h with
  | nil => exact absurd rfl hc
  | cons t e m1 m2 cvs h1 h2 h =>
    have hp : 0 < 2 ^ e := Nat.pow_pos (by decide)
    rw [List.length_append]; omega

/-- Merging the two topmost chaining values when the stack has more of them than bits set in the
number of chunks. -/
theorem Segs.merge {t : Nat} {m : Bytes} {cvs : List Bytes} (h : Segs key d t m cvs) :
    ∀ {n : Nat}, m.length = 1024 * n → pc n < cvs.length →
    ∃ pre x y, cvs = pre ++ [cvBytes x, cvBytes y] ∧
      Segs key d t m (pre ++ [cvBytes (B3.parentNode key d x.cv y.cv)]) := by
  induction h with
  | nil => intro n _ h; exact absurd h (by simp)
  | cons t e m1 m2 cvs h1 h2 h ih =>
    intro n hn hlt
    obtain ⟨hm2, hn2⟩ := segs_count h1 hn
    by_cases hr : pc (n - 2 ^ e) < cvs.length
    · obtain ⟨pre, x, y, hc, hs⟩ := ih hm2 hr
      refine ⟨cvBytes (B3.tree key d t m1) :: pre, x, y, by rw [hc]; rfl, ?_⟩
      exact Segs.cons t e m1 m2 _ h1 h2 hs
    · rw [List.length_cons] at hlt
      have hne : ¬ n - 2 ^ e < 2 ^ e := by
        intro hl
        rw [hn2, pc_add e hl] at hlt; omega
      have hp : 0 < 2 ^ e := Nat.pow_pos (by decide)
      have he : n - 2 ^ e = 2 ^ e := by omega
      rw [he, pc_pow] at hr
      cases h with
      | nil => simp at hm2; omega
      | cons _ e' m3 m4 cvs' h3 h4 h' =>
        rw [List.length_cons] at hr
        have : cvs' = [] := List.length_eq_zero_iff.1 (by omega)
        subst this
        have := h'.nil_of
        subst this
        rw [List.append_nil] at *
        refine ⟨[], _, _, rfl, ?_⟩
        rw [← tree_join h1 (by omega) h2, List.nil_append]
        have hl : (m1 ++ m3).length = 1024 * 2 ^ (e + 1) := by
          rw [List.length_append, Nat.pow_succ]; omega
        have hc := Segs.cons t (e + 1) (m1 ++ m3) [] [] hl (Nat.zero_le _)
          (Segs.nil (key := key) (d := d) _)
        rwa [List.append_nil] at hc

/-- Pushing the chaining value of a subtree whose size divides the number of chunks so far. -/
theorem Segs.push {t : Nat} {m : Bytes} {cvs : List Bytes} (h : Segs key d t m cvs) :
    ∀ {n s : Nat} {x : Bytes}, m.length = 1024 * n → cvs.length = pc n → 2 ^ s ∣ n →
      x.length = 1024 * 2 ^ s →
      Segs key d t (m ++ x) (cvs ++ [cvBytes (B3.tree key d (t + n) x)]) := by
  induction h with
  | nil t =>
    intro n s x hn _ _ hx
    have : n = 0 := by simp at hn; omega
    subst this
    have := Segs.cons t s x [] [] hx (by simp) (Segs.nil (key := key) (d := d) _)
    rwa [List.append_nil] at this
  | cons t e m1 m2 cvs h1 h2 h ih =>
    intro n s x hn hl hs hx
    obtain ⟨hm2, hn2⟩ := segs_count h1 hn
    have hp : 0 < 2 ^ e := Nat.pow_pos (by decide)
    have hle := h.pc_le hm2
    rw [List.length_cons] at hl
    have hlt : n - 2 ^ e < 2 ^ e := by
      refine Nat.lt_of_not_le fun hge => ?_
      have : n = 2 ^ (e + 1) := by rw [Nat.pow_succ]; omega
      rw [this, pc_pow] at hl
      have : cvs = [] := List.length_eq_zero_iff.1 (by omega)
      subst this
      have := h.nil_of
      subst this
      simp at hm2; omega
    rw [hn2, pc_add e hlt] at hl
    have hse : s ≤ e := by
      refine Nat.le_of_not_lt fun hgt => ?_
      have : 2 ^ (e + 1) ≤ 2 ^ s := Nat.pow_le_pow_right (by decide) hgt
      have := Nat.le_of_dvd (by omega) hs
      rw [Nat.pow_succ] at *
      omega
    have hd1 : 2 ^ s ∣ 2 ^ e := Nat.pow_dvd_pow 2 hse
    have hd2 : 2 ^ s ∣ n - 2 ^ e := Nat.dvd_sub hs hd1
    have hle2 : n - 2 ^ e + 2 ^ s ≤ 2 ^ e := by
      obtain ⟨a, ha⟩ := hd1
      obtain ⟨b, hb⟩ := hd2
      rw [hb, ha] at hlt ⊢
      have : b < a := Nat.lt_of_mul_lt_mul_left hlt
      calc 2 ^ s * b + 2 ^ s = 2 ^ s * (b + 1) := by rw [Nat.mul_succ]
        _ ≤ 2 ^ s * a := Nat.mul_le_mul_left _ this
    rw [List.append_assoc, List.cons_append]
    refine Segs.cons t e m1 (m2 ++ x) _ h1 (by rw [List.length_append]; omega) ?_
    have := ih hm2 (by omega) hd2 hx
    rwa [show t + 2 ^ e + (n - 2 ^ e) = t + n by omega] at this

/-- As `Segs`, with the data `x`, not empty, above. -/
inductive SegsTop (key : List W32) (d : W32) (x : Bytes) : Nat → Bytes → List Bytes → Prop
  | nil (t : Nat) : SegsTop key d x t [] []
  | cons (t e : Nat) (m1 m2 : Bytes) (cvs : List Bytes) (h1 : m1.length = 1024 * 2 ^ e)
      (h0 : 0 < (m2 ++ x).length) (h2 : (m2 ++ x).length ≤ 1024 * 2 ^ e)
      (h : SegsTop key d x (t + 2 ^ e) m2 cvs) :
      SegsTop key d x t (m1 ++ m2) (cvBytes (B3.tree key d t m1) :: cvs)

theorem Segs.top {t : Nat} {m : Bytes} {cvs : List Bytes} (h : Segs key d t m cvs) :
    ∀ {n : Nat} {r : Bytes}, m.length = 1024 * n → cvs.length = pc n → 0 < r.length →
      r.length ≤ 1024 → SegsTop key d r t m cvs := by
  induction h with
  | nil t => intros; exact SegsTop.nil t
  | cons t e m1 m2 cvs h1 h2 h ih =>
    intro n r hn hl h0 hr
    obtain ⟨hm2, hn2⟩ := segs_count h1 hn
    have hp : 0 < 2 ^ e := Nat.pow_pos (by decide)
    have hle := h.pc_le hm2
    rw [List.length_cons] at hl
    have hlt : n - 2 ^ e < 2 ^ e := by
      refine Nat.lt_of_not_le fun hge => ?_
      have : n = 2 ^ (e + 1) := by rw [Nat.pow_succ]; omega
      rw [this, pc_pow] at hl
      have : cvs = [] := List.length_eq_zero_iff.1 (by omega)
      subst this
      have := h.nil_of
      subst this
      simp at hm2; omega
    rw [hn2, pc_add e hlt] at hl
    refine SegsTop.cons t e m1 m2 cvs h1 ?_ ?_ (ih hm2 (by omega) h0 hr)
    · rw [List.length_append]; omega
    · rw [List.length_append]; omega

theorem Segs.top2 {t : Nat} {m : Bytes} {cvs : List Bytes} (h : Segs key d t m cvs) :
    ∀ {pre : List Bytes} {a b : Bytes}, cvs = pre ++ [a, b] →
    ∃ m0 x na nb n0, m = m0 ++ x ∧ m0.length = 1024 * n0 ∧ SegsTop key d x t m0 pre ∧
      a = cvBytes na ∧ b = cvBytes nb ∧ B3.tree key d (t + n0) x = B3.parentNode key d na.cv nb.cv ∧
      0 < x.length := by
  induction h with
  | nil t => intro pre a b h; exact absurd h (by simp)
  | cons t e m1 m2 cvs h1 h2 h ih =>
    intro pre a b hc
    cases pre with
    | nil =>
      rw [List.nil_append] at hc
      injection hc with hc1 hc2
      subst hc2
      cases h with
      | cons _ e' m3 m4 cvs' h3 h4 h' =>
        have := h'.nil_of
        subst this
        rw [List.append_nil] at *
        have hp : 0 < 2 ^ e' := Nat.pow_pos (by decide)
        refine ⟨[], m1 ++ m3, _, _, 0, rfl, rfl, SegsTop.nil t, hc1.symm, rfl, ?_, ?_⟩
        · rw [Nat.add_zero, tree_join h1 (by omega) h2]
        · rw [List.length_append]; omega
    | cons p pre =>
      rw [List.cons_append] at hc
      injection hc with hc1 hc2
      obtain ⟨m0, x, na, nb, n0, e1, e2, e3, e4, e5, e6, e7⟩ := ih hc2
      subst e1
      refine ⟨m1 ++ m0, x, na, nb, 2 ^ e + n0, by rw [List.append_assoc], ?_, ?_, e4, e5, ?_, e7⟩
      · rw [List.length_append, h1, e2]; omega
      · rw [← hc1]
        exact SegsTop.cons t e m1 m0 pre h1 (by rw [List.length_append]; omega) h2 e3
      · rw [← e6, Nat.add_assoc]

end Verif
