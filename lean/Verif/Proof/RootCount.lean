import Mathlib.Algebra.Polynomial.Roots
/-
The number of points at which two different polynomials, given by lists of coefficients as in
Poly1305 and GHASH, differ by a given constant.
-/
namespace Verif

open Polynomial

variable {R : Type*} [CommRing R]

/-- `c_0 X + c_1 X^2 + ...`. -/
noncomputable def coeffPoly : List R → R[X]
  | [] => 0
  | c :: cs => X * (coeffPoly cs + C c)

theorem coeffPoly_coeff (l : List R) (k : Nat) : (coeffPoly l).coeff (k + 1) = l.getD k 0 := by
  induction l generalizing k with
  | nil => simp [coeffPoly]
  | cons c l ih =>
    rw [coeffPoly, coeff_X_mul, coeff_add]
    cases k with
    | zero =>
      cases l with
      | nil => simp [coeffPoly]
      | cons d l => simp [coeffPoly]
    | succ k => rw [ih, coeff_C_succ]; simp

theorem coeffPoly_natDegree (l : List R) : (coeffPoly l).natDegree ≤ l.length := by
  rw [natDegree_le_iff_coeff_eq_zero]
  intro n hn
  obtain ⟨k, rfl⟩ : ∃ k, n = k + 1 := ⟨n - 1, by omega⟩
  rw [coeffPoly_coeff, List.getD, List.getElem?_eq_none (by omega)]
  rfl

/-- The value at `r`, as the algorithms compute it. -/
theorem coeffPoly_eval (l : List R) (r : R) :
    (coeffPoly l.reverse).eval r = l.foldl (fun a c => r * (a + c)) 0 := by
  suffices h : ∀ (l : List R), (coeffPoly l).eval r = l.foldr (fun c a => r * (a + c)) 0 by
    rw [h, List.foldr_reverse]
  intro l
  induction l with
  | nil => simp [coeffPoly]
  | cons c l ih => simp [coeffPoly, ih]

variable [IsDomain R]

/-- The points at which the two polynomials differ by `e`. -/
theorem coeffPoly_roots [DecidableEq R] (a b : List R) (e : R) (k : Nat)
    (hk : a.getD k 0 ≠ b.getD k 0) :
    ∃ S : Finset R, S.card ≤ max a.length b.length ∧
      ∀ r, (coeffPoly a).eval r - (coeffPoly b).eval r = e → r ∈ S := by
  have hne : coeffPoly a - coeffPoly b - C e ≠ 0 := by
    intro h
    have := congrArg (fun p => p.coeff (k + 1)) h
    simp only [coeff_sub, coeffPoly_coeff, coeff_C_succ, coeff_zero, sub_zero] at this
    exact hk (sub_eq_zero.1 this)
  refine ⟨(coeffPoly a - coeffPoly b - C e).roots.toFinset, ?_, ?_⟩
  · refine (Multiset.toFinset_card_le _).trans ((card_roots' _).trans ?_)
    refine (natDegree_sub_le _ _).trans (max_le ((natDegree_sub_le _ _).trans ?_) (by simp))
    exact max_le_max (coeffPoly_natDegree a) (coeffPoly_natDegree b)
  · intro r hr
    rw [Multiset.mem_toFinset, mem_roots hne, IsRoot, eval_sub, eval_sub, eval_C, hr, sub_self]

omit [IsDomain R] in
/-- Lists without zeroes differ at some point of their prolongation by zeroes. -/
theorem getD_ne_of_ne {a b : List R} (h : a ≠ b) (ha : ∀ x ∈ a, x ≠ 0) (hb : ∀ x ∈ b, x ≠ 0) :
    ∃ k, a.getD k 0 ≠ b.getD k 0 := by
  induction a generalizing b with
  | nil =>
    cases b with
    | nil => exact absurd rfl h
    | cons y b => exact ⟨0, by simpa using (hb y (by simp)).symm⟩
  | cons x a ih =>
    cases b with
    | nil => exact ⟨0, by simpa using ha x (by simp)⟩
    | cons y b =>
      by_cases hxy : x = y
      · subst hxy
        obtain ⟨k, hk⟩ := ih (b := b) (fun e => h (by rw [e])) (fun z hz => ha z (by simp [hz]))
          (fun z hz => hb z (by simp [hz]))
        exact ⟨k + 1, by simpa using hk⟩
      · exact ⟨0, by simpa using hxy⟩

end Verif
