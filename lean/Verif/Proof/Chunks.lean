import Verif.Spec.Common
/-
Lemmas about `chunks`.
-/
namespace Verif

theorem chunks_nil (n : Nat) : chunks n ([] : List α) = [] := by
  rw [chunks]; simp

theorem chunks_cons {n : Nat} {l : List α} (hn : 0 < n) (hl : l ≠ []) :
    chunks n l = l.take n :: chunks n (l.drop n) := by
  conv => lhs; rw [chunks]
  rw [dif_neg (by simp [hl]; omega)]

theorem chunks_flatten {n : Nat} (hn : 0 < n) (l : List α) : (chunks n l).flatten = l := by
  induction h : l.length using Nat.strongRecOn generalizing l with
  | _ m ih =>
    by_cases hl : l = []
    · subst hl; simp [chunks_nil]
    · have : 0 < l.length := List.length_pos_iff.2 hl
      rw [chunks_cons hn hl, List.flatten_cons, ih (l.drop n).length (by simp; omega) _ rfl,
        List.take_append_drop]

theorem chunks_append {n : Nat} (hn : 0 < n) {a l : List α} (ha : a.length = n) :
    chunks n (a ++ l) = a :: chunks n l := by
  have : a ++ l ≠ [] := by
    intro h
    have := congrArg List.length h
    rw [List.length_append, List.length_nil] at this; omega
  rw [chunks_cons hn this]
  subst ha
  simp

theorem chunks_of_flatten {n : Nat} (hn : 0 < n) (bs : List (List α))
    (h : ∀ b ∈ bs, b.length = n) : chunks n bs.flatten = bs := by
  induction bs with
  | nil => simp [chunks_nil]
  | cons b bs ih =>
    rw [List.flatten_cons, chunks_append hn (h b (by simp)), ih (fun b' hb => h b' (by simp [hb]))]

/-- All chunks are full when the length is a multiple. -/
theorem chunks_length_of_dvd {n : Nat} (hn : 0 < n) (l : List α) (hd : n ∣ l.length) :
    ∀ b ∈ chunks n l, b.length = n := by
  induction h : l.length using Nat.strongRecOn generalizing l with
  | _ m ih =>
    by_cases hl : l = []
    · subst hl; simp [chunks_nil]
    · have hpos : 0 < l.length := List.length_pos_iff.2 hl
      have hle : n ≤ l.length := Nat.le_of_dvd hpos hd
      rw [chunks_cons hn hl]
      intro b hb
      rcases List.mem_cons.1 hb with rfl | hb
      · simp; omega
      · refine ih (l.drop n).length (by simp; omega) (l.drop n) ?_ rfl b hb
        rw [List.length_drop]
        exact Nat.dvd_sub hd (Nat.dvd_refl n)

theorem chunks_length {n : Nat} (hn : 0 < n) (l : List α) :
    (chunks n l).length = (l.length + n - 1) / n := by
  induction h : l.length using Nat.strongRecOn generalizing l with
  | _ m ih =>
    by_cases hl : l = []
    · subst hl
      simp [chunks_nil] at h ⊢
      subst h
      symm
      exact Nat.div_eq_of_lt (by omega)
    · have hpos : 0 < l.length := List.length_pos_iff.2 hl
      rw [chunks_cons hn hl, List.length_cons, ih (l.drop n).length (by simp; omega) _ rfl]
      rw [List.length_drop]
      by_cases hle : n ≤ l.length
      · rw [show m + n - 1 = (l.length - n + n - 1) + n by omega, Nat.add_div_right _ hn]
      · rw [show l.length - n + n - 1 = n - 1 by omega, Nat.div_eq_of_lt (by omega)]
        have : m + n - 1 = n * 1 + (m - 1) := by omega
        rw [this, Nat.mul_add_div hn, Nat.div_eq_of_lt (by omega)]

theorem chunks_getElem? {n : Nat} (hn : 0 < n) (l : List α) (i : Nat) (hi : i * n < l.length) :
    (chunks n l)[i]? = some ((l.drop (i * n)).take n) := by
  induction i generalizing l with
  | zero =>
    have hl : l ≠ [] := by intro h; subst h; simp at hi
    rw [chunks_cons hn hl]; simp
  | succ i ih =>
    have hl : l ≠ [] := by intro h; subst h; simp at hi
    have h1 : (i + 1) * n = i * n + n := by rw [Nat.add_mul, Nat.one_mul]
    rw [chunks_cons hn hl, List.getElem?_cons_succ, ih _ (by simp; omega), List.drop_drop,
      h1, Nat.add_comm]

theorem flatten_length_of {n : Nat} (bs : List (List α)) (h : ∀ b ∈ bs, b.length = n) :
    bs.flatten.length = n * bs.length := by
  induction bs with
  | nil => rfl
  | cons b bs ih =>
    rw [List.flatten_cons, List.length_append, h b List.mem_cons_self,
      ih (fun b hb => h b (List.mem_cons_of_mem _ hb)), List.length_cons, Nat.mul_succ, Nat.add_comm]

end Verif
