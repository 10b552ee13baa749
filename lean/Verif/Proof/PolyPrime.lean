import Mathlib.NumberTheory.LucasPrimality
import Mathlib.Tactic.NormNum.Prime
/-
2^130 - 5 is prime: Pratt certificates.
-/
namespace Verif

/-- `b ^ e % m`, by repeated squaring; `fuel` bounds the number of bits of `e`. -/
def powMod : Nat → Nat → Nat → Nat → Nat
  | 0, _, _, m => 1 % m
  | fuel + 1, b, e, m =>
    let r := powMod fuel (b * b % m) (e / 2) m
    if e % 2 = 1 then b * r % m else r

theorem powMod_eq (fuel b e m : Nat) (h : e < 2 ^ fuel) : powMod fuel b e m = b ^ e % m := by
  induction fuel generalizing b e with
  | zero =>
    have : e = 0 := by simpa using h
    subst this; rfl
  | succ fuel ih =>
    have he : e / 2 < 2 ^ fuel := by
      rw [Nat.pow_succ] at h; omega
    have hp : (b * b % m) ^ (e / 2) % m = (b * b) ^ (e / 2) % m := by
      rw [Nat.pow_mod, Nat.mod_mod, ← Nat.pow_mod]
    simp only [powMod]
    rw [ih _ _ he, hp, ← Nat.pow_two, ← Nat.pow_mul]
    split
    · next h1 =>
      rw [Nat.mul_mod, Nat.mod_mod, ← Nat.mul_mod, ← Nat.pow_succ', show (2 * (e / 2)).succ = e by omega]
    · next h1 => rw [show 2 * (e / 2) = e by omega]

theorem zmod_pow_eq_one {m b e : Nat} (hm : 1 < m) (fuel : Nat) (h : e < 2 ^ fuel) :
    (b : ZMod m) ^ e = 1 ↔ powMod fuel b e m = 1 := by
  rw [powMod_eq _ _ _ _ h, ← Nat.cast_pow, ← Nat.cast_one, ZMod.natCast_eq_natCast_iff, Nat.ModEq,
    Nat.mod_eq_of_lt hm]

/-- Lucas' criterion with the prime factors of `p - 1` listed. -/
theorem prime_of_cert {p : Nat} (hp : 1 < p) (a : Nat) (qs : List Nat) (hq : ∀ q ∈ qs, q.Prime)
    (hprod : p - 1 = qs.prod) (fuel : Nat) (hfuel : p - 1 < 2 ^ fuel)
    (h1 : powMod fuel a (p - 1) p = 1) (h2 : ∀ q ∈ qs, powMod fuel a ((p - 1) / q) p ≠ 1) :
    p.Prime := by
  refine lucas_primality p (a : ZMod p) ((zmod_pow_eq_one hp fuel hfuel).2 h1) ?_
  intro q hqp hd he
  rw [hprod] at hd
  obtain ⟨r, hr, hdr⟩ := (Prime.dvd_prod_iff hqp.prime).1 hd
  have : q = r := (Nat.prime_dvd_prime_iff_eq hqp (hq r hr)).1 hdr
  subst this
  exact h2 q hr ((zmod_pow_eq_one hp fuel (Nat.lt_of_le_of_lt (Nat.div_le_self _ _) hfuel)).1 he)

theorem prime_a : Nat.Prime 4024685905107147541 :=
  prime_of_cert (by norm_num) 2 [2, 2, 3, 3, 5, 13, 43, 4889, 37003, 221101]
    (by simp only [List.mem_cons, List.not_mem_nil, or_false, forall_eq_or_imp, forall_eq]; norm_num)
    (by norm_num) 64 (by norm_num) (by decide +kernel) (by decide +kernel)

theorem prime_b : Nat.Prime 897064739519922787230182993783 :=
  prime_of_cert (by norm_num) 5 [2, 73, 487, 3134801, 4024685905107147541]
    (by
      simp only [List.mem_cons, List.not_mem_nil, or_false, forall_eq_or_imp, forall_eq]
      exact ⟨by norm_num, by norm_num, by norm_num, by norm_num, prime_a⟩)
    (by norm_num) 100 (by norm_num) (by decide +kernel) (by decide +kernel)

theorem prime_poly1305 : Nat.Prime (2 ^ 130 - 5) :=
  prime_of_cert (by norm_num) 2 [2, 23, 32985101, 897064739519922787230182993783]
    (by
      simp only [List.mem_cons, List.not_mem_nil, or_false, forall_eq_or_imp, forall_eq]
      exact ⟨by norm_num, by norm_num, by norm_num, prime_b⟩)
    (by norm_num) 131 (by norm_num) (by decide +kernel) (by decide +kernel)

end Verif
