import Mathlib.Data.Finset.Prod
import Verif.Proof.PolyForgery
import Verif.Proof.Poly1305
/-
Poly1305: counting one-time keys.
-/
namespace Verif

open Spec

/-- `2` to the number of zeroes among the `n` low bits of a mask. -/
def maskFree : Nat → Nat → Nat
  | 0, _ => 1
  | n + 1, m => maskFree n (m / 2) * if m % 2 = 1 then 1 else 2

theorem mask_fibre (n m r : Nat) :
    ((Finset.range (2 ^ n)).filter fun x => x &&& m = r).card ≤ maskFree n m := by
  induction n generalizing m r with
  | zero => exact (Finset.card_filter_le _ _).trans (by simp [maskFree])
  | succ n ih =>
    have hsub : ∀ x ∈ (Finset.range (2 ^ (n + 1))).filter fun x => x &&& m = r,
        (x / 2, x % 2) ∈ ((Finset.range (2 ^ n)).filter fun x => x &&& (m / 2) = r / 2)
          ×ˢ (if m % 2 = 1 then {r % 2} else Finset.range 2) := by
      intro x hx
      rw [Finset.mem_filter, Finset.mem_range] at hx
      rw [Finset.mem_product, Finset.mem_filter, Finset.mem_range]
      refine ⟨⟨?_, ?_⟩, ?_⟩
      · have := hx.1
        rw [Nat.pow_succ] at this
        show x / 2 < _
        omega
      · show x / 2 &&& m / 2 = r / 2
        rw [← hx.2, Nat.and_div_two]
      · show x % 2 ∈ _
        split
        · rename_i hm
          rw [Finset.mem_singleton, ← hx.2]
          have := @Nat.and_mod_two_pow x m 1
          rw [Nat.pow_one, hm] at this
          rw [this]
          rcases Nat.mod_two_eq_zero_or_one x with h | h <;> rw [h] <;> rfl
        · rw [Finset.mem_range]
          omega
    refine (Finset.card_le_card_of_injOn (fun x => (x / 2, x % 2)) hsub ?_).trans ?_
    · intro x _ y _ h
      have h' := Prod.mk.inj h
      omega
    · rw [Finset.card_product, maskFree]
      refine Nat.mul_le_mul (ih _ _) ?_
      split <;> simp

theorem polyClamp_fibre (r : Nat) :
    ((Finset.range (2 ^ 128)).filter fun x => polyClamp x = r).card ≤ 2 ^ 22 :=
  (mask_fibre 128 _ r).trans (by decide +kernel)

/-- The second half of the one-time key that gives tag `t`, as a function of the first half. -/
def polySecond (m t : Bytes) (r : Nat) : Nat :=
  (leNat t + (2 ^ 128 - polyAcc (polyClamp r) 0 (chunks 16 m) % 2 ^ 128)) % 2 ^ 128

theorem leNat_halves {key : Bytes} (h : key.length = 32) :
    leNat key = leNat (key.take 16) + 2 ^ 128 * leNat ((key.drop 16).take 16) := by
  conv => lhs; rw [← List.take_append_drop 16 key]
  rw [leNat_append, List.take_of_length_le (l := key.drop 16) (by simp [h]), List.length_take, h]
  norm_num

theorem leNat_half_lt (b : Bytes) : leNat (b.take 16) < 2 ^ 128 := by
  have h := leNat_bound (b.take 16)
  have : 256 ^ (b.take 16).length ≤ 256 ^ 16 := Nat.pow_le_pow_right (by decide) (by simp)
  rw [show 256 ^ 16 = 2 ^ 128 by norm_num] at this
  omega

theorem poly1305_iff {key : Bytes} (m t : Bytes) (ht : t.length = 16) :
    Poly1305 key m = t ↔ leNat ((key.drop 16).take 16) = polySecond m t (leNat (key.take 16)) := by
  have hs := leNat_half_lt (key.drop 16)
  have htl := leNat_bound t
  rw [ht, show 256 ^ 16 = 2 ^ 128 by norm_num] at htl
  rw [Poly1305, polySecond]
  generalize leNat ((key.drop 16).take 16) = s at hs ⊢
  generalize polyAcc (polyClamp (leNat (key.take 16))) 0 (chunks 16 m) = a
  constructor
  · intro h
    have := congrArg leNat h
    rw [leNat_natToLE, show 256 ^ 16 = 2 ^ 128 by norm_num] at this
    omega
  · intro h
    rw [← natToLE_leNat t, ht, ← natToLE_mod 16 (a + s), show 256 ^ 16 = 2 ^ 128 by norm_num]
    congr 1
    omega

/-- The one-time keys that make two tags correct, for two different messages. -/
theorem poly1305_keys (m m' t t' : Bytes) (ht : t.length = 16) (h : (m, t) ≠ (m', t')) :
    ∃ S : Finset Nat,
      S.card ≤ 2 ^ 25 * max ((m.length + 15) / 16) ((m'.length + 15) / 16) ∧
      ∀ key : Bytes, key.length = 32 → Poly1305 key m = t → Poly1305 key m' = t' →
        leNat key ∈ S := by
  obtain ⟨S, h1, h2⟩ := poly1305_difference m m' t t' h
  refine ⟨(S.biUnion fun r => (Finset.range (2 ^ 128)).filter fun x => polyClamp x = r).image
    fun x => x + 2 ^ 128 * polySecond m t x, ?_, ?_⟩
  · refine Finset.card_image_le.trans (Finset.card_biUnion_le.trans
      ((Finset.sum_le_card_nsmul _ _ (2 ^ 22) fun r _ => polyClamp_fibre r).trans ?_))
    rw [chunks_length (by decide), chunks_length (by decide)] at h1
    rw [smul_eq_mul]
    omega
  · intro key hk e e'
    rw [Finset.mem_image]
    refine ⟨leNat (key.take 16), ?_, ?_⟩
    · rw [Finset.mem_biUnion]
      exact ⟨_, h2 key e e', Finset.mem_filter.2
        ⟨Finset.mem_range.2 (leNat_half_lt key), rfl⟩⟩
    · rw [leNat_halves hk, (poly1305_iff m t ht).1 e]

/-- For every message and every tag, 2^128 of the 2^256 one-time keys give that tag. -/
theorem poly1305_count (m t : Bytes) (ht : t.length = 16) :
    ((Finset.range (2 ^ 256)).filter fun k => Poly1305 (natToLE 32 k) m = t).card = 2 ^ 128 := by
  have key : ∀ k, k < 2 ^ 256 → (Poly1305 (natToLE 32 k) m = t ↔
      k / 2 ^ 128 = polySecond m t (k % 2 ^ 128)) := by
    intro k hk
    have hh := leNat_halves (natToLE_length 32 k)
    rw [leNat_natToLE, Nat.mod_eq_of_lt (by norm_num at hk ⊢; exact hk)] at hh
    have h1 := leNat_half_lt (natToLE 32 k)
    rw [poly1305_iff m t ht]
    have e1 : leNat ((natToLE 32 k).take 16) = k % 2 ^ 128 := by omega
    have e2 : leNat (((natToLE 32 k).drop 16).take 16) = k / 2 ^ 128 := by omega
    rw [e1, e2]
  have hs : ∀ x, polySecond m t x < 2 ^ 128 := fun x => Nat.mod_lt _ (by norm_num)
  have h256 : (2 : Nat) ^ 256 = 2 ^ 128 * 2 ^ 128 := by norm_num
  conv => rhs; rw [← Finset.card_range (2 ^ 128)]
  refine Finset.card_nbij' (fun k => k % 2 ^ 128) (fun x => x + 2 ^ 128 * polySecond m t x) ?_ ?_ ?_ ?_
  · intro k _
    exact Finset.mem_coe.2 (Finset.mem_range.2 (Nat.mod_lt _ (by norm_num)))
  · intro x hx
    have hx := Finset.mem_range.1 (Finset.mem_coe.1 hx)
    have h := hs x
    have hlt : x + 2 ^ 128 * polySecond m t x < 2 ^ 256 := by
      rw [h256]
      generalize polySecond m t x = y at h ⊢
      omega
    refine Finset.mem_coe.2 (Finset.mem_filter.2 ⟨Finset.mem_range.2 hlt, (key _ hlt).2 ?_⟩)
    have e1 : (x + 2 ^ 128 * polySecond m t x) % 2 ^ 128 = x := by omega
    rw [e1]
    omega
  · intro k hk
    obtain ⟨h1, h2⟩ := Finset.mem_filter.1 (Finset.mem_coe.1 hk)
    have := (key k (Finset.mem_range.1 h1)).1 h2
    show k % 2 ^ 128 + 2 ^ 128 * polySecond m t (k % 2 ^ 128) = k
    rw [← this]
    omega
  · intro x hx
    have hx := Finset.mem_range.1 (Finset.mem_coe.1 hx)
    show (x + 2 ^ 128 * polySecond m t x) % 2 ^ 128 = x
    omega

end Verif
