import Verif.Proof.Rsa
import Mathlib.Data.Finset.Card
import Mathlib.Data.Finset.Image
import Mathlib.Data.Nat.Bitwise
/-
`Bn.random`: what number results from the bytes drawn, and how many strings of bytes give it.
-/
namespace Verif

/-- The number that `Bn.random` makes of the number `x` read from the random bytes. -/
def drawn (odd : Bool) (n x : Nat) : Nat :=
  2 ^ (n - 1) + (if odd then x - x % 2 + 1 else x) % 2 ^ (n - 1)

theorem changeByte_at (a : Bytes) (c : Byte) (d : Bytes) (f : Nat → Nat) (i : Int) (hi : i = a.length) :
    bnChangeByte (a ++ c :: d) i f = some (a ++ BitVec.ofNat 8 (f c.toNat) :: d) := by
  subst hi
  simp [bnChangeByte, bytesGet, bytesSet]

theorem or_one_lt (c : Byte) : c.toNat ||| 1 = c.toNat - c.toNat % 2 + 1 := by
  revert c
  decide +kernel

theorem leNat_odd (b : Bytes) (hb : b ≠ []) :
    ∃ b', bnChangeByte b 0 (fun x => x ||| 1) = some b' ∧ b'.length = b.length
      ∧ leNat b' = leNat b - leNat b % 2 + 1 := by
  obtain ⟨c, d, rfl⟩ := List.exists_cons_of_ne_nil hb
  refine ⟨_, changeByte_at [] c d _ 0 rfl, by simp, ?_⟩
  have hc := c.isLt
  simp only [List.nil_append, leNat, or_one_lt]
  rw [BitVec.toNat_ofNat, Nat.mod_eq_of_lt (by omega)]
  omega

theorem leNat_top (b : Bytes) (k : Nat) (hk : k < 8) (hb : b ≠ []) :
    ∃ b', bnChangeByte b ((b.length : Int) - 1) (fun x => (x &&& (1 <<< k - 1)) ||| 1 <<< k) = some b'
      ∧ leNat b' = 2 ^ (8 * (b.length - 1) + k) + leNat b % 2 ^ (8 * (b.length - 1) + k) := by
  obtain ⟨a, c, rfl⟩ : ∃ a c, b = a ++ [c] := ⟨_, _, (List.dropLast_append_getLast hb).symm⟩
  refine ⟨_, changeByte_at a c [] _ _ (by simp), ?_⟩
  have hc := c.isLt
  have hk2 : 2 ^ k ≤ 2 ^ 7 := Nat.pow_le_pow_right (by decide) (by omega)
  have e1 : (c.toNat &&& (1 <<< k - 1)) ||| 1 <<< k = 2 ^ k + c.toNat % 2 ^ k := by
    have := Nat.two_pow_add_eq_or_of_lt (Nat.mod_lt c.toNat (Nat.two_pow_pos k)) 1
    rw [Nat.mul_one] at this
    rw [Nat.one_shiftLeft, Nat.and_two_pow_sub_one_eq_mod, Nat.or_comm, this]
  have hm := Nat.mod_lt c.toNat (Nat.two_pow_pos k)
  have ha := leNat_lt a
  rw [e1, leNat_append, leNat_append]
  simp only [leNat, List.length_append, List.length_cons, List.length_nil, Nat.add_sub_cancel,
    Nat.zero_add]
  rw [BitVec.toNat_ofNat, Nat.mod_eq_of_lt (by omega), Nat.pow_add 2, Nat.pow_mul 2 8,
    show (2 : Nat) ^ 8 = 256 from rfl, Nat.mod_mul, Nat.add_mul_mod_self_left, Nat.mod_eq_of_lt ha,
    Nat.add_mul_div_left _ _ (Nat.pow_pos (by decide)), Nat.div_eq_of_lt ha]
  simp only [Nat.mul_zero, Nat.add_zero, Nat.zero_add]
  ring

theorem drawn_bounds (odd : Bool) {n : Nat} (hn : 1 ≤ n) (x : Nat) :
    2 ^ (n - 1) ≤ drawn odd n x ∧ drawn odd n x < 2 ^ n := by
  have := Nat.mod_lt (if odd then x - x % 2 + 1 else x) (Nat.two_pow_pos (n - 1))
  have e : 2 ^ n = 2 * 2 ^ (n - 1) := by rw [← Nat.pow_succ']; congr 1; omega
  unfold drawn
  omega

theorem drawn_odd {n : Nat} (hn : 1 ≤ n) (x : Nat) : drawn true n x % 2 = 1 := by
  unfold drawn
  simp only [if_true]
  rcases Nat.eq_or_lt_of_le hn with rfl | hn
  · simp [Nat.mod_one]
  · have e : 2 ^ (n - 1) = 2 * 2 ^ (n - 2) := by rw [← Nat.pow_succ']; congr 1; omega
    have h1 : (x - x % 2 + 1) % (2 * 2 ^ (n - 2)) % 2 = (x - x % 2 + 1) % 2 :=
      Nat.mod_mod_of_dvd _ (Nat.dvd_mul_right _ _)
    rw [e]
    omega

/-- `Bn.random` succeeds, and the result is `drawn` of the bytes given by the generator. -/
theorem bnRandom_eq {rng : RandomBytes σ} (odd : Bool) {n : Nat} (hn : 1 ≤ n) {s s' : σ} {b : Bytes}
    (hr : rng ((n + 7) / 8) s = .ok b s') (hb : b.length = (n + 7) / 8) :
    bnRandom rng odd n s = .ok (drawn odd n (leNat b) : Int) s' := by
  have h0 : b ≠ [] := by rintro rfl; simp at hb; omega
  have e1 : ((n : Int) + 7).tdiv 8 = (((n + 7) / 8 : Nat) : Int) := by
    rw [show ((n : Int) + 7) = ((n + 7 : Nat) : Int) by omega]; rfl
  obtain ⟨b1, hb1, hl1, hv1⟩ : ∃ b1, (if odd = true then bnChangeByte b 0 (fun b => b ||| 1) else some b)
      = some b1 ∧ b1.length = b.length ∧ leNat b1 = if odd then leNat b - leNat b % 2 + 1 else leNat b := by
    cases odd
    · exact ⟨b, rfl, rfl, rfl⟩
    · obtain ⟨b1, h1, h2, h3⟩ := leNat_odd b h0
      exact ⟨b1, h1, h2, h3⟩
  have e2 : (((n : Int) - 1) % 8).toNat = (n - 1) % 8 := by omega
  have h1 : b1 ≠ [] := by rintro rfl; simp at hl1; exact h0 (List.eq_nil_of_length_eq_zero hl1.symm)
  obtain ⟨b2, hb2, hv2⟩ := leNat_top b1 ((n - 1) % 8) (Nat.mod_lt _ (by decide)) h1
  rw [hl1, hb] at hb2 hv2
  rw [show 8 * ((n + 7) / 8 - 1) + (n - 1) % 8 = n - 1 by omega, hv1] at hv2
  have hd := drawn_bounds odd hn (leNat b)
  have hz : zOfBits b2 = (drawn odd n (leNat b) : Int) := by rw [zOfBits, hv2]; rfl
  have hnb : zNumbits (drawn odd n (leNat b) : Int) = n := by
    apply Nat.le_antisymm
    · rw [zNumbits_le]; simpa using hd.2
    · by_contra hlt
      have := (zNumbits_le (n := (drawn odd n (leNat b) : Int)) (k := n - 1)).1 (by omega)
      simp only [Int.natAbs_natCast] at this
      omega
  unfold bnRandom
  simp only [e1, e2]
  rw [if_neg (by omega), Int.toNat_natCast, M.bind_ok hr, hb1]
  have e3 : (M.orRaise Exn.invalidArg (some b1) : M σ Bytes) s' = .ok b1 s' := rfl
  rw [M.bind_ok e3, hb2]
  have e4 : (M.orRaise Exn.invalidArg (some b2) : M σ Bytes) s' = .ok b2 s' := rfl
  rw [M.bind_ok e4, hz, if_neg (by rw [hnb]; simp), if_neg]
  · rfl
  · rintro ⟨rfl, h2⟩
    have := drawn_odd hn (leNat b)
    omega

/-! ### Counting -/

theorem card_mod (M K r : Nat) (hr : r < M) :
    ((Finset.range (M * K)).filter fun x => x % M = r).card = K := by
  have : ((Finset.range (M * K)).filter fun x => x % M = r)
      = (Finset.range K).image fun i => r + M * i := by
    ext x
    simp only [Finset.mem_filter, Finset.mem_range, Finset.mem_image]
    constructor
    · rintro ⟨h1, h2⟩
      exact ⟨x / M, Nat.div_lt_of_lt_mul h1, by rw [← h2]; exact Nat.mod_add_div x M⟩
    · rintro ⟨i, hi, rfl⟩
      refine ⟨?_, by rw [Nat.add_mul_mod_self_left, Nat.mod_eq_of_lt hr]⟩
      calc r + M * i < M + M * i := by omega
        _ = M * (i + 1) := by ring
        _ ≤ M * K := Nat.mul_le_mul_left _ hi
  rw [this, Finset.card_image_of_injective, Finset.card_range]
  intro i j hij
  exact Nat.eq_of_mul_eq_mul_left (by omega) (Nat.add_left_cancel hij)

theorem card_drawn {n K v : Nat} (hv : 2 ^ (n - 1) ≤ v) (hv' : v < 2 * 2 ^ (n - 1)) :
    ((Finset.range (2 ^ (n - 1) * K)).filter fun x => drawn false n x = v).card = K := by
  have : (fun x => drawn false n x = v) = fun x => x % 2 ^ (n - 1) = v - 2 ^ (n - 1) := by
    funext x
    simp only [drawn, Bool.false_eq_true, if_false]
    exact propext ⟨fun h => by omega, fun h => by omega⟩
  simp only [this]
  exact card_mod _ _ _ (by omega)

theorem card_drawn_odd {n K v : Nat} (hn : 2 ≤ n) (hv : 2 ^ (n - 1) ≤ v) (hv' : v < 2 * 2 ^ (n - 1))
    (ho : v % 2 = 1) :
    ((Finset.range (2 ^ (n - 1) * K)).filter fun x => drawn true n x = v).card = 2 * K := by
  have e : 2 ^ (n - 1) = 2 * 2 ^ (n - 2) := by rw [← Nat.pow_succ']; congr 1; omega
  have : ((Finset.range (2 ^ (n - 1) * K)).filter fun x => drawn true n x = v)
      = ((Finset.range (2 ^ (n - 1) * K)).filter fun x => x % 2 ^ (n - 1) = v - 2 ^ (n - 1))
        ∪ ((Finset.range (2 ^ (n - 1) * K)).filter fun x => x % 2 ^ (n - 1) = v - 2 ^ (n - 1) - 1) := by
    ext x
    simp only [Finset.mem_filter, Finset.mem_union, ← and_or_left]
    refine and_congr_right fun _ => ?_
    simp only [drawn, if_true]
    generalize hM : 2 ^ (n - 1) = M at *
    have h1 := Nat.mod_lt x (show 0 < M by omega)
    have h2 : x % M % 2 = x % 2 := Nat.mod_mod_of_dvd _ ⟨_, e⟩
    have h3 : (x - x % 2 + 1) % M = x % M - x % 2 + 1 := by
      have hx := Nat.mod_add_div x M
      have : x - x % 2 + 1 = (x % M - x % 2 + 1) + M * (x / M) := by omega
      rw [this, Nat.add_mul_mod_self_left, Nat.mod_eq_of_lt]
      omega
    rw [h3]
    omega
  rw [this, Finset.card_union_of_disjoint, card_mod _ _ _ (by omega), card_mod _ _ _ (by omega)]
  · omega
  · rw [Finset.disjoint_left]
    intro x h1 h2
    simp only [Finset.mem_filter] at h1 h2
    omega

end Verif
