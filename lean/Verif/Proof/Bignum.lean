import Verif.Model.Bignum
import Verif.Proof.Words
import Verif.Proof.MD
/-
Conversions of big integers.
-/
namespace Verif

theorem bnOfBytes_eq (s : Bytes) : bnOfBytes s = (beNat s : Int) := by
  unfold bnOfBytes zOfBits
  rw [← leNat_reverse]
  congr 2
  apply List.ext_getElem
  · simp
  · intro i h1 h2
    simp only [List.length_map, List.length_range] at h1
    rw [List.getElem_map, List.getElem_range, List.getElem_reverse, List.getD_eq_getElem?_getD,
      List.getElem?_eq_getElem (by omega)]
    rfl

theorem zNumbits_le {n : Int} {k : Nat} : zNumbits n ≤ k ↔ n.natAbs < 2 ^ k := by
  unfold zNumbits
  split
  · next h => subst h; simp [Nat.pow_pos]
  · next h =>
    have h0 : n.natAbs ≠ 0 := by omega
    rw [Nat.succ_le_iff, Nat.log2_lt h0]

theorem zNumbits_mono {m n : Int} (h : m.natAbs ≤ n.natAbs) : zNumbits m ≤ zNumbits n :=
  zNumbits_le.2 (Nat.lt_of_le_of_lt h (zNumbits_le.1 (Nat.le_refl _)))

theorem zNumbits_pos {n : Int} {k : Nat} (h : zNumbits n = k + 1) : 2 ^ k ≤ n.natAbs := by
  refine Nat.le_of_not_lt fun hlt => ?_
  have := zNumbits_le.2 hlt
  omega

theorem bn_beNat (n x : Nat) : beNat (natToBE n x) = x % 256 ^ n := by
  rw [← natToLE_reverse, ← leNat_reverse, List.reverse_reverse, leNat_natToLE]

/-- The number of bytes of `Z.to_bits`. -/
def limbBytes (e : BnEnv) (n : Int) : Nat :=
  e.limb * ((zNumbits n + (8 * e.limb - 1)) / (8 * e.limb))

theorem limb_dvd (e : BnEnv) (n : Int) : e.limb ∣ limbBytes e n := Nat.dvd_mul_right _ _

theorem zToBits_length (e : BnEnv) (n : Int) : (zToBits e n).length = limbBytes e n := natToLE_length _ _

theorem limbBytes_mono {e : BnEnv} {m n : Int} (h : m.natAbs ≤ n.natAbs) :
    limbBytes e m ≤ limbBytes e n := by
  unfold limbBytes
  exact Nat.mul_le_mul_left _ (Nat.div_le_div_right (Nat.add_le_add_right (zNumbits_mono h) _))

theorem pow256 (k : Nat) : 256 ^ k = 2 ^ (8 * k) := by rw [Nat.pow_mul]

theorem ceil_le {a b k : Nat} (hb : 0 < b) : (a + (b - 1)) / b ≤ k ↔ a ≤ b * k := by
  rw [← Nat.lt_succ_iff, Nat.div_lt_iff_lt_mul hb, Nat.succ_mul, Nat.mul_comm k]
  omega

theorem limbBytes_le {e : BnEnv} (he : 0 < e.limb) {n : Int} {k : Nat} :
    limbBytes e n ≤ e.limb * k ↔ n.natAbs < 256 ^ (e.limb * k) := by
  unfold limbBytes
  rw [Nat.mul_le_mul_left_iff he, ceil_le (by omega), pow256, ← zNumbits_le, Nat.mul_assoc]

theorem natAbs_lt_limb {e : BnEnv} (he : 0 < e.limb) (n : Int) : n.natAbs < 256 ^ limbBytes e n :=
  (limbBytes_le he).1 (Nat.le_refl _)

theorem bits_le_limb {e : BnEnv} (he : 0 < e.limb) (n : Int) : zNumbits n ≤ 8 * limbBytes e n := by
  rw [zNumbits_le, ← pow256]; exact natAbs_lt_limb he n

/-- The loop of `to_bytes` fills the result from its end. -/
theorem bnToBytesLoop_eq (s : Bytes) : ∀ (i l : Nat) (done : Bytes), done.length = i → i + s.length ≤ l →
    bnToBytesLoop l i s (List.replicate (l - i) 0 ++ done) =
      .ok (List.replicate (l - i - s.length) 0 ++ s.reverse ++ done) := by
  induction s with
  | nil => intro i l done _ _; simp [bnToBytesLoop]
  | cons c s ih =>
    intro i l done hd hl
    rw [List.length_cons] at hl
    rw [bnToBytesLoop]
    have hset : bytesSet (List.replicate (l - i) 0 ++ done) ((l : Int) - 1 - i) c =
        some (List.replicate (l - (i + 1)) 0 ++ (c :: done)) := by
      unfold bytesSet
      rw [if_pos (by simp; omega)]
      congr 1
      rw [show l - i = (l - (i + 1)) + 1 by omega, List.replicate_succ', List.append_assoc,
        show ((l : Int) - 1 - i).toNat = (l - (i + 1)) by omega]
      rw [List.set_append_right _ _ (by simp)]
      simp
    rw [hset]
    simp only
    rw [ih (i + 1) l (c :: done) (by simp [hd]) (by omega), List.length_cons, List.reverse_cons]
    simp only [List.append_assoc, List.cons_append, List.nil_append]
    rw [show l - (i + 1) - s.length = l - i - (s.length + 1) by omega]

theorem bnToBytesLoop_long (s : Bytes) : ∀ (i l : Nat) (t : Bytes), t.length = l → i ≤ l →
    l < i + s.length → bnToBytesLoop l i s t = .error .invalidArg := by
  induction s with
  | nil => intro i l t _ h1 h2; simp at h2; omega
  | cons c s ih =>
    intro i l t ht h1 h2
    rw [bnToBytesLoop]
    by_cases h : i = l
    · have : bytesSet t ((l : Int) - 1 - i) c = none := by
        unfold bytesSet; rw [if_neg (by omega)]
      rw [this]
    · have : bytesSet t ((l : Int) - 1 - i) c = some (t.set ((l : Int) - 1 - i).toNat c) := by
        unfold bytesSet; rw [if_pos (by omega)]
      rw [this]
      simp only
      exact ih (i + 1) l _ (by simp [ht]) (by omega) (by rw [List.length_cons] at h2; omega)

theorem natToBE_pad {l k x : Nat} (hk : k ≤ l) (hx : x < 256 ^ k) :
    List.replicate (l - k) 0 ++ natToBE k x = natToBE l x := by
  obtain ⟨j, rfl⟩ := Nat.exists_eq_add_of_le hk
  rw [Nat.add_sub_cancel_left]
  clear hk
  induction j with
  | zero => simp
  | succ j ih =>
    rw [List.replicate_succ, List.cons_append, ih, ← Nat.add_assoc, natToBE,
      Nat.div_eq_of_lt (Nat.lt_of_lt_of_le hx (Nat.pow_le_pow_right (by decide) (by omega)))]
    rfl

/-- `to_bytes` with an explicit size. -/
theorem bnToBytes_some {e : BnEnv} (he : 0 < e.limb) (nb : Int) (n : Int) :
    bnToBytes e (some nb) n =
      if (zNumbits n : Int) ≤ nb then
        if limbBytes e n ≤ (nb.toNat + 7) / 8 then .ok (natToBE ((nb.toNat + 7) / 8) n.natAbs)
        else .error .invalidArg
      else .error .assertFailure := by
  unfold bnToBytes bnToBytesLength
  simp only
  by_cases h1 : (zNumbits n : Int) ≤ nb
  · rw [if_pos h1, if_pos h1]
    obtain ⟨k, rfl⟩ := Int.eq_ofNat_of_zero_le (a := nb) (by omega)
    simp only [Int.toNat_natCast]
    have hl : ((k : Int) + 7).tdiv 8 = (((k + 7) / 8 : Nat) : Int) := by
      rw [Int.tdiv_eq_ediv_of_nonneg (by omega)]; omega
    rw [hl, if_neg (by omega), Int.toNat_natCast]
    by_cases h2 : limbBytes e n ≤ (k + 7) / 8
    · rw [if_pos h2]
      have := bnToBytesLoop_eq (zToBits e n) 0 ((k + 7) / 8) [] rfl (by rw [zToBits_length]; omega)
      rw [Nat.sub_zero, List.append_nil, List.append_nil, zToBits_length] at this
      rw [this]
      unfold zToBits
      rw [natToLE_reverse]
      exact congrArg _ (natToBE_pad h2 (natAbs_lt_limb he n))
    · rw [if_neg h2]
      exact bnToBytesLoop_long _ 0 _ _ (by simp) (by omega) (by rw [zToBits_length]; omega)
  · rw [if_neg h1, if_neg h1]

/-- `to_bytes` without size. -/
theorem bnToBytes_none {e : BnEnv} (n : Int) :
    bnToBytes e none n = .ok (natToBE (limbBytes e n) n.natAbs) := by
  unfold bnToBytes bnToBytesLength
  simp only
  rw [if_neg (by omega), zToBits_length, Int.toNat_natCast]
  have := bnToBytesLoop_eq (zToBits e n) 0 (limbBytes e n) [] rfl (by rw [zToBits_length]; omega)
  rw [Nat.sub_zero, List.append_nil, List.append_nil, zToBits_length, Nat.sub_self,
    List.replicate_zero, List.nil_append] at this
  rw [this]
  unfold zToBits
  rw [natToLE_reverse]
  rfl

theorem bnToBytes_none_val {e : BnEnv} (he : 0 < e.limb) {n : Int} {b : Bytes}
    (h : bnToBytes e none n = .ok b) : beNat b = n.natAbs ∧ b.length = limbBytes e n := by
  rw [bnToBytes_none] at h
  cases h
  exact ⟨by rw [bn_beNat, Nat.mod_eq_of_lt (natAbs_lt_limb he n)], natToBE_length _ _⟩

/-- What a successful conversion says. -/
theorem bnToBytes_val {e : BnEnv} (he : 0 < e.limb) {nb n : Int} {b : Bytes}
    (h : bnToBytes e (some nb) n = .ok b) :
    beNat b = n.natAbs ∧ b.length = (nb.toNat + 7) / 8 ∧ (zNumbits n : Int) ≤ nb ∧
      limbBytes e n ≤ (nb.toNat + 7) / 8 := by
  rw [bnToBytes_some he] at h
  split at h
  · next h1 =>
    split at h
    · next h2 =>
      cases h
      refine ⟨?_, natToBE_length _ _, h1, h2⟩
      rw [bn_beNat, Nat.mod_eq_of_lt]
      exact Nat.lt_of_lt_of_le (natAbs_lt_limb he n) (Nat.pow_le_pow_right (by decide) h2)
    · cases h
  · cases h

/-- A number not larger than one that fits fits. -/
theorem bnToBytes_fits {e : BnEnv} (he : 0 < e.limb) {nb m n : Int} (hmn : m.natAbs ≤ n.natAbs)
    (h1 : (zNumbits n : Int) ≤ nb) (h2 : limbBytes e n ≤ (nb.toNat + 7) / 8) :
    bnToBytes e (some nb) m = .ok (natToBE ((nb.toNat + 7) / 8) m.natAbs) := by
  rw [bnToBytes_some he, if_pos, if_pos]
  · exact Nat.le_trans (limbBytes_mono hmn) h2
  · have := zNumbits_mono hmn
    omega

end Verif
