import Verif.Proof.Paillier
/-
C59 (conversions of big integers) and C60 (`mod_power`, `mod_mult`).

`e.limb` is the number of bytes of the machine words that Zarith uses (8 on 64-bit platforms).
-/
namespace Verif

/-- C59: `of_bytes` reads its argument as a number in big-endian notation. -/
theorem C59_of_bytes (s : Bytes) : bnOfBytes s = (beNat s : Int) := bnOfBytes_eq s

/-- C59: `to_bytes` without size, then `of_bytes`, returns the (nonnegative) number. -/
theorem C59_to_bytes (e : BnEnv) (he : 0 < e.limb) (n : Nat) :
    ∃ s, bnToBytes e none n = .ok s ∧ bnOfBytes s = n ∧ e.limb ∣ s.length := by
  have h := bnToBytes_none (e := e) (n : Int)
  rw [Int.natAbs_natCast] at h
  have hv := bnToBytes_none_val he h
  rw [Int.natAbs_natCast] at hv
  exact ⟨_, h, by rw [bnOfBytes_eq, hv.1], by rw [hv.2]; exact limb_dvd e _⟩

/-- C59: whenever `to_bytes` with a size in bits returns a string, that string has exactly
`ceil(size/8)` bytes and is the number in big-endian notation. -/
theorem C59_to_bytes_size (e : BnEnv) (he : 0 < e.limb) (nb : Int) (n : Nat) (s : Bytes)
    (h : bnToBytes e (some nb) n = .ok s) :
    s.length = (nb.toNat + 7) / 8 ∧ bnOfBytes s = n ∧ s = natToBE ((nb.toNat + 7) / 8) n := by
  have hv := bnToBytes_val he h
  rw [Int.natAbs_natCast] at hv
  refine ⟨hv.2.1, by rw [bnOfBytes_eq, hv.1], ?_⟩
  rw [bnToBytes_some he, if_pos hv.2.2.1, if_pos hv.2.2.2, Int.natAbs_natCast] at h
  cases h
  rfl

/-- C59: `to_bytes` with a size in bits succeeds if the number fits in this size and the number of
bytes is a multiple of the size of machine words. What is missing: other numbers of bytes, for which
`to_bytes` succeeds only if the words of the number happen not to be more
(`C59_to_bytes_exact`, `C59_to_bytes_unaligned_fails`). -/
theorem C59_to_bytes_size_partial (e : BnEnv) (he : 0 < e.limb) (nb n : Nat) (hfit : n < 2 ^ nb)
    (hl : e.limb ∣ (nb + 7) / 8) :
    ∃ s, bnToBytes e (some nb) n = .ok s ∧ s.length = (nb + 7) / 8 ∧ bnOfBytes s = n := by
  have hb : zNumbits (n : Int) ≤ nb := zNumbits_le.2 (by rw [Int.natAbs_natCast]; exact hfit)
  have h : bnToBytes e (some nb) n = .ok (natToBE ((nb + 7) / 8) n) := by
    rw [bnToBytes_some he, if_pos (by exact_mod_cast hb), if_pos, Int.toNat_natCast, Int.natAbs_natCast]
    obtain ⟨k, hk⟩ := hl
    rw [Int.toNat_natCast, hk, limbBytes_le he, Int.natAbs_natCast, pow256]
    exact Nat.lt_of_lt_of_le hfit (Nat.pow_le_pow_right (by decide) (by omega))
  have hs := C59_to_bytes_size e he nb n _ h
  rw [Int.toNat_natCast] at hs
  exact ⟨_, h, hs.1, hs.2.1⟩

/-- Exactly when `to_bytes` with a size succeeds: the number fits, and the whole number of words
that hold it is not longer than the result. -/
theorem C59_to_bytes_exact (e : BnEnv) (he : 0 < e.limb) (nb n : Nat) :
    (∃ s, bnToBytes e (some nb) n = .ok s) ↔
      n < 2 ^ nb ∧ ∃ k, e.limb * k ≤ (nb + 7) / 8 ∧ n < 256 ^ (e.limb * k) := by
  constructor
  · rintro ⟨s, h⟩
    have hv := bnToBytes_val he h
    rw [Int.toNat_natCast] at hv
    refine ⟨?_, ?_⟩
    · have := (zNumbits_le (n := (n : Int)) (k := nb)).1 (by exact_mod_cast hv.2.2.1)
      rwa [Int.natAbs_natCast] at this
    · obtain ⟨k, hk⟩ := limb_dvd e (n : Int)
      refine ⟨k, by rw [← hk]; exact hv.2.2.2, ?_⟩
      have := natAbs_lt_limb he (n : Int)
      rwa [Int.natAbs_natCast, hk] at this
  · rintro ⟨h1, k, h2, h3⟩
    rw [bnToBytes_some he, if_pos, if_pos]
    · exact ⟨_, rfl⟩
    · rw [Int.toNat_natCast]
      exact Nat.le_trans ((limbBytes_le he).2 (by rwa [Int.natAbs_natCast])) h2
    · exact_mod_cast zNumbits_le.2 (by rwa [Int.natAbs_natCast])

/-- C59 fails when the number of bytes is not a number of words: 1 over 8 bits. -/
theorem C59_to_bytes_unaligned_fails :
    bnToBytes ⟨8, fun n => n⟩ (some 8) 1 = .error .invalidArg := by decide +kernel

/-- C60 for `mod_power`: positive exponent, odd modulus, of a length which is a multiple of the
size of machine words. What is missing: see `C60_mod_power_unaligned_fails`,
`C60_mod_power_zero_fails`, `C60_mod_power_even_fails`. -/
theorem C60_mod_power_partial (e : BnEnv) (he : 0 < e.limb) (a b c : Bytes)
    (hl : e.limb ∣ c.length) (hb : 0 < beNat b) (hc : beNat c % 2 = 1) :
    ∃ r, modPower e a b c = .ok r ∧ r.length = c.length ∧
      beNat r = beNat a ^ beNat b % beNat c := by
  have h := modPower_ok he (a := a) hl hb hc
  exact ⟨_, h.1, natToBE_length _ _, h.2⟩

/-- C60 for `mod_mult`: nonzero modulus, of a length which is a multiple of the size of machine
words. What is missing: other lengths (`C60_mod_mult_unaligned_fails`). -/
theorem C60_mod_mult_partial (e : BnEnv) (he : 0 < e.limb) (a b c : Bytes)
    (hl : e.limb ∣ c.length) (hc : 0 < beNat c) :
    ∃ r, modMult e a b c = .ok r ∧ r.length = c.length ∧
      beNat r = beNat a * beNat b % beNat c := by
  have h := modMult_ok he (a := a) (b := b) hl hc
  exact ⟨_, h.1, natToBE_length _ _, h.2⟩

/-- C60, all lengths: what `mod_power` returns, if it returns, is right. -/
theorem C60_mod_power_sound (e : BnEnv) (he : 0 < e.limb) (a b c r : Bytes)
    (h : modPower e a b c = .ok r) :
    r.length = c.length ∧ beNat r = beNat a ^ beNat b % beNat c := by
  have hb : 0 < beNat b ∧ beNat c % 2 = 1 := by
    unfold modPower bnModPower zPowmSec at h
    rw [bnOfBytes_eq, bnOfBytes_eq, bnOfBytes_eq] at h
    split at h
    · cases h
    · split at h
      · cases h
      · constructor <;> omega
  rw [modPower_of hb.1 hb.2] at h
  have := bnToBytes_val he h
  rw [Int.natAbs_natCast, Int.toNat_natCast] at this
  exact ⟨this.2.1.trans (by omega), this.1⟩

/-- C60, all lengths: what `mod_mult` returns, if it returns, is right. -/
theorem C60_mod_mult_sound (e : BnEnv) (he : 0 < e.limb) (a b c r : Bytes)
    (h : modMult e a b c = .ok r) :
    r.length = c.length ∧ beNat r = beNat a * beNat b % beNat c := by
  have hc : 0 < beNat c := by
    unfold modMult zRem at h
    rw [bnOfBytes_eq c] at h
    split at h
    · cases h
    · omega
  rw [modMult_of hc] at h
  have := bnToBytes_val he h
  rw [Int.natAbs_natCast, Int.toNat_natCast] at this
  exact ⟨this.2.1.trans (by omega), this.1⟩

/-- C60 fails for short moduli: 2 ^ 1 mod 3. -/
theorem C60_mod_power_unaligned_fails :
    modPower ⟨8, fun n => n⟩ [2] [1] [3] = .error .invalidArg := by decide +kernel

theorem C60_mod_mult_unaligned_fails :
    modMult ⟨8, fun n => n⟩ [2] [1] [3] = .error .invalidArg := by decide +kernel

/-- C60 fails for the exponent 0 and for even moduli. -/
theorem C60_mod_power_zero_fails (e : BnEnv) (a b c : Bytes) (h : beNat b = 0) :
    modPower e a b c = .error .invalidArg := by
  unfold modPower bnModPower zPowmSec
  rw [bnOfBytes_eq b, h]
  rfl

theorem C60_mod_power_even_fails (e : BnEnv) (a b c : Bytes) (h : beNat c % 2 = 0) :
    modPower e a b c = .error .invalidArg := by
  unfold modPower bnModPower zPowmSec
  rw [bnOfBytes_eq c]
  split
  · rfl
  · rw [if_pos (by omega)]
    rfl

namespace Example

/-- A modulus of 8 bytes. -/
example : ∃ r, modPower ⟨8, fun n => n⟩ [2] [1, 0] [0, 0, 0, 0, 0, 0, 1, 3] = .ok r ∧
    r.length = 8 ∧ beNat r = 2 ^ 256 % 259 :=
  C60_mod_power_partial _ (by decide) _ _ _ (by decide) (by decide) (by decide)

example : ∃ r, modMult ⟨8, fun n => n⟩ [200] [100] [0, 0, 0, 0, 0, 0, 1, 2] = .ok r ∧
    r.length = 8 ∧ beNat r = 20000 % 258 :=
  C60_mod_mult_partial _ (by decide) _ _ _ (by decide) (by decide)

example : ∃ s, bnToBytes ⟨8, fun n => n⟩ (some (64 : Nat)) (1000 : Nat) = .ok s ∧ s.length = 8 ∧
    bnOfBytes s = 1000 :=
  C59_to_bytes_size_partial _ (by decide) _ _ (by decide) (by decide)

end Example

end Verif
