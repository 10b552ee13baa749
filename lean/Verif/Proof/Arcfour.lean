import Verif.Proof.Stream
/-
ARCfour generates the RC4 keystream.
-/
namespace Verif
open Spec

/-- The array `s` holds the permutation `S`. -/
def Arcfour.Holds (s : Bytes) (S : Byte → Byte) : Prop :=
  s.length = 256 ∧ ∀ i : Byte, s[i.toNat]? = some (S i)

theorem Arcfour.Holds.byteAt {s : Bytes} {S : Byte → Byte} (h : Holds s S) (i : Byte) :
    byteAt s i.toNat = S i := by
  simp [Verif.byteAt, List.getD_eq_getElem?_getD, h.2 i]

theorem Arcfour.Holds.swap {s : Bytes} {S : Byte → Byte} (h : Holds s S) (i j : Byte) :
    Holds ((s.set i.toNat (S j)).set j.toNat (S i)) (RC4.swap S i j) := by
  refine ⟨by simp [h.1], fun k => ?_⟩
  have hk := k.isLt; have hi := i.isLt; have hj := j.isLt
  have e : ∀ a b : Byte, a.toNat = b.toNat ↔ a = b := fun a b => BitVec.toNat_inj
  simp only [List.getElem?_set, List.length_set, h.1, hj, hi, if_true, RC4.swap, h.2, e]
  by_cases hjk : j = k
  · subst hjk
    by_cases hij : j = i
    · subst hij; simp
    · rw [if_neg hij]; simp
  · by_cases hik : i = k
    · subst hik; simp [hjk]
    · simp [hjk, hik, Ne.symm hjk, Ne.symm hik]

theorem arcfourMix_holds {key : Bytes} (hk : 0 < key.length) (hk' : key.length ≤ 256) (n : Nat) :
    ∀ (i : Nat) (index1 index2 : Byte) (s : Bytes), i + n = 256 → index1.toNat = i % key.length →
      Arcfour.Holds s (RC4.ksa key i).1 → index2 = (RC4.ksa key i).2 →
      Arcfour.Holds (arcfourMix key n i index1 index2 s) (RC4.ksa key 256).1 := by
  induction n with
  | zero =>
    intro i index1 index2 s hi _ hs _
    rw [show i = 256 by omega] at hs
    exact hs
  | succ n ih =>
    intro i index1 index2 s hi h1 hs h2
    have hin : (BitVec.ofNat 8 i : Byte).toNat = i := by rw [BitVec.toNat_ofNat]; omega
    have hsi : byteAt s i = (RC4.ksa key i).1 (BitVec.ofNat 8 i) := by
      rw [← hs.byteAt, hin]
    have hj : byteAt key index1.toNat + byteAt s i + index2 = (RC4.ksa key (i + 1)).2 := by
      rw [hsi, h1, h2]
      simp only [RC4.ksa, byteAt]
      ac_rfl
    rw [arcfourMix]
    apply ih (i + 1) _ _ _ (by omega)
    · have hlt : i % key.length < key.length := Nat.mod_lt _ hk
      have hadd : (index1 + 1).toNat = (i % key.length + 1) % 256 := by
        rw [BitVec.toNat_add, h1]; rfl
      have hnext : (i + 1) % key.length
          = if i % key.length + 1 = key.length then 0 else i % key.length + 1 := by
        rw [Nat.add_mod, ← Nat.mod_mod i]
        by_cases h1' : key.length = 1
        · rw [h1']; simp [Nat.mod_one]
        · rw [Nat.mod_mod, Nat.mod_eq_of_lt (show 1 < key.length by omega)]
          by_cases he : i % key.length + 1 = key.length
          · rw [if_pos he, he, Nat.mod_self]
          · rw [if_neg he, Nat.mod_eq_of_lt (by omega)]
      rw [hnext]
      by_cases h256 : i % key.length + 1 = 256
      · rw [if_neg (by rw [hadd, h256]; omega), hadd, h256, if_pos (by omega)]
      · rw [Nat.mod_eq_of_lt (by omega)] at hadd
        by_cases he : i % key.length + 1 = key.length
        · rw [if_pos (by omega), if_pos he]; rfl
        · rw [if_neg (by omega), if_neg he, hadd]
    · rw [hj]
      have hsw := hs.swap (BitVec.ofNat 8 i) (RC4.ksa key (i + 1)).2
      rw [hin] at hsw
      rw [swapAt, hsi, hs.byteAt]
      exact hsw
    · exact hj

theorem arcfourCookKey_holds {key : Bytes} (hk : 0 < key.length) (hk' : key.length ≤ 256) :
    Arcfour.Holds (arcfourCookKey key).state (RC4.ksa key 256).1 := by
  have h0 : Arcfour.Holds ((List.range 256).map (BitVec.ofNat 8)) (RC4.ksa key 0).1 := by
    refine ⟨by simp, fun i => ?_⟩
    rw [List.getElem?_map, List.getElem?_range i.isLt]
    simp [RC4.ksa]
  have := arcfourMix_holds hk hk' 256 0 0 0 _ (by omega) (by simp) h0 rfl
  simpa only [arcfourCookKey] using this

/-- The key state after `p` keystream bytes. -/
def Arcfour.At (key : Bytes) (k : Arcfour) (p : Nat) : Prop :=
  Holds k.state (RC4.prga key p).1 ∧ k.x = (RC4.prga key p).2.1 ∧ k.y = (RC4.prga key p).2.2

theorem arcfour_generates (key : Bytes) :
    Generates arcfourNext (Arcfour.At key) (RC4.keystream key) where
  step := by
    intro k p ⟨hs, hx, hy⟩
    have hx' : k.x + 1 = (RC4.prga key (p + 1)).2.1 := by rw [hx]; rfl
    have hkx := hs.2 (k.x + 1)
    have hy' : (RC4.prga key p).1 (k.x + 1) + k.y = (RC4.prga key (p + 1)).2.2 := by
      rw [hx, hy, BitVec.add_comm]; rfl
    have hky := hs.2 ((RC4.prga key p).1 (k.x + 1) + k.y)
    have hsw := hs.swap (k.x + 1) ((RC4.prga key p).1 (k.x + 1) + k.y)
    have hS : RC4.swap (RC4.prga key p).1 (k.x + 1) ((RC4.prga key p).1 (k.x + 1) + k.y)
        = (RC4.prga key (p + 1)).1 := by
      rw [hy', hx']; rfl
    have hout := hsw.2 ((RC4.prga key p).1 (k.x + 1)
      + (RC4.prga key p).1 ((RC4.prga key p).1 (k.x + 1) + k.y))
    refine ⟨⟨_, k.x + 1, (RC4.prga key p).1 (k.x + 1) + k.y⟩, ?_, ⟨by rw [← hS]; exact hsw, hx', hy'⟩⟩
    simp only [arcfourNext, hkx, hky, hout]
    congr 2
    rw [RC4.keystream]
    simp only
    rw [← hS, ← hx', ← hy']
    have hSi : RC4.swap (RC4.prga key p).1 (k.x + 1) ((RC4.prga key p).1 (k.x + 1) + k.y) (k.x + 1)
        = (RC4.prga key p).1 ((RC4.prga key p).1 (k.x + 1) + k.y) := by simp [RC4.swap]
    have hSj : RC4.swap (RC4.prga key p).1 (k.x + 1) ((RC4.prga key p).1 (k.x + 1) + k.y)
        ((RC4.prga key p).1 (k.x + 1) + k.y) = (RC4.prga key p).1 (k.x + 1) := by
      simp only [RC4.swap]
      split
      · rename_i h; rw [h]
      · simp
    rw [hSi, hSj]
    exact congrArg _ (BitVec.add_comm _ _)

theorem prga_zero (key : Bytes) : RC4.prga key 0 = ((RC4.ksa key 256).1, 0, 0) := by rw [RC4.prga]

theorem arcfourInit_at {key : Bytes} (hk : 0 < key.length) (hk' : key.length ≤ 256) :
    arcfourInit key = .ok (arcfourCookKey key) ∧ Arcfour.At key (arcfourCookKey key) 0 := by
  refine ⟨if_pos ⟨hk, hk'⟩, ?_⟩
  have h := arcfourCookKey_holds hk hk'
  have hx : (arcfourCookKey key).x = 0 ∧ (arcfourCookKey key).y = 0 := by
    unfold arcfourCookKey; exact ⟨rfl, rfl⟩
  unfold Arcfour.At
  rw [prga_zero]
  generalize RC4.ksa key 256 = K at h ⊢
  exact ⟨h, hx⟩

end Verif
