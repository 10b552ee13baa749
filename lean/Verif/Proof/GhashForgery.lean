import Verif.Proof.GfField
import Verif.Proof.RootCount
import Verif.Proof.GcmAuth
import Verif.Proof.Cmac
/-
GHASH: for two different pairs of header and ciphertext, few subkeys give hashes with a given
difference.
-/
namespace Verif

open Spec Spec.GCM

theorem block128_toNat {b : Bytes} (h : b.length = 16) : (block128 b).toNat = beNat b := by
  have := beNat_lt b
  rw [h] at this
  rw [block128, BitVec.toNat_ofNat, Nat.mod_eq_of_lt (by simpa using this)]

theorem block128_inj {a b : Bytes} (ha : a.length = 16) (hb : b.length = 16)
    (h : block128 a = block128 b) : a = b := by
  have := congrArg BitVec.toNat h
  rw [block128_toNat ha, block128_toNat hb] at this
  rw [← natToBE_beNat a, ← natToBE_beNat b, ha, hb, this]

theorem block128_xorb {a b : Bytes} (ha : a.length = 16) (hb : b.length = 16) :
    block128 (xorb a b) = block128 a ^^^ block128 b := by
  apply BitVec.eq_of_toNat_eq
  rw [BitVec.toNat_xor, block128_toNat (by simp [ha, hb]), block128_toNat ha, block128_toNat hb,
    beNat_xorb (by rw [ha, hb])]

theorem block128_unblock (x : BitVec 128) : block128 (unblock128 x) = x := by
  apply BitVec.eq_of_toNat_eq
  rw [unblock128, block128_toNat (natToBE_length _ _), beNat_natToBE, Nat.mod_eq_of_lt]
  have := x.isLt
  norm_num at this ⊢
  exact this

/-- The blocks of a string, as elements of the field. -/
def gfBlocks (X : Bytes) : List GF := (chunks 16 X).map fun b => ⟨block128 b⟩

theorem chunks_full {X : Bytes} (h : 16 ∣ X.length) : ∀ b ∈ chunks 16 X, b.length = 16 := by
  induction hn : X.length using Nat.strongRecOn generalizing X with
  | _ n ih =>
    by_cases hX : X = []
    · subst hX; simp [chunks_nil]
    · have hp : 0 < X.length := List.length_pos_iff.2 hX
      have : 16 ≤ X.length := Nat.le_of_dvd hp h
      rw [chunks_cons (by decide) hX]
      intro b hb
      rcases List.mem_cons.1 hb with rfl | hb
      · simp; omega
      · exact ih (X.drop 16).length (by simp; omega) (by simp; omega) rfl b hb

theorem ghash_eval (H : Bytes) (X : Bytes) (hX : 16 ∣ X.length) :
    (⟨block128 (ghash H X)⟩ : GF) = (coeffPoly (gfBlocks X).reverse).eval ⟨block128 H⟩ := by
  rw [coeffPoly_eval, gfBlocks, List.foldl_map, ghash]
  have hz : (⟨block128 (List.replicate 16 0)⟩ : GF) = 0 := GF.ext' (by decide)
  rw [← hz]
  have hl : (List.replicate 16 (0 : Byte)).length = 16 := rfl
  generalize List.replicate 16 (0 : Byte) = y at hl ⊢
  have hc := chunks_full hX
  generalize chunks 16 X = bs at hc ⊢
  induction bs generalizing y with
  | nil => rfl
  | cons b bs ih =>
    rw [List.foldl_cons, List.foldl_cons, ih _ (ghashMul_length _ _) (fun c h => hc c (by simp [h]))]
    refine congrArg (fun z => bs.foldl _ z) (GF.ext' ?_)
    rw [GF.bits_mul, GF.bits_add, ghashMul, block128_unblock, block128_xorb hl (hc b (by simp)),
      gfMul_comm]

theorem gfBlocks_inj {X Y : Bytes} (hX : 16 ∣ X.length) (hY : 16 ∣ Y.length)
    (h : gfBlocks X = gfBlocks Y) : X = Y := by
  unfold gfBlocks at h
  have : ∀ (a b : List Bytes), (∀ x ∈ a, x.length = 16) → (∀ x ∈ b, x.length = 16) →
      a.map (fun b => (⟨block128 b⟩ : GF)) = b.map (fun b => (⟨block128 b⟩ : GF)) → a = b := by
    intro a
    induction a with
    | nil => intro b _ _ h; cases b with
      | nil => rfl
      | cons y b => simp at h
    | cons x a ih => intro b ha hb h; cases b with
      | nil => simp at h
      | cons y b =>
        simp only [List.map_cons, List.cons.injEq, GF.mk.injEq] at h
        rw [block128_inj (ha x (by simp)) (hb y (by simp)) h.1,
          ih b (fun z hz => ha z (by simp [hz])) (fun z hz => hb z (by simp [hz])) h.2]
  rw [← chunks_flat X, this _ _ (chunks_full hX) (chunks_full hY) h, chunks_flat]

theorem getD_ne_of_length {R : Type*} {a b : List R} (d : R) (h : a ≠ b) (hl : a.length = b.length) :
    ∃ k, a.getD k d ≠ b.getD k d := by
  induction a generalizing b with
  | nil => cases b with
    | nil => exact absurd rfl h
    | cons y b => simp at hl
  | cons x a ih => cases b with
    | nil => simp at hl
    | cons y b =>
      by_cases hxy : x = y
      · subst hxy
        obtain ⟨k, hk⟩ := ih (b := b) (fun e => h (by rw [e])) (by simpa using hl)
        exact ⟨k + 1, by simpa using hk⟩
      · exact ⟨0, by simpa using hxy⟩

/-- What GHASH is applied to. -/
def gcmAuthData (A C : Bytes) : Bytes :=
  zeroPad16 A ++ zeroPad16 C ++ bitLength64 A ++ bitLength64 C

theorem zeroPad16_length (x : Bytes) : (zeroPad16 x).length = (x.length + 15) / 16 * 16 := by
  rw [zeroPad16, List.length_append, List.length_replicate]; omega

theorem gcmAuthData_length (A C : Bytes) :
    (gcmAuthData A C).length = ((A.length + 15) / 16 + (C.length + 15) / 16 + 1) * 16 := by
  simp only [gcmAuthData, List.length_append, zeroPad16_length, bitLength64, natToBE_length]
  omega

theorem zeroPad16_inj {x y : Bytes} (hl : x.length = y.length) (h : zeroPad16 x = zeroPad16 y) : x = y := by
  unfold zeroPad16 at h
  exact (List.append_inj h hl).1

theorem bitLength64_inj {x y : Bytes} (hx : 8 * x.length < 2 ^ 64) (hy : 8 * y.length < 2 ^ 64)
    (h : bitLength64 x = bitLength64 y) : x.length = y.length := by
  have := congrArg beNat h
  rw [bitLength64, bitLength64, beNat_natToBE, beNat_natToBE, Nat.mod_eq_of_lt (by norm_num at hx ⊢; omega),
    Nat.mod_eq_of_lt (by norm_num at hy ⊢; omega)] at this
  omega

theorem gfBlocks_authData (A C : Bytes) :
    gfBlocks (gcmAuthData A C) = gfBlocks (zeroPad16 A ++ zeroPad16 C)
      ++ [⟨block128 (bitLength64 A ++ bitLength64 C)⟩] := by
  rw [gcmAuthData, List.append_assoc, gfBlocks,
    chunks_append_dvd (by decide) (zeroPad16 A ++ zeroPad16 C) _ (by
      rw [List.length_append]; exact Nat.dvd_add (zeroPad16_dvd A) (zeroPad16_dvd C)),
    List.map_append,
    chunks_one (a := bitLength64 A ++ bitLength64 C) (by decide) (by simp [bitLength64])]
  rfl

/-- The two inputs of GHASH differ in a coefficient of the same degree. -/
theorem gcmAuthData_coeff {A C A' C' : Bytes} (hA : 8 * A.length < 2 ^ 64) (hC : 8 * C.length < 2 ^ 64)
    (hA' : 8 * A'.length < 2 ^ 64) (hC' : 8 * C'.length < 2 ^ 64) (h : (A, C) ≠ (A', C')) :
    ∃ k, (gfBlocks (gcmAuthData A C)).reverse.getD k 0
      ≠ (gfBlocks (gcmAuthData A' C')).reverse.getD k 0 := by
  by_cases hl : A.length = A'.length ∧ C.length = C'.length
  · apply getD_ne_of_length
    · intro e
      have e' := gfBlocks_inj (by rw [gcmAuthData_length]; exact Nat.dvd_mul_left _ _)
        (by rw [gcmAuthData_length]; exact Nat.dvd_mul_left _ _) (List.reverse_injective e)
      rw [gcmAuthData, gcmAuthData, List.append_assoc _ (bitLength64 A),
        List.append_assoc _ (bitLength64 A')] at e'
      have e1 := (List.append_inj e' (by
        simp only [List.length_append, zeroPad16_length, hl.1, hl.2])).1
      have e2 := List.append_inj e1 (by simp only [zeroPad16_length, hl.1])
      exact h (by rw [zeroPad16_inj hl.1 e2.1, zeroPad16_inj hl.2 e2.2])
    · rw [List.length_reverse, List.length_reverse, gfBlocks, gfBlocks, List.length_map,
        List.length_map, chunks_length (by decide), chunks_length (by decide),
        gcmAuthData_length, gcmAuthData_length, hl.1, hl.2]
  · refine ⟨0, ?_⟩
    rw [gfBlocks_authData, gfBlocks_authData, List.reverse_append, List.reverse_append]
    simp only [List.reverse_cons, List.reverse_nil, List.nil_append, List.singleton_append,
      List.getD_cons_zero, ne_eq, GF.mk.injEq]
    intro e
    have e1 := List.append_inj (block128_inj (by simp [bitLength64]) (by simp [bitLength64]) e)
      (by simp [bitLength64])
    exact hl ⟨bitLength64_inj hA hA' e1.1, bitLength64_inj hC hC' e1.2⟩

/-- At most `n` subkeys, `n` being the number of blocks, give hashes that differ by `d`. -/
theorem ghash_difference {A C A' C' : Bytes} (hA : 8 * A.length < 2 ^ 64) (hC : 8 * C.length < 2 ^ 64)
    (hA' : 8 * A'.length < 2 ^ 64) (hC' : 8 * C'.length < 2 ^ 64) (h : (A, C) ≠ (A', C'))
    (d : BitVec 128) :
    ∃ S : Finset (BitVec 128),
      S.card ≤ max ((A.length + 15) / 16 + (C.length + 15) / 16 + 1)
        ((A'.length + 15) / 16 + (C'.length + 15) / 16 + 1) ∧
      ∀ H, block128 (ghash H (gcmAuthData A C)) ^^^ block128 (ghash H (gcmAuthData A' C')) = d →
        block128 H ∈ S := by
  obtain ⟨k, hk⟩ := gcmAuthData_coeff hA hC hA' hC' h
  obtain ⟨S, h1, h2⟩ := coeffPoly_roots _ _ (⟨d⟩ : GF) k hk
  refine ⟨S.image GF.bits, Finset.card_image_le.trans (h1.trans (le_of_eq ?_)), ?_⟩
  · simp only [List.length_reverse, gfBlocks, List.length_map, chunks_length (by decide : 0 < 16),
      gcmAuthData_length]
    congr 1 <;> omega
  · intro H e
    refine Finset.mem_image.2 ⟨⟨block128 H⟩, h2 _ ?_, rfl⟩
    rw [← ghash_eval H _ (by rw [gcmAuthData_length]; exact Nat.dvd_mul_left _ _),
      ← ghash_eval H _ (by rw [gcmAuthData_length]; exact Nat.dvd_mul_left _ _), GF.sub_eq_add']
    exact GF.ext' e

theorem ghash_length (H X : Bytes) : (ghash H X).length = 16 := by
  unfold ghash
  have hl : (List.replicate 16 (0 : Byte)).length = 16 := rfl
  generalize List.replicate 16 (0 : Byte) = y at hl ⊢
  generalize chunks 16 X = bs
  induction bs generalizing y with
  | nil => exact hl
  | cons b bs ih => exact ih _ (ghashMul_length _ _)

/-- At most `n` subkeys make two given tags correct. -/
theorem gcm_tag_difference {A C A' C' t t' : Bytes} (hA : 8 * A.length < 2 ^ 64)
    (hC : 8 * C.length < 2 ^ 64) (hA' : 8 * A'.length < 2 ^ 64) (hC' : 8 * C'.length < 2 ^ 64)
    (h : (A, C, t) ≠ (A', C', t')) :
    ∃ S : Finset (BitVec 128),
      S.card ≤ max ((A.length + 15) / 16 + (C.length + 15) / 16 + 1)
        ((A'.length + 15) / 16 + (C'.length + 15) / 16 + 1) ∧
      ∀ E iv, (∀ x : Bytes, x.length = 16 → (E x).length = 16) →
        GCM.tag E iv A C = t → GCM.tag E iv A' C' = t' → block128 (subkey E) ∈ S := by
  by_cases hac : (A, C) = (A', C')
  · obtain ⟨rfl, rfl⟩ := Prod.mk.inj hac
    refine ⟨∅, by simp, fun E iv _ h1 h2 => absurd ?_ h⟩
    rw [← h1, ← h2]
  · obtain ⟨S, h1, h2⟩ := ghash_difference hA hC hA' hC' hac (block128 t ^^^ block128 t')
    refine ⟨S, h1, fun E iv hE e e' => h2 _ ?_⟩
    have hg : ∀ X : Bytes, (ghash (subkey E) X).length = 16 := by
      exact ghash_length _
    have key : ∀ {A C t : Bytes}, GCM.tag E iv A C = t → block128 t
        = block128 (ghash (subkey E) (gcmAuthData A C)) ^^^ block128 (E (J0 E iv)) := by
      intro A C t e
      rw [← e, GCM.tag, gctr, gctr, List.append_nil,
        block128_xorb (hg _) (hE _ (J0_length E iv))]
      rfl
    rw [key e, key e', xor4, BitVec.xor_self, BitVec.xor_zero]

end Verif
