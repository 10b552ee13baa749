import Verif.Proof.GhashForgery
import Verif.Props.C34_Gcm
import Verif.Props.C35_ChaPoly
import Verif.Props.C18_C21_Stream
import Verif.Props.C07_C11_Modes
/-
C89: messages encrypted under the same key with different IVs are protected by different keystream
blocks.
-/
namespace Verif
open Spec

/-! ### AES-GCM with 12-byte IVs -/

section Gcm
open Spec.GCM
variable {κ κ' : Type} {aes : BlockCipher κ} {aes' : BlockCipher κ'} {k : κ} {k' : κ'}
  {E E' : Bytes → Bytes}

theorem inc32_take {x : Bytes} (h : 12 ≤ x.length) : (inc32 x).take 12 = x.take 12 := by
  rw [inc32, List.take_append_of_le_length (by simp; omega), List.take_of_length_le (by simp)]

theorem gctr_congr {iv : Bytes} (hE : ∀ x : Bytes, x.length = 16 → x.take 12 = iv → E x = E' x)
    (cb : Bytes) (h1 : cb.length = 16) (h2 : cb.take 12 = iv) (xs : List Bytes) :
    gctr E cb xs = gctr E' cb xs := by
  induction xs generalizing cb with
  | nil => rfl
  | cons x xs ih =>
    rw [gctr, gctr, hE cb h1 h2,
      ih (inc32 cb) (inc32_length h1) (by rw [inc32_take (by omega), h2])]

/-- C89 for AES-GCM with a 12-byte IV: the results depend on the values of the block cipher on the
null block and on the blocks that begin with the IV, only. Thus two messages with different IVs have
no block of the cipher in common but the null one (which gives the hash subkey), and C38 says that
the blocks of one message are pairwise different. -/
theorem C89_gcm (env : Env) (pclmul : Bool) (h : PureCipher aes k E) (h' : PureCipher aes' k' E')
    (hb : aes.blocksize = 16) (hb' : aes'.blocksize = 16) (header iv : Bytes) (hiv : iv.length = 12)
    (agree : ∀ x : Bytes, x = List.replicate 16 0 ∨ x.length = 16 ∧ x.take 12 = iv → E x = E' x)
    (dir : Dir) (ops : List TOp) (hops : ∀ op ∈ ops, op.Legal)
    (hm : 256 ≤ env.maxLen) (hfit : (inputOf ops).length ≤ env.maxLen) :
    ∃ t t', aesGcmInit env pclmul aes k header iv = .ok t k
      ∧ aesGcmInit env pclmul aes' k' header iv = .ok t' k'
      ∧ ((aesGcm env aes dir).total ops t).observe = ((aesGcm env aes' dir).total ops t').observe := by
  have hJ : J0 E iv = iv ++ [0, 0, 0, 1] := by rw [J0, if_pos hiv]
  have hJ' : J0 E' iv = iv ++ [0, 0, 0, 1] := by rw [J0, if_pos hiv]
  have hl : (iv ++ [0, 0, 0, 1] : Bytes).length = 16 := by simp [hiv]
  have ht : (iv ++ [0, 0, 0, 1] : Bytes).take 12 = iv := by
    rw [List.take_append_of_le_length (by omega), List.take_of_length_le (by omega)]
  have hE : ∀ x : Bytes, x.length = 16 → x.take 12 = iv → E x = E' x :=
    fun x h1 h2 => agree x (.inr ⟨h1, h2⟩)
  have hs : subkey E = subkey E' := agree _ (.inl rfl)
  have hc : ∀ m, crypt E iv m = crypt E' iv m := by
    intro m
    rw [crypt, crypt, hJ, hJ']
    exact gctr_congr hE _ (inc32_length hl) (by rw [inc32_take (by omega), ht]) _
  have hg : ∀ A C, tag E iv A C = tag E' iv A C := by
    intro A C
    rw [tag, tag, hJ, hJ', hs]
    exact gctr_congr hE _ hl ht _
  cases dir with
  | encrypt =>
    obtain ⟨t, e1, e2⟩ := C34_gcm_encrypt env pclmul h hb header iv ops hops hm hfit
    obtain ⟨t', e1', e2'⟩ := C34_gcm_encrypt env pclmul h' hb' header iv ops hops hm hfit
    exact ⟨t, t', e1, e1', by rw [e2, e2', hc, hg]⟩
  | decrypt =>
    obtain ⟨t, e1, e2⟩ := C34_gcm_decrypt env pclmul h hb header iv ops hops hm hfit
    obtain ⟨t', e1', e2'⟩ := C34_gcm_decrypt env pclmul h' hb' header iv ops hops hm hfit
    exact ⟨t, t', e1, e1', by rw [e2, e2', hc, hg]⟩

/-! ### AES-GCM with IVs of any length -/

/-- The keystreams of two IVs, or the blocks that mask their tags, have a block of the cipher in
common (C38: block `i` of a message uses `inc32^[i + 1] J0`, the tag uses `J0`). -/
def Spec.Overlap (E : Bytes → Bytes) (iv iv' : Bytes) : Prop :=
  ∃ i j, inc32^[i] (J0 E iv) = inc32^[j] (J0 E iv')

theorem inc32_iterate_take (x : Bytes) (h : x.length = 16) (i : Nat) :
    (inc32^[i] x).take 12 = x.take 12 ∧ (inc32^[i] x).length = 16 := by
  induction i generalizing x with
  | zero => exact ⟨rfl, h⟩
  | succ i ih =>
    rw [Function.iterate_succ_apply]
    obtain ⟨h1, h2⟩ := ih (inc32 x) (inc32_length h)
    exact ⟨by rw [h1, inc32_take (by omega)], h2⟩

theorem xor_of_take {x y : Bytes} (hx : x.length = 16) (hy : y.length = 16)
    (h : x.take 12 = y.take 12) : ∃ d < 2 ^ 32, block128 x ^^^ block128 y = BitVec.ofNat 128 d := by
  refine ⟨(block128 x ^^^ block128 y).toNat, ?_, by simp⟩
  rw [BitVec.toNat_xor, block128_toNat hx, block128_toNat hy]
  have e1 : beNat x = beNat (x.take 12) * 2 ^ 32 + beNat (x.drop 12) := by
    conv_lhs => rw [← List.take_append_drop 12 x, beNat_append]
    simp [hx]
  have e2 : beNat y = beNat (y.take 12) * 2 ^ 32 + beNat (y.drop 12) := by
    conv_lhs => rw [← List.take_append_drop 12 y, beNat_append]
    simp [hy]
  have b1 : beNat (x.drop 12) < 2 ^ 32 := by
    have := beNat_lt (x.drop 12); rw [List.length_drop, hx] at this; exact this
  have b2 : beNat (y.drop 12) < 2 ^ 32 := by
    have := beNat_lt (y.drop 12); rw [List.length_drop, hy] at this; exact this
  have e3 : (beNat x ^^^ beNat y) >>> 32 = 0 := by
    rw [Nat.shiftRight_xor_distrib, Nat.shiftRight_eq_div_pow, Nat.shiftRight_eq_div_pow]
    have : beNat x / 2 ^ 32 = beNat y / 2 ^ 32 := by rw [e1, e2, h]; omega
    rw [this, Nat.xor_self]
  rw [Nat.shiftRight_eq_div_pow] at e3
  exact (Nat.div_eq_zero_iff.1 e3).resolve_left (by decide)

theorem J0_authData {iv : Bytes} (h : iv.length ≠ 12) :
    J0 E iv = ghash (subkey E) (gcmAuthData [] iv) := by
  rw [J0, if_neg h, gcmAuthData]
  rfl

/-- The subkeys that give a pre-counter block at a given distance of a constant. -/
theorem ghash_constant {iv : Bytes} (h0 : iv ≠ []) (hl : 8 * iv.length < 2 ^ 64) (d : BitVec 128) :
    ∃ S : Finset (BitVec 128), S.card ≤ (iv.length + 15) / 16 + 1 ∧
      ∀ H, block128 (ghash H (gcmAuthData [] iv)) = d → block128 H ∈ S := by
  have hk : (gfBlocks (gcmAuthData [] iv)).reverse.getD 0 0 ≠ ([] : List GF).getD 0 0 := by
    rw [gfBlocks_authData, List.reverse_append]
    simp only [List.reverse_cons, List.reverse_nil, List.nil_append, List.singleton_append,
      List.getD_cons_zero, List.getD_nil, ne_eq]
    intro e
    have e1 := congrArg GF.bits e
    simp only [GF.bits_zero] at e1
    have e2 := congrArg BitVec.toNat e1
    rw [block128_toNat (by simp [bitLength64]), beNat_append, bitLength64, bitLength64,
      beNat_natToBE, beNat_natToBE] at e2
    have : 0 < iv.length := List.length_pos_iff.2 h0
    rw [Nat.mod_eq_of_lt (a := 8 * iv.length) (by norm_num at hl ⊢; omega)] at e2
    simp at e2
    exact h0 e2
  obtain ⟨S, h1, h2⟩ := coeffPoly_roots _ [] (⟨d⟩ : GF) 0 hk
  refine ⟨S.image GF.bits, Finset.card_image_le.trans (h1.trans (le_of_eq ?_)), ?_⟩
  · simp only [List.length_reverse, gfBlocks, List.length_map, chunks_length (by decide : 0 < 16),
      gcmAuthData_length, List.length_nil]
    omega
  · intro H e
    refine Finset.mem_image.2 ⟨⟨block128 H⟩, h2 _ ?_, rfl⟩
    rw [← ghash_eval H _ (by rw [gcmAuthData_length]; exact Nat.dvd_mul_left _ _)]
    simp only [coeffPoly, Polynomial.eval_zero, sub_zero]
    exact GF.ext' e

theorem J0_difference {iv iv' : Bytes} (h0 : iv ≠ []) (h0' : iv' ≠ []) (hl : 8 * iv.length < 2 ^ 64)
    (hl' : 8 * iv'.length < 2 ^ 64) (hne : iv ≠ iv') (h12 : ¬ (iv.length = 12 ∧ iv'.length = 12))
    (d : BitVec 128) :
    ∃ S : Finset (BitVec 128),
      S.card ≤ max ((iv.length + 15) / 16 + 1) ((iv'.length + 15) / 16 + 1) ∧
      ∀ E, block128 (J0 E iv) ^^^ block128 (J0 E iv') = d → block128 (subkey E) ∈ S := by
  by_cases a : iv.length = 12
  · have b : iv'.length ≠ 12 := fun b => h12 ⟨a, b⟩
    obtain ⟨S, h1, h2⟩ := ghash_constant h0' hl' (block128 (iv ++ [0, 0, 0, 1]) ^^^ d)
    refine ⟨S, h1.trans (Nat.le_max_right _ _), fun E e => h2 _ ?_⟩
    rw [J0_authData b, J0, if_pos a] at e
    rw [← e, ← BitVec.xor_assoc, BitVec.xor_self, BitVec.zero_xor]
  · by_cases b : iv'.length = 12
    · obtain ⟨S, h1, h2⟩ := ghash_constant h0 hl (block128 (iv' ++ [0, 0, 0, 1]) ^^^ d)
      refine ⟨S, h1.trans (Nat.le_max_left _ _), fun E e => h2 _ ?_⟩
      rw [J0_authData a, J0, if_pos b] at e
      rw [← e, BitVec.xor_comm, BitVec.xor_assoc, BitVec.xor_self, BitVec.xor_zero]
    · obtain ⟨S, h1, h2⟩ := ghash_difference (A := []) (A' := []) (by simp) hl (by simp) hl'
        (by simpa using hne) d
      refine ⟨S, by simpa using h1, fun E e => h2 _ ?_⟩
      rw [J0_authData a, J0_authData b] at e
      exact e

/-- C89 for AES-GCM with non-empty IVs of any lengths: two different IVs have a counter block in
common for at most 2^32 n values of the hash subkey, of the 2^128 possible ones, `n - 1` being the
number of 16-byte blocks of the longer IV. -/
theorem C89_gcm_any_iv {iv iv' : Bytes} (h0 : iv ≠ []) (h0' : iv' ≠ []) (hl : 8 * iv.length < 2 ^ 64)
    (hl' : 8 * iv'.length < 2 ^ 64) (hne : iv ≠ iv') :
    ∃ S : Finset (BitVec 128),
      S.card ≤ 2 ^ 32 * max ((iv.length + 15) / 16 + 1) ((iv'.length + 15) / 16 + 1) ∧
      ∀ E, Overlap E iv iv' → block128 (subkey E) ∈ S := by
  have top : ∀ E, Overlap E iv iv' → (J0 E iv).take 12 = (J0 E iv').take 12 := by
    rintro E ⟨i, j, e⟩
    rw [← (inc32_iterate_take _ (J0_length E iv) i).1, e, (inc32_iterate_take _ (J0_length E iv') j).1]
  by_cases h12 : iv.length = 12 ∧ iv'.length = 12
  · refine ⟨∅, by simp, fun E e => absurd ?_ hne⟩
    have := top E e
    rw [J0, if_pos h12.1, J0, if_pos h12.2, List.take_append_of_le_length (by omega),
      List.take_append_of_le_length (by omega), List.take_of_length_le (by omega),
      List.take_of_length_le (by omega)] at this
    exact this
  · obtain ⟨N, hN⟩ : ∃ N, N = 2 ^ 32 := ⟨_, rfl⟩
    rw [← hN]
    choose S h1 h2 using fun d : BitVec 128 => J0_difference h0 h0' hl hl' hne h12 d
    refine ⟨(Finset.range N).biUnion fun d => S (BitVec.ofNat 128 d), ?_, fun E e => ?_⟩
    · have := Finset.card_biUnion_le_card_mul (Finset.range N)
        (fun d => S (BitVec.ofNat 128 d)) _ (fun d _ => h1 _)
      rwa [Finset.card_range] at this
    · obtain ⟨d, hd, hx⟩ := xor_of_take (J0_length E iv) (J0_length E iv') (top E e)
      exact Finset.mem_biUnion.2 ⟨d, Finset.mem_range.2 (hN ▸ hd), h2 _ E hx⟩

/-- C89 fails with the empty IV, which SP 800-38D forbids but the code accepts: the tag of an empty
message is the hash subkey itself, by which tags are forged. -/
theorem C89_gcm_empty_iv (env : Env) (pclmul : Bool) (h : PureCipher aes k E)
    (hb : aes.blocksize = 16) (hm : 256 ≤ env.maxLen) :
    ∃ t, aesGcmInit env pclmul aes k [] [] = .ok t k
      ∧ ((aesGcm env aes .encrypt).total [] t).observe = some (.ok ([], E (List.replicate 16 0))) := by
  obtain ⟨t, e1, e2⟩ := C34_gcm_encrypt env pclmul h hb [] [] [] (by simp) hm (by simp [inputOf])
  refine ⟨t, e1, ?_⟩
  rw [e2, if_pos (by simp [inputOf])]
  have hE : (E (List.replicate 16 0)).length = 16 := pure_len h hb (by simp)
  have hz : ∀ H : Bytes, ghashMul (List.replicate 16 0) H = List.replicate 16 0 := by
    intro H
    rw [ghashMul, show block128 (List.replicate 16 0) = 0 by decide +kernel]
    have h0 := congrArg GF.bits (zero_mul (⟨block128 H⟩ : GF))
    rw [GF.bits_mul, GF.bits_zero] at h0
    rw [h0]
    decide +kernel
  have hg : ghash (subkey E) (List.replicate 16 0) = List.replicate 16 0 := by
    rw [ghash, chunks_one (a := List.replicate 16 (0 : Byte)) (by decide) (by simp)]
    simp only [List.foldl_cons, List.foldl_nil]
    rw [show xorb (List.replicate 16 (0 : Byte)) (List.replicate 16 0) = List.replicate 16 0 by decide +kernel, hz]
  have hJ : J0 E [] = List.replicate 16 0 := by
    rw [J0, if_neg (by simp)]; exact hg
  have hc : crypt E [] (inputOf []) = [] := by simp [crypt, inputOf, chunks_nil, gctr]
  rw [hc]
  have ht : tag E [] [] [] = E (List.replicate 16 0) := by
    rw [tag, hJ]
    rw [show zeroPad16 [] ++ zeroPad16 [] ++ bitLength64 [] ++ bitLength64 [] = List.replicate 16 (0 : Byte) from by decide +kernel,
      hg, gctr, gctr, List.append_nil]
    have : ∀ b : Bytes, xorb (List.replicate b.length 0) b = b := by
      intro b
      induction b with
      | nil => rfl
      | cons x b ih => simp [List.replicate_succ, xorb] at ih ⊢; exact ih
    have h1 := this (E (List.replicate 16 0))
    rw [hE] at h1
    exact h1
  rw [ht]

end Gcm

/-! ### ChaCha20 -/

theorem chachaWords_inj {a b : Bytes} (ha : 4 ∣ a.length) (hl : a.length = b.length)
    (h : ChaCha20.words a = ChaCha20.words b) : a = b := by
  induction hn : a.length using Nat.strongRecOn generalizing a b with
  | _ n ih =>
    by_cases h0 : a = []
    · subst h0
      exact (List.length_eq_zero_iff.1 hl.symm).symm
    · have hp : 0 < a.length := List.length_pos_iff.2 h0
      have h4 : 4 ≤ a.length := Nat.le_of_dvd hp ha
      have h0' : b ≠ [] := List.length_pos_iff.1 (by omega)
      rw [ChaCha20.words, ChaCha20.words, chunks_cons (by decide) h0, chunks_cons (by decide) h0',
        List.map_cons, List.map_cons, List.cons.injEq] at h
      have e1 := congrArg BitVec.toNat h.1
      have l1 := leNat_lt (a.take 4)
      have l2 := leNat_lt (b.take 4)
      rw [List.length_take, Nat.min_eq_left (by omega)] at l1 l2
      rw [BitVec.toNat_ofNat, BitVec.toNat_ofNat, Nat.mod_eq_of_lt (by norm_num at l1 ⊢; exact l1),
        Nat.mod_eq_of_lt (by norm_num at l2 ⊢; exact l2)] at e1
      have e2 : a.take 4 = b.take 4 := by
        rw [← natToLE_leNat (a.take 4), ← natToLE_leNat (b.take 4), e1]
        simp [hl]
      have e3 := ih (a.drop 4).length (by simp; omega) (a := a.drop 4) (b := b.drop 4)
        (by simp; omega) (by simp; omega) h.2 rfl
      rw [← List.take_append_drop 4 a, ← List.take_append_drop 4 b, e2, e3]

/-- The number of blocks after which the block counter comes back. -/
def Spec.counterPeriod (iv : Bytes) : Nat := if iv.length = 8 then 2 ^ 64 else 2 ^ 32

/-- Blocks with different IVs of the same length, or different block numbers modulo 2^32 (2^64 with an
8-byte IV), have different block inputs. -/
theorem C89_chacha20_states {key iv iv' : Bytes} (hiv : iv.length = 8 ∨ iv.length = 12)
    (hl : iv.length = iv'.length) (m n : Nat)
    (h : ChaCha20.state key iv m = ChaCha20.state key iv' n) :
    iv = iv' ∧ m % counterPeriod iv = n % counterPeriod iv := by
  simp only [ChaCha20.state, List.append_assoc] at h
  have h := List.append_cancel_left h
  rw [counterPeriod]
  rw [← hl] at h
  rcases hiv with h8 | h12
  · rw [if_pos h8, if_pos h8] at h
    rw [if_pos h8]
    simp only [List.cons_append, List.nil_append, List.cons.injEq] at h
    have h1 := congrArg BitVec.toNat h.1
    have h2 := congrArg BitVec.toNat h.2.1
    simp only [BitVec.toNat_ofNat] at h1 h2
    exact ⟨chachaWords_inj (by rw [h8]; decide) hl h.2.2, by omega⟩
  · rw [if_neg (by omega), if_neg (by omega)] at h
    rw [if_neg (by omega)]
    simp only [List.cons_append, List.nil_append, List.cons.injEq] at h
    have h1 := congrArg BitVec.toNat h.1
    simp only [BitVec.toNat_ofNat] at h1
    exact ⟨chachaWords_inj (by rw [h12]; decide) hl h.2, h1⟩

/-- C89 for ChaCha20 (and ChaCha20-Poly1305: the keystream is the same, C35), with two different IVs of
the same length, any initial counters, any two histories of calls: byte number `i` of a message is xored with
a byte of the image by the ChaCha20 block function of the state for block `ctr + i / 64`, and no state
used for the one message is used for the other. Missing: IVs of different lengths
(`C89_chacha20_mixed`). -/
theorem C89_chacha20_partial {key iv iv' : Bytes} (env : Env) (ctr ctr' : Option W64)
    (ha : ChaChaArgs key (some iv) (ctr.getD 0)) (ha' : ChaChaArgs key (some iv') (ctr'.getD 0))
    (hl : iv.length = iv'.length) (hne : iv ≠ iv') (hm : 256 ≤ env.maxLen) (ops ops' : List FOp)
    (hops : ∀ op ∈ ops, op.Legal) (hops' : ∀ op ∈ ops', op.Legal)
    (hfit : (finputOf ops).length ≤ env.maxLen) (hfit' : (finputOf ops').length ≤ env.maxLen) :
    ∃ s s', chacha20Init env key (some iv) ctr = .ok s ∧ chacha20Init env key (some iv') ctr' = .ok s'
      ∧ runStream env chacha20 s ops = some (.ok ((finputOf ops).mapIdx fun i b => b ^^^
          (ChaCha20.block (ChaCha20.state key iv ((ctr.getD 0).toNat + i / 64))).getD (i % 64) 0))
      ∧ runStream env chacha20 s' ops' = some (.ok ((finputOf ops').mapIdx fun i b => b ^^^
          (ChaCha20.block (ChaCha20.state key iv' ((ctr'.getD 0).toNat + i / 64))).getD (i % 64) 0))
      ∧ ∀ m n, ChaCha20.state key iv m ≠ ChaCha20.state key iv' n := by
  have hiv : iv.length = 8 ∨ iv.length = 12 := (ha.2 iv rfl).imp id And.left
  obtain ⟨s, h1, h2⟩ := C20_chacha20 (env := env) ha hm ops hops hfit
  obtain ⟨s', h1', h2'⟩ := C20_chacha20 (env := env) ha' hm ops' hops' hfit'
  refine ⟨s, s', h1, h1', ?_, ?_, fun m n h => hne (C89_chacha20_states hiv hl m n h).1⟩
  · rw [h2]
    simp only [Spec.xorKeystream, ChaCha20.keystream, Spec.chachaIV, Option.getD_some, Nat.zero_add]
  · rw [h2']
    simp only [Spec.xorKeystream, ChaCha20.keystream, Spec.chachaIV, Option.getD_some, Nat.zero_add]

theorem chachaState_mixed (key v : Bytes) (hv : v.length = 8) (n : Nat) (hn : n < 2 ^ 32) :
    ChaCha20.state key v n = ChaCha20.state key (List.replicate 4 0 ++ v) n := by
  have h0 : n / 2 ^ 32 = 0 := Nat.div_eq_of_lt hn
  have hw : ChaCha20.words (List.replicate 4 0 ++ v) = 0 :: ChaCha20.words v := by
    rw [ChaCha20.words, chunks_cons (by decide) (by simp), List.map_cons]
    simp [ChaCha20.words, leNat]
  rw [ChaCha20.state, ChaCha20.state, if_pos hv, if_neg (by simp [hv]), hw, h0, List.append_assoc,
    List.append_assoc]
  rfl

theorem xorKeystream_congr {k k' : Nat → Byte} {m : Bytes} (h : ∀ i < m.length, k i = k' i) :
    xorKeystream k 0 m = xorKeystream k' 0 m := by
  unfold xorKeystream
  refine List.ext_getElem (by simp) fun i h1 h2 => ?_
  rw [List.length_mapIdx] at h1
  rw [List.getElem_mapIdx, List.getElem_mapIdx, h (0 + i) (by omega)]

theorem chachaKeystream_mixed (key v : Bytes) (hv : v.length = 8) (m : Bytes) (c : Nat)
    (hm : m.length + 64 * c ≤ 2 ^ 38) :
    xorKeystream (ChaCha20.keystream key v c) 0 m
      = xorKeystream (ChaCha20.keystream key (List.replicate 4 0 ++ v) c) 0 m := by
  refine xorKeystream_congr fun i hi => ?_
  unfold ChaCha20.keystream
  rw [chachaState_mixed key v hv _ (by omega)]

/-- C89 fails when IVs of 8 and 12 bytes are used with the same key: an 8-byte IV `v` and the 12-byte
IV made of four null bytes and `v` give the same keystream. -/
theorem C89_chacha20_mixed {key v : Bytes} (env : Env) (hk : key.length = 16 ∨ key.length = 32)
    (hv : v.length = 8) (hm : 256 ≤ env.maxLen) (ops : List FOp) (hops : ∀ op ∈ ops, op.Legal)
    (hfit : (finputOf ops).length ≤ env.maxLen) (hlen : (finputOf ops).length ≤ 2 ^ 38) :
    ∃ s s', chacha20Init env key (some v) none = .ok s
      ∧ chacha20Init env key (some (List.replicate 4 0 ++ v)) none = .ok s'
      ∧ runStream env chacha20 s ops = runStream env chacha20 s' ops := by
  obtain ⟨s, h1, h2⟩ := C20_chacha20 (env := env) (key := key) (iv := some v) (ctr := none)
    ⟨hk, by simp [hv]⟩ hm ops hops hfit
  obtain ⟨s', h1', h2'⟩ := C20_chacha20 (env := env) (key := key)
    (iv := some (List.replicate 4 0 ++ v)) (ctr := none) ⟨hk, by simp [hv]⟩ hm ops hops hfit
  refine ⟨s, s', h1, h1', ?_⟩
  rw [h2, h2']
  simp only [chachaIV, Option.getD_some]
  rw [chachaKeystream_mixed key v hv _ _ (by simpa using hlen)]

/-- The same for ChaCha20-Poly1305: ciphertext and tag are the same. -/
theorem C89_chapoly_mixed {key v : Bytes} (env : Env) (hk : key.length = 16 ∨ key.length = 32)
    (hv : v.length = 8) (header : Bytes) (ops : List TOp) (hops : ∀ op ∈ ops, op.Legal)
    (hm : 256 ≤ env.maxLen) (hm' : env.maxLen ≤ 2 ^ 62) (hfit : (inputOf ops).length ≤ env.maxLen)
    (hlen : (inputOf ops).length ≤ 2 ^ 38 - 64) :
    ∃ t t', chacha20Poly1305Init env header v key = .ok t ()
      ∧ chacha20Poly1305Init env header (List.replicate 4 0 ++ v) key = .ok t' ()
      ∧ ((chacha20Poly1305 env 8 .encrypt).total ops t).observe
        = ((chacha20Poly1305 env 12 .encrypt).total ops t').observe := by
  obtain ⟨t, h1, h2⟩ := C35_chapoly_encrypt (key := key) (iv := v) env hk (.inl hv) header ops hops hm hm' hfit
  obtain ⟨t', h1', h2'⟩ := C35_chapoly_encrypt (key := key) (iv := List.replicate 4 0 ++ v) env hk
    (.inr (by simp [hv])) header ops hops hm hm' hfit
  refine ⟨t, t', h1, h1', ?_⟩
  rw [hv] at h2
  rw [show (List.replicate 4 (0 : Byte) ++ v).length = 12 by simp [hv]] at h2'
  rw [h2, h2', if_neg (by simp [ChaPoly.TooLong, hv]),
    if_neg (by simp only [ChaPoly.TooLong]; omega)]
  have hc : ChaPoly.crypt key v (inputOf ops)
      = ChaPoly.crypt key (List.replicate 4 0 ++ v) (inputOf ops) :=
    chachaKeystream_mixed key v hv _ 1 (by omega)
  have ho : ChaPoly.otk key v = ChaPoly.otk key (List.replicate 4 0 ++ v) := by
    rw [ChaPoly.otk, ChaPoly.otk, chachaState_mixed key v hv 0 (by decide)]
  rw [hc, ChaPoly.tag, ChaPoly.tag, ho]

/-! ### Counter mode -/

theorem xorStream_congr {f g : Nat → Bytes} (xs : List Bytes) : ∀ (i : Nat),
    (∀ j, i ≤ j → j < i + xs.length → f j = g j) → xorStream f i xs = xorStream g i xs := by
  induction xs with
  | nil => intros; rfl
  | cons x xs ih =>
    intro i h
    rw [xorStream, xorStream, h i (Nat.le_refl _) (by simp),
      ih (i + 1) fun j h1 h2 => h j (by omega) (by simp only [List.length_cons]; omega)]

/-- C89 for counter mode with any block cipher: the result for a message of `n` blocks depends on the
values of the block cipher on the first `n` counter blocks of the IV only. -/
theorem C89_ctr_depends {σ σ' : Type} {env : Env} {c : BlockCipher σ} {c' : BlockCipher σ'} {k : σ} {k' : σ'}
    {E E' : Bytes → Bytes} (h : PureCipher c k E) (h' : PureCipher c' k' E') (hb : c.blocksize = c'.blocksize)
    (hm : max 256 (2 * c.blocksize) ≤ env.maxLen) {iv : Bytes} (hiv : iv.length = c.blocksize)
    {inc : Option Nat} (hinc : Spec.IncOk c.blocksize inc) (ops : List TOp)
    (hops : ∀ op ∈ ops, op.Legal) (hd : c.blocksize ∣ (inputOf ops).length)
    (hfit : (inputOf ops).length ≤ env.maxLen)
    (agree : ∀ i < (inputOf ops).length / c.blocksize,
      E (counterBlock iv (Spec.incOf c.blocksize inc) i) = E' (counterBlock iv (Spec.incOf c.blocksize inc) i)) :
    ∃ n st st', ctrInit env c k (some iv) (inc.map Int.ofNat) = .ok (n, st)
      ∧ ctrInit env c' k' (some iv) (inc.map Int.ofNat) = .ok (n, st')
      ∧ runTransform env (Verif.ctr n c) st ops = runTransform env (Verif.ctr n c') st' ops := by
  have hv : Spec.IVOk c.blocksize (some iv) := by rintro _ ⟨⟩; exact hiv
  obtain ⟨n, st, h1, rfl, h2⟩ := C10_ctr (env := env) h hm hv hinc ops hops hd hfit
  obtain ⟨n', st', h1', hn', h2'⟩ := C10_ctr (env := env) h' (hb ▸ hm) (hb ▸ hv) (inc := inc) (hb ▸ hinc) ops hops (hb ▸ hd) hfit
  rw [← hb] at hn' h2'
  subst hn'
  refine ⟨_, st, st', h1, h1', ?_⟩
  rw [h2, h2']
  have hc : (chunks c.blocksize (inputOf ops)).length = (inputOf ops).length / c.blocksize := by
    obtain ⟨q, hq⟩ := hd
    have := h.pos
    rw [chunks_length h.pos, hq, Nat.mul_div_cancel_left _ h.pos, Nat.add_sub_assoc (by omega), Nat.mul_add_div this,
      Nat.div_eq_of_lt (by omega), Nat.add_zero]
  have hx : Spec.ctr E (Spec.incOf c.blocksize inc) (Spec.ivOf c.blocksize (some iv)) (chunks c.blocksize (inputOf ops))
      = Spec.ctr E' (Spec.incOf c.blocksize inc) (Spec.ivOf c.blocksize (some iv)) (chunks c.blocksize (inputOf ops)) :=
    xorStream_congr _ 0 fun j _ hj => agree j (by omega)
  rw [hx]

/-- C89 for counter mode with any block cipher: if two messages of `a` and `b` blocks have a counter
block in common, then one of the IVs is among the counter blocks of the other message. In particular
IVs that differ outside of their last `k` bytes never collide. -/
theorem C89_ctr {iv iv' : Bytes} (k : Nat) (hk : k ≤ iv.length) (hl : iv.length = iv'.length)
    (a b i j : Nat) (hi : i < a) (hj : j < b) (h : counterBlock iv k i = counterBlock iv' k j) :
    (∃ d < a, iv' = counterBlock iv k d) ∨ (∃ d < b, iv = counterBlock iv' k d) := by
  have one : ∀ {iv iv' : Bytes} {i j : Nat}, k ≤ iv.length → iv.length = iv'.length → j ≤ i →
      counterBlock iv k i = counterBlock iv' k j → iv' = counterBlock iv k (i - j) := by
    intro iv iv' i j hk hl hij h
    rw [counterBlock, counterBlock] at h
    obtain ⟨h1, h2⟩ := List.append_inj h (by simp [hl])
    have h3 := congrArg beNat h2
    rw [beNat_natToBE, beNat_natToBE, Nat.mod_mod, Nat.mod_mod] at h3
    have hd : (iv'.drop (iv'.length - k)).length = k := by simp; omega
    have hb := beNat_lt (iv'.drop (iv'.length - k))
    rw [hd] at hb
    have h4 : (beNat (iv.drop (iv.length - k)) + (i - j)) % 256 ^ k
        = beNat (iv'.drop (iv'.length - k)) := by
      have h5 : beNat (iv.drop (iv.length - k)) + (i - j) ≡ beNat (iv'.drop (iv'.length - k)) [MOD 256 ^ k] := by
        refine Nat.ModEq.add_right_cancel' j ?_
        rw [Nat.add_assoc, Nat.sub_add_cancel hij]
        exact h3
      rw [Nat.ModEq, Nat.mod_eq_of_lt hb] at h5
      exact h5
    rw [counterBlock, h4, h1]
    conv_lhs => rw [← List.take_append_drop (iv'.length - k) iv']
    congr 1
    have := natToBE_beNat (iv'.drop (iv'.length - k))
    rw [hd] at this
    exact this.symm
  rcases Nat.le_total j i with hij | hij
  · exact .inl ⟨i - j, by omega, one hk hl hij h⟩
  · exact .inr ⟨j - i, by omega, one (hl ▸ hk) hl.symm hij h.symm⟩

/-! ### Concrete cases -/

namespace Example

/-- A cipher that agrees with `gcmToy` on the null block and on blocks beginning with twelve 9s. -/
def gcmToy' (k b : Bytes) : Bytes :=
  if b = List.replicate 16 0 ∨ b.take 12 = List.replicate 12 9 then gcmToy k b else b
def gcmToyEnc' : BlockCipher Bytes := checkedCipher 16 (fun k b => some (gcmToy' k b)) (fun _ => []) id

theorem gcmToyEnc'_pure : PureCipher gcmToyEnc' gcmKey (gcmToy' gcmKey) :=
  checkedCipher_pure (Es := []) (by decide) (fun _ _ => rfl) (fun _ _ => rfl)
    (by intro b hb; show (gcmToy' gcmKey b).length = 16; rw [gcmToy']; split <;> simp [gcmToy, gcmKey, hb]) (by simp)

end Example

example : ∃ t t', aesGcmInit Example.env64 true Example.gcmToyEnc Example.gcmKey [1, 2] (List.replicate 12 9)
      = .ok t Example.gcmKey
    ∧ aesGcmInit Example.env64 true Example.gcmToyEnc' Example.gcmKey [1, 2] (List.replicate 12 9)
      = .ok t' Example.gcmKey
    ∧ ((aesGcm Example.env64 Example.gcmToyEnc .encrypt).total Example.ops t).observe
      = ((aesGcm Example.env64 Example.gcmToyEnc' .encrypt).total Example.ops t').observe :=
  C89_gcm _ _ Example.gcmToyEnc_pure Example.gcmToyEnc'_pure rfl rfl _ _ (by simp)
    (fun x h => by rw [Example.gcmToy', if_pos (h.imp id And.right)]) _ _ Example.ops_legal (by decide)
    (by rw [Example.ops_input]; decide)

/-- The two ciphers differ on the first counter block of another IV. -/
example : Example.gcmToy Example.gcmKey (List.replicate 12 8 ++ [0, 0, 0, 1])
    ≠ Example.gcmToy' Example.gcmKey (List.replicate 12 8 ++ [0, 0, 0, 1]) := by decide

/-- A hash subkey for which a 16-byte IV collides with the 12-byte IV `iv'`. -/
example : ∃ (E : Bytes → Bytes) (iv iv' : Bytes), iv ≠ [] ∧ iv' ≠ [] ∧ iv ≠ iv' ∧ Overlap E iv iv' :=
  ⟨fun _ => List.replicate 16 0, [1], List.replicate 12 0, by decide, by decide, by decide,
    2, 1, by decide +kernel⟩

example : ∃ t, aesGcmInit Example.env64 true Example.gcmToyEnc Example.gcmKey [] [] = .ok t Example.gcmKey
    ∧ ((aesGcm Example.env64 Example.gcmToyEnc .encrypt).total [] t).observe
      = some (.ok ([], Example.gcmKey.reverse)) :=
  C89_gcm_empty_iv _ _ Example.gcmToyEnc_pure rfl (by decide)

example : ChaCha20.state (List.replicate 32 7) (List.replicate 12 1) 0
    = ChaCha20.state (List.replicate 32 7) (List.replicate 12 1) (2 ^ 32) := by decide +kernel

example : ∃ s s', chacha20Init Example.env64 (List.replicate 32 7) (some [1, 2, 3, 4, 5, 6, 7, 8]) none = .ok s
    ∧ chacha20Init Example.env64 (List.replicate 32 7) (some [0, 0, 0, 0, 1, 2, 3, 4, 5, 6, 7, 8]) none = .ok s'
    ∧ runStream Example.env64 chacha20 s Example.fops
      = runStream Example.env64 chacha20 s' Example.fops :=
  C89_chacha20_mixed (v := [1, 2, 3, 4, 5, 6, 7, 8]) _ (by simp) (by simp) (by decide) _
    Example.fops_legal (by rw [Example.fops_input]; decide) (by rw [Example.fops_input]; decide)

example : ∃ t t', chacha20Poly1305Init Example.env64 [1, 2] [1, 2, 3, 4, 5, 6, 7, 8] (List.replicate 32 7)
      = .ok t ()
    ∧ chacha20Poly1305Init Example.env64 [1, 2] [0, 0, 0, 0, 1, 2, 3, 4, 5, 6, 7, 8] (List.replicate 32 7)
      = .ok t' ()
    ∧ ((chacha20Poly1305 Example.env64 8 .encrypt).total Example.ops t).observe
      = ((chacha20Poly1305 Example.env64 12 .encrypt).total Example.ops t').observe :=
  C89_chapoly_mixed (v := [1, 2, 3, 4, 5, 6, 7, 8]) _ (by simp) (by simp) _ _ Example.ops_legal
    (by decide) (by decide) (by rw [Example.ops_input]; decide) (by rw [Example.ops_input]; decide)

example : ∃ s s', chacha20Init Example.env64 (List.replicate 32 7) (some (List.replicate 12 1)) (some 5) = .ok s
    ∧ chacha20Init Example.env64 (List.replicate 32 7) (some (List.replicate 12 2)) none = .ok s'
    ∧ (runStream Example.env64 chacha20 s Example.fops).isSome
    ∧ ∀ m n, ChaCha20.state (List.replicate 32 7) (List.replicate 12 1) m
        ≠ ChaCha20.state (List.replicate 32 7) (List.replicate 12 2) n := by
  obtain ⟨s, s', h1, h2, h3, -, h4⟩ := C89_chacha20_partial Example.env64 (key := List.replicate 32 7) (iv := List.replicate 12 1)
    (iv' := List.replicate 12 2) (some 5) none ⟨.inr rfl, by rintro _ ⟨⟩; exact .inr ⟨rfl, by decide⟩⟩
    ⟨.inr rfl, by rintro _ ⟨⟩; exact .inr ⟨rfl, by decide⟩⟩ rfl (by decide) (by decide) _ _ Example.fops_legal
    Example.fops_legal (by rw [Example.fops_input]; decide) (by rw [Example.fops_input]; decide)
  exact ⟨s, s', h1, h2, by rw [h3]; rfl, h4⟩

/-- Two ciphers that agree on the counter blocks of the IV. -/
example : ∃ n st st', ctrInit Example.env64 Example.gcmToyEnc Example.gcmKey (some (List.replicate 16 9)) (some 4) = .ok (n, st)
    ∧ ctrInit Example.env64 Example.gcmToyEnc' Example.gcmKey (some (List.replicate 16 9)) (some 4) = .ok (n, st')
    ∧ runTransform Example.env64 (Verif.ctr n Example.gcmToyEnc) st [.putString (List.replicate 32 1)]
      = runTransform Example.env64 (Verif.ctr n Example.gcmToyEnc') st' [.putString (List.replicate 32 1)] :=
  C89_ctr_depends Example.gcmToyEnc_pure Example.gcmToyEnc'_pure rfl (by decide) (iv := List.replicate 16 9) rfl
    (inc := some 4) (by rintro _ ⟨⟩; decide) _ (by simp [TOp.Legal]) (by decide) (by decide)
    (fun i _ => by rw [Example.gcmToy', if_pos (.inr (by simp [counterBlock, Spec.incOf]))])

/-- The fourth counter block of one message and the second of another, with a carry. -/
example : counterBlock [7, 7, 0, 0xFE] 2 3 = counterBlock [7, 7, 1, 0] 2 1 := by decide

end Verif
