import Verif.Spec.KeyClasses
import Verif.Props.C31_Hmac
import Verif.Props.C67_Cipher
import Verif.Props.C79_Collision
/-
C100: which keys are interchangeable.
-/
namespace Verif

open Spec (SameRepeated hmacBlock)

/-! ### ARCfour and Blowfish use the key cyclically -/

theorem cyc_next {i l : Nat} (hl : 0 < l) :
    (i + 1) % l = if i % l + 1 ≥ l then 0 else i % l + 1 := by
  have h := Nat.mod_lt i hl
  have e : (i + 1) % l = (i % l + 1) % l := (Nat.mod_add_mod i l 1).symm
  rw [e]
  split
  · rw [show i % l + 1 = l by omega, Nat.mod_self]
  · exact Nat.mod_eq_of_lt (by omega)

theorem arcfour_index {l i : Nat} {x : Byte} (hl : 0 < l) (h256 : l ≤ 256) (hx : x.toNat = i % l) :
    (if (x + 1).toNat ≥ l then 0 else x + 1 : Byte).toNat = (i + 1) % l := by
  have h := Nat.mod_lt i hl
  rw [cyc_next hl, ← hx]
  rw [← hx] at h
  have e : (x + 1).toNat = if x.toNat = 255 then 0 else x.toNat + 1 := by
    rw [BitVec.toNat_add, show BitVec.toNat (1 : Byte) = 1 from rfl]
    split
    · next h => rw [h]
    · have := x.isLt; simp only [Nat.reducePow, Nat.reduceMod]; omega
  rw [e]
  by_cases hh : x.toNat = 255
  · rw [if_pos hh, if_pos (by omega : x.toNat + 1 ≥ l)]
    split
    · rfl
    · rw [e, if_pos hh]
  · rw [if_neg hh]
    split
    · rfl
    · rw [e, if_neg hh]

theorem arcfourMix_same {k k' : Bytes} (hk : 0 < k.length) (hk' : 0 < k'.length) (l : k.length ≤ 256)
    (l' : k'.length ≤ 256) (h : SameRepeated 256 k k') : ∀ (n i : Nat) (x x' y : Byte) (s : Bytes),
    i + n ≤ 256 → x.toNat = i % k.length → x'.toNat = i % k'.length →
    arcfourMix k n i x y s = arcfourMix k' n i x' y s := by
  intro n
  induction n with
  | zero => intros; rfl
  | succ n ih =>
    intro i x x' y s hi hx hx'
    simp only [arcfourMix]
    have e : byteAt k x.toNat = byteAt k' x'.toNat := by
      rw [hx, hx']; exact h i (by omega)
    rw [e]
    exact ih _ _ _ _ _ (by omega) (arcfour_index hk l hx) (arcfour_index hk' l' hx')

/-- C100, ARCfour: keys that are the same when they are repeated up to 256 bytes give the same object. -/
theorem C100_arcfour {env : Env} {k k' : Bytes} (hk : 0 < k.length ∧ k.length ≤ 256)
    (hk' : 0 < k'.length ∧ k'.length ≤ 256) (h : SameRepeated 256 k k') (dir : Dir) :
    Cipher.arcfour env k dir = Cipher.arcfour env k' dir := by
  unfold Cipher.arcfour arcfourInit
  rw [if_pos hk, if_pos hk']
  unfold arcfourCookKey
  rw [arcfourMix_same hk.1 hk'.1 hk.2 hk'.2 h 256 0 0 0 0 _ (by omega) (by simp) (by simp)]

namespace Blowfish

theorem keyData_same {k k' : Bytes} (hk : 0 < k.length) (hk' : 0 < k'.length) {N : Nat}
    (h : SameRepeated N k k') : ∀ (n p : Nat) (d : W32), p + n ≤ N →
    (keyData k n (d, p % k.length)).1 = (keyData k' n (d, p % k'.length)).1
    ∧ (keyData k n (d, p % k.length)).2 = (p + n) % k.length
    ∧ (keyData k' n (d, p % k'.length)).2 = (p + n) % k'.length := by
  intro n
  induction n with
  | zero => intros; exact ⟨rfl, rfl, rfl⟩
  | succ n ih =>
    intro p d hp
    simp only [keyData]
    have e : byteAt k (p % k.length) = byteAt k' (p % k'.length) := h p (by omega)
    rw [e, ← cyc_next hk, ← cyc_next hk', show p + (n + 1) = p + 1 + n by omega]
    exact ih _ _ (by omega)

theorem xorKey_same {k k' : Bytes} (hk : 0 < k.length) (hk' : 0 < k'.length) {N : Nat}
    (h : SameRepeated N k k') : ∀ (ps : List W32) (p : Nat), p + 4 * ps.length ≤ N →
    xorKey k ps (p % k.length) = xorKey k' ps (p % k'.length) := by
  intro ps
  induction ps with
  | nil => intros; rfl
  | cons w ps ih =>
    intro p hp
    rw [List.length_cons] at hp
    obtain ⟨h1, h2, h3⟩ := keyData_same hk hk' h 4 p 0 (by omega)
    simp only [xorKey]
    rw [h1, h2, h3, ih _ (by omega)]

theorem new_same {k k' : Bytes} (hk : 4 ≤ k.length ∧ k.length ≤ 56) (hk' : 4 ≤ k'.length ∧ k'.length ≤ 56)
    (h : SameRepeated 72 k k') : new k = new k' := by
  unfold new init
  rw [if_pos hk, if_pos hk']
  have e := xorKey_same (by omega) (by omega) h ORIG_P 0 (by decide +kernel)
  rw [Nat.zero_mod, Nat.zero_mod] at e
  rw [e]

end Blowfish

/-- C100, Blowfish: keys that are the same when they are repeated up to 72 bytes give the same object. -/
theorem C100_blowfish {env : Env} {mode : Option Cipher.Mode} {pad : Option PadScheme} {iv : Option Bytes}
    {k k' : Bytes} (hk : 4 ≤ k.length ∧ k.length ≤ 56)
    (hk' : 4 ≤ k'.length ∧ k'.length ≤ 56) (h : SameRepeated 72 k k') (dir : Dir) :
    Cipher.blowfish env mode pad iv k dir = Cipher.blowfish env mode pad iv k' dir := by
  unfold Cipher.blowfish Cipher.blowfishBlock
  rw [Blowfish.new_same hk hk' h]

theorem sameRepeated_twice (n : Nat) {k : Bytes} (hk : 0 < k.length) : SameRepeated n k (k ++ k) := by
  intro i _
  have h1 := Nat.mod_lt i hk
  have h2 : i % (k ++ k).length < (k ++ k).length := Nat.mod_lt _ (by simp; omega)
  rw [List.length_append] at h2 ⊢
  have e : i % (k.length + k.length) % k.length = i % k.length :=
    Nat.mod_mod_of_dvd i ⟨2, by omega⟩
  rw [List.getD_eq_getElem?_getD, List.getD_eq_getElem?_getD]
  by_cases hl : i % (k.length + k.length) < k.length
  · rw [List.getElem?_append_left hl, ← e, Nat.mod_eq_of_lt hl]
  · rw [List.getElem?_append_right (by omega), ← e, Nat.mod_eq_sub_mod (by omega), Nat.mod_eq_of_lt (by omega)]

/-- C100: a key written twice is the same key for ARCfour and Blowfish, whenever it is accepted. -/
theorem C100_key_twice {env : Env} {mode : Option Cipher.Mode} {pad : Option PadScheme} {iv : Option Bytes}
    (k : Bytes) (dir : Dir) :
    (0 < k.length → k.length ≤ 128 → Cipher.arcfour env (k ++ k) dir = Cipher.arcfour env k dir)
    ∧ (4 ≤ k.length → k.length ≤ 28 →
        Cipher.blowfish env mode pad iv (k ++ k) dir = Cipher.blowfish env mode pad iv k dir) :=
  ⟨fun h1 h2 => (C100_arcfour ⟨h1, by omega⟩ (by rw [List.length_append]; omega)
      (sameRepeated_twice _ h1) dir).symm,
   fun h1 h2 => (C100_blowfish ⟨h1, by omega⟩ (by rw [List.length_append]; omega)
      (sameRepeated_twice _ (by omega)) dir).symm⟩

/-- The objects of `C100_key_twice` exist. -/
example : (∃ t, Cipher.arcfour Example.env64 (ascii "ab") .encrypt = .ok t)
    ∧ (∃ t, Cipher.blowfish Example.env64 none none none (ascii "abcd") .encrypt = some (.ok t)) := by
  refine ⟨⟨_, rfl⟩, ?_⟩
  have h : (ascii "abcd").length ≥ 4 ∧ (ascii "abcd").length ≤ 56 := by decide
  unfold Cipher.blowfish Cipher.blowfishBlock Blowfish.new Cipher.normalizeDir
  simp only
  rw [if_pos h]
  exact ⟨_, rfl⟩

/-! ### HMAC -/

theorem hmacKey_block (H : Bytes → Bytes) (B : Nat) (key : Bytes) : hmacKey H B key = hmacBlock H B key := by
  unfold hmacKey hmacBlock
  split <;> rfl

theorem HMAC_block (H : Bytes → Bytes) (B : Nat) (key text : Bytes) :
    Spec.HMAC H B key text = H (xorb (hmacBlock H B key) (List.replicate B 0x5c)
      ++ H (xorb (hmacBlock H B key) (List.replicate B 0x36) ++ text)) := by
  rw [← hmacKey_block]
  rfl

/-- C100, HMAC over any hash class as in C31: two keys that make the same block give objects that compute
the same function. If two keys make different blocks, and the objects agree on some message, then the hash
function has been given two different strings with the same hash. -/
theorem C100_hmac (h : HashObj τ) (new : τ → Prop) (H : Bytes → Bytes) (B : Nat)
    (computes : ∀ s, new s → h.Computes s H) (short : ∀ m, (H m).length ≤ B)
    (small : B ≤ maxString) (wipe : ∀ s, ∃ s', h.wipe s = .ok () s')
    (fresh fresh' : Nat → τ) (hf : ∀ i, new (fresh i)) (hf' : ∀ i, new (fresh' i)) (s s' : τ)
    (hs : new s) (hs' : new s')
    (k k' : Bytes) (hk : k.length ≤ maxString) (hk' : k'.length ≤ maxString) :
    ∃ s1 s1', hmacNew h B fresh k s = .ok () s1 ∧ hmacNew h B fresh' k' s' = .ok () s1'
      ∧ (hmacBlock H B k = hmacBlock H B k' →
          ∃ F, (hmac h B fresh k).Computes s1 F ∧ (hmac h B fresh' k').Computes s1' F)
      ∧ (hmacBlock H B k ≠ hmacBlock H B k' → ∀ ops : List HOp, (∀ op ∈ ops, op.Legal) →
          ((hmac h B fresh k).digest ops s1).observe = ((hmac h B fresh' k').digest ops s1').observe →
          ∃ x y, x.take B = xorb (hmacBlock H B k) (List.replicate B 0x5c)
            ∧ y.take B = xorb (hmacBlock H B k') (List.replicate B 0x5c) ∧ x ≠ y ∧ H x = H y) := by
  obtain ⟨s1, h1, c1⟩ := C31_hmac h new H B computes short small wipe fresh hf s hs k hk
  obtain ⟨s1', h1', c1'⟩ := C31_hmac h new H B computes short small wipe fresh' hf' s' hs' k' hk'
  refine ⟨s1, s1', h1, h1', ?_, ?_⟩
  · intro he
    refine ⟨Spec.HMAC H B k, c1, ?_⟩
    rw [show Spec.HMAC H B k = Spec.HMAC H B k' from funext fun t => by rw [HMAC_block, HMAC_block, he]]
    exact c1'
  · intro hne ops hops ho
    rw [c1 ops hops, c1' ops hops] at ho
    have e : Spec.HMAC H B k (hinputOf ops) = Spec.HMAC H B k' (hinputOf ops) := by simpa using ho
    rw [HMAC_block, HMAC_block] at e
    have lb : ∀ key : Bytes, (hmacBlock H B key).length = B := fun key => by
      rw [← hmacKey_block]; exact hmacKey_length short key
    have lx : ∀ key : Bytes, (xorb (hmacBlock H B key) (List.replicate B 0x5c)).length = B := by
      intro key; rw [xorb_length, lb, List.length_replicate, Nat.min_self]
    have tk : ∀ key t : Bytes, (xorb (hmacBlock H B key) (List.replicate B 0x5c) ++ t).take B
        = xorb (hmacBlock H B key) (List.replicate B 0x5c) := by
      intro key t
      rw [List.take_append_of_le_length (by rw [lx]), List.take_of_length_le (by rw [lx])]
    refine ⟨_, _, tk k _, tk k' _, ?_, e⟩
    intro hxy
    have := congrArg (List.take B) hxy
    rw [tk, tk] at this
    apply hne
    have := congrArg (fun b => xorb b (List.replicate B 0x5c)) this
    rwa [xorb_xorb_cancel (by rw [lb, List.length_replicate]),
      xorb_xorb_cancel (by rw [lb, List.length_replicate])] at this

/-- C100: which keys make the same block, the cases that occur in practice. A key that fits in a block is
interchangeable with itself followed by zeroes; a key longer than a block with its hash. Keys of the same
length that fit in a block are interchangeable only if they are equal. -/
theorem C100_hmac_block (H : Bytes → Bytes) (B : Nat) (short : ∀ m, (H m).length ≤ B) (k : Bytes) :
    (∀ n, k.length + n ≤ B → hmacBlock H B (k ++ List.replicate n 0) = hmacBlock H B k)
    ∧ (B < k.length → hmacBlock H B (H k) = hmacBlock H B k)
    ∧ (∀ k', k.length ≤ B → k'.length = k.length → hmacBlock H B k' = hmacBlock H B k → k' = k) := by
  refine ⟨fun n hn => ?_, fun hl => ?_, fun k' hl he h => ?_⟩
  · unfold hmacBlock
    rw [if_neg (by simp; omega), if_neg (by omega), List.append_assoc, List.replicate_append_replicate]
    congr 2
    simp; omega
  · unfold hmacBlock
    rw [if_pos hl, if_neg (by have := short k; omega)]
  · unfold hmacBlock at h
    rw [if_neg (by omega), if_neg (by omega)] at h
    exact (List.append_inj h he).1

/-- For `hmac_sha256`: a key, and the same key followed by a zero byte, as long as they fit in 64 bytes. -/
theorem C100_hmac_sha256_zero (buf0 buf0' : Nat → Bytes) (hb : ∀ i, (buf0 i).length = 64)
    (hb' : ∀ i, (buf0' i).length = 64) (k : Bytes) (hk : k.length < 64) :
    ∃ s1 s1', hmacNew sha256 64 (fun i => sha256Init (buf0 (i + 1))) k (sha256Init (buf0 0)) = .ok () s1
      ∧ hmacNew sha256 64 (fun i => sha256Init (buf0' (i + 1))) (k ++ [0]) (sha256Init (buf0' 0)) = .ok () s1'
      ∧ ∃ F, (hmac sha256 64 (fun i => sha256Init (buf0 (i + 1))) k).Computes s1 F
        ∧ (hmac sha256 64 (fun i => sha256Init (buf0' (i + 1))) (k ++ [0])).Computes s1' F := by
  have hB : (64 : Nat) ≤ maxString := by decide +kernel
  obtain ⟨s1, s1', h1, h2, h3, _⟩ := C100_hmac sha256 (fun s => ∃ b : Bytes, b.length = 64 ∧ s = sha256Init b)
    Spec.SHA256 64 (by rintro _ ⟨b, hl, rfl⟩; exact C23_sha256 _ hl)
    (fun m => by rw [SHA256_length]; decide) hB (fun _ => ⟨_, rfl⟩)
    (fun i => sha256Init (buf0 (i + 1))) (fun i => sha256Init (buf0' (i + 1)))
    (fun i => ⟨_, hb _, rfl⟩) (fun i => ⟨_, hb' _, rfl⟩) _ _ ⟨_, hb 0, rfl⟩ ⟨_, hb' 0, rfl⟩ k (k ++ [0])
    (by omega) (by simp; omega)
  refine ⟨s1, s1', h1, h2, h3 ?_⟩
  exact ((C100_hmac_block Spec.SHA256 64 (fun m => by rw [SHA256_length]; decide) k).1 1 (by omega)).symm

/-! ### Keys of which every bit counts -/

theorem ofNat_leNat_inj {w n : Nat} (hw : 2 ^ w = 256 ^ n) {a b : Bytes} (ha : a.length = n)
    (hb : b.length = n) (h : BitVec.ofNat w (leNat a) = BitVec.ofNat w (leNat b)) : a = b := by
  have h := congrArg BitVec.toNat h
  have l1 := leNat_lt a
  have l2 := leNat_lt b
  rw [ha] at l1; rw [hb] at l2
  rw [BitVec.toNat_ofNat, BitVec.toNat_ofNat, hw, Nat.mod_eq_of_lt l1, Nat.mod_eq_of_lt l2] at h
  rw [← natToLE_leNat a, ← natToLE_leNat b, h, ha, hb]

theorem le32or_inj {a b : Bytes} (ha : 4 ≤ a.length) (hb : 4 ≤ b.length) (h : le32or a = le32or b) :
    a.take 4 = b.take 4 := by
  rw [le32or_eq ha, le32or_eq hb] at h
  exact ofNat_leNat_inj (n := 4) (by decide) (by simp; omega) (by simp; omega) h

theorem le32_inj {a b : Bytes} (ha : 4 ≤ a.length) (hb : 4 ≤ b.length) (h : le32 a = le32 b) :
    a.take 4 = b.take 4 := by
  rw [le32_eq ha, le32_eq hb] at h
  exact ofNat_leNat_inj (n := 4) (by decide) (by simp; omega) (by simp; omega) h

theorem le64or_inj {a b : Bytes} (ha : 8 ≤ a.length) (hb : 8 ≤ b.length) (h : le64or a = le64or b) :
    a.take 8 = b.take 8 := by
  rw [le64or_eq ha, le64or_eq hb] at h
  exact ofNat_leNat_inj (n := 8) (by decide) (by simp; omega) (by simp; omega) h

theorem eq_of_takes {n : Nat} : ∀ (m : Nat) {a b : Bytes}, a.length = n * m → b.length = n * m →
    (∀ i < m, (a.drop (n * i)).take n = (b.drop (n * i)).take n) → a = b := by
  intro m
  induction m with
  | zero =>
    intro a b ha hb _
    rw [List.length_eq_zero_iff.1 ha, List.length_eq_zero_iff.1 hb]
  | succ m ih =>
    intro a b ha hb h
    rw [Nat.mul_succ] at ha hb
    have h0 := h 0 (by omega)
    rw [Nat.mul_zero, List.drop_zero, List.drop_zero] at h0
    rw [← List.take_append_drop n a, ← List.take_append_drop n b, h0,
      ih (a := a.drop n) (b := b.drop n) (by simp; omega) (by simp; omega) (fun i hi => by
        have := h (i + 1) (by omega)
        rw [List.drop_drop, List.drop_drop, Nat.add_comm n]
        exact this)]

/-- C100, ChaCha20: different keys give different objects, whatever the initialisation vectors and
counters. -/
theorem C100_chacha20 {env : Env} {iv iv' : Option Bytes} {ctr ctr' : Option W64} {k k' : Bytes}
    {dir dir' : Dir} {t : Cipher.AnyTransform} (h : Cipher.chacha20 env iv ctr k dir = .ok t)
    (h' : Cipher.chacha20 env iv' ctr' k' dir' = .ok t) : k = k' := by
  have key : ∀ {iv : Option Bytes} {ctr : Option W64} {k : Bytes} {dir : Dir},
      Cipher.chacha20 env iv ctr k dir = .ok t → (k.length = 16 ∨ k.length = 32)
      ∧ ∃ iv c, t = ⟨streamTransform env Verif.chacha20, streamInit env (chachaInit env k iv c)⟩ := by
    intro iv ctr k dir h
    unfold Cipher.chacha20 chacha20Init at h
    simp only at h
    split at h
    · exact absurd h (by simp [Except.map])
    · next hk =>
      refine ⟨Decidable.byContradiction hk, ?_⟩
      cases iv with
      | none => exact ⟨_, _, (Except.ok.inj h).symm⟩
      | some iv =>
        simp only at h
        split at h
        · exact ⟨_, _, (Except.ok.inj h).symm⟩
        · exact absurd h (by simp [Except.map])
  obtain ⟨hk, v, c, e⟩ := key h
  obtain ⟨hk', v', c', e'⟩ := key h'
  rw [e] at e'
  simp only [Cipher.AnyTransform.mk.injEq, heq_eq_eq, true_and] at e'
  have e := congrArg (fun s : StreamSt ChaCha => s.c.input) e'
  simp only [streamInit, chachaInit, X16.mk.injEq] at e
  obtain ⟨_, e1, _, _, e4, e5, e6, e7, e8, e9, e10, e11, _⟩ := e
  have hl : k.length = k'.length := by
    rcases hk with hk | hk <;> rcases hk' with hk' | hk' <;> rw [hk, hk'] at e1 ⊢
    · exact absurd e1 (by decide)
    · exact absurd e1 (by decide)
  rcases hk with hk | hk
  · have hk' : k'.length = 16 := by omega
    refine eq_of_takes (n := 4) 4 (by omega) (by omega) fun i hi => ?_
    obtain rfl | rfl | rfl | rfl : i = 0 ∨ i = 1 ∨ i = 2 ∨ i = 3 := by omega
    · exact le32_inj (by simp; omega) (by simp; omega) e4
    · exact le32_inj (by simp; omega) (by simp; omega) e5
    · exact le32_inj (by simp; omega) (by simp; omega) e6
    · exact le32_inj (by simp; omega) (by simp; omega) e7
  · have hk' : k'.length = 32 := by omega
    rw [if_pos hk, if_pos hk'] at e8 e9 e10 e11
    rw [List.drop_drop, List.drop_drop] at e9 e10 e11
    refine eq_of_takes (n := 4) 8 (by omega) (by omega) fun i hi => ?_
    obtain rfl | rfl | rfl | rfl | rfl | rfl | rfl | rfl :
      i = 0 ∨ i = 1 ∨ i = 2 ∨ i = 3 ∨ i = 4 ∨ i = 5 ∨ i = 6 ∨ i = 7 := by omega
    · exact le32_inj (by simp; omega) (by simp; omega) e4
    · exact le32_inj (by simp; omega) (by simp; omega) e5
    · exact le32_inj (by simp; omega) (by simp; omega) e6
    · exact le32_inj (by simp; omega) (by simp; omega) e7
    · exact le32_inj (by simp; omega) (by simp; omega) e8
    · exact le32_inj (by simp; omega) (by simp; omega) e9
    · exact le32_inj (by simp; omega) (by simp; omega) e10
    · exact le32_inj (by simp; omega) (by simp; omega) e11

/-- C100, SipHash: different keys give different objects. -/
theorem C100_siphash {sz : Int} {k k' buf0 buf0' : Bytes} {s : SipCtx} (h : sipNew sz k buf0 = .ok s)
    (h' : sipNew sz k' buf0' = .ok s) : k = k' := by
  unfold sipNew at h h'
  split at h
  case isFalse => exact absurd h (by simp)
  next hk =>
  split at h'
  case isFalse => exact absurd h' (by simp)
  next hk' =>
  have e : sipInit k (sz / 8).toNat buf0 = sipInit k' (sz / 8).toNat buf0' := by
    rw [Except.ok.inj h, Except.ok.inj h']
  have e0 := congrArg (fun s : SipCtx => s.buf.h.v0) e
  have e3 := congrArg (fun s : SipCtx => s.buf.h.v3) e
  have f0 : ∀ k b, (sipInit k (sz / 8).toNat b).buf.h.v0 = 0x736f6d6570736575 ^^^ le64or k := by
    intro k b; unfold sipInit; simp only; split <;> rfl
  have f3 : ∀ k b, (sipInit k (sz / 8).toNat b).buf.h.v3 = 0x7465646279746573 ^^^ le64or (k.drop 8) := by
    intro k b; unfold sipInit; simp only; split <;> rfl
  simp only [f0, f3] at e0 e3
  refine eq_of_takes (n := 8) 2 (by omega) (by omega) fun i hi => ?_
  obtain rfl | rfl : i = 0 ∨ i = 1 := by omega
  · exact le64or_inj (by simp; omega) (by simp; omega) (by simpa using e0)
  · exact le64or_inj (by simp; omega) (by simp; omega) (by simpa using e3)

/-- C100, BLAKE3: different keys give different objects. -/
theorem C100_blake3 {sz : Int} {k k' stack0 stack0' : Bytes} {s : Option B3Hasher}
    (h : b3New k sz stack0 = .ok s) (h' : b3New k' sz stack0' = .ok s) : k = k' := by
  unfold b3New at h h'
  split at h
  case isFalse => exact absurd h (by simp)
  next hk =>
  split at h'
  case isFalse => exact absurd h' (by simp)
  next hk' =>
  have e : b3Init k stack0 = b3Init k' stack0' := Option.some.inj (by rw [Except.ok.inj h, Except.ok.inj h'])
  unfold b3Init at e
  obtain ⟨_, _, hk⟩ := hk
  obtain ⟨_, _, hk'⟩ := hk'
  rcases hk with hk | hk <;> rcases hk' with hk' | hk'
  · rw [List.length_eq_zero_iff.1 hk, List.length_eq_zero_iff.1 hk']
  · rw [if_neg (by omega), if_pos hk'] at e
    have := congrArg (fun s : B3Hasher => s.chunk.flags) e
    exact absurd this (by simp [b3InitBase, b3ChunkInit, b3KeyedHash])
  · rw [if_pos hk, if_neg (by omega)] at e
    have := congrArg (fun s : B3Hasher => s.chunk.flags) e
    exact absurd this (by simp [b3InitBase, b3ChunkInit, b3KeyedHash])
  · rw [if_pos hk, if_pos hk'] at e
    have e := congrArg (fun s : B3Hasher => s.key) e
    simp only [b3InitBase, b3LoadKey] at e
    refine eq_of_takes (n := 4) 8 (by omega) (by omega) fun i hi => ?_
    have := List.map_inj_left.1 e i (List.mem_range.2 hi)
    exact le32or_inj (by simp; omega) (by simp; omega) this

theorem blake2_whole_key {w : Nat} {p : Blake2Code w} {n : Nat} {k k' buf0 buf0' : Bytes}
    {s : Blake2Ctx w} (hn : n < 256) (hw : 32 ≤ w) (hiv : 0 < p.iv.length) (hb : buf0.length = 16 * p.k)
    (hb' : buf0'.length = 16 * p.k) (hk : k.length ≤ 16 * p.k) (hk' : k'.length ≤ 16 * p.k)
    (hl : k.length ≤ 64) (hl' : k'.length ≤ 64)
    (h : blake2Init p n k buf0 = some s) (h' : blake2Init p n k' buf0' = some s) : k = k' := by
  have main : ∀ {k buf0 : Bytes}, buf0.length = 16 * p.k → k.length ≤ 16 * p.k →
      blake2Init p n k buf0 = some s →
      s.h.h.getD 0 0 = p.iv.getD 0 0 ^^^ BitVec.ofNat w (0x01010000 ||| (k.length <<< 8) ||| n)
      ∧ (0 < k.length → s.buffer.take k.length = k) := by
    intro k buf0 hb hk h
    unfold blake2Init at h
    simp only at h
    split at h
    · next hp =>
      have z : (List.replicate (16 * p.k) (0 : Byte)).length = 16 * p.k := List.length_replicate ..
      rw [show (0 : Int) = ((0 : Nat) : Int) from rfl, cWrite_ok (by rw [z]; omega), Option.bind_eq_bind,
        Option.bind_some, cWrite_ok (by rw [splice_length (by rw [z]; omega)]; omega)] at h
      have h := Option.some.inj h
      subst h
      refine ⟨by simp [hiv], fun _ => ?_⟩
      simp [splice]
    · next hp =>
      have h := Option.some.inj h
      subst h
      exact ⟨by simp [hiv], fun hc => absurd hc hp⟩
  obtain ⟨e1, e2⟩ := main hb hk h
  obtain ⟨e1', e2'⟩ := main hb' hk' h'
  rw [e1] at e1'
  have e := congrArg BitVec.toNat ((BitVec.xor_right_inj _).1 e1')
  have b1 : ∀ l, l ≤ 64 → (0x01010000 ||| (l <<< 8) ||| n) = 0x01010000 + l * 256 + n := by
    intro l hl
    have a1 : (0x01010000 : Nat) ||| (l <<< 8) = 0x01010000 + l <<< 8 := by
      have := Nat.shiftLeft_add_eq_or_of_lt (i := 16) (b := l <<< 8) (by rw [Nat.shiftLeft_eq]; omega) 0x0101
      rw [← show (0x0101 : Nat) <<< 16 = 0x01010000 from rfl]
      exact this.symm
    rw [a1, show (0x01010000 : Nat) + l <<< 8 = (0x010100 + l) <<< 8 by simp only [Nat.shiftLeft_eq]; omega,
      ← Nat.shiftLeft_add_eq_or_of_lt hn]
    simp only [Nat.shiftLeft_eq]; omega
  have hw' : 2 ^ 32 ≤ 2 ^ w := Nat.pow_le_pow_right (by decide) hw
  rw [BitVec.toNat_ofNat, BitVec.toNat_ofNat, b1 _ hl, b1 _ hl', Nat.mod_eq_of_lt (by omega),
    Nat.mod_eq_of_lt (by omega)] at e
  have hll : k.length = k'.length := by omega
  rcases Nat.eq_zero_or_pos k.length with h0 | h0
  · rw [List.length_eq_zero_iff.1 h0, List.length_eq_zero_iff.1 (hll.symm.trans h0)]
  · rw [← e2 h0, ← e2' (hll ▸ h0), hll]

/-- C100, BLAKE2b and BLAKE2s: different keys give different objects. -/
theorem C100_blake2 {sz : Int} {k k' buf0 buf0' : Bytes} :
    (∀ s, buf0.length = 128 → buf0'.length = 128 → blake2bNew sz k buf0 = .ok (some s) →
      blake2bNew sz k' buf0' = .ok (some s) → k = k')
    ∧ (∀ s, buf0.length = 64 → buf0'.length = 64 → blake2sNew sz k buf0 = .ok (some s) →
      blake2sNew sz k' buf0' = .ok (some s) → k = k') := by
  constructor
  · intro s hb hb' h h'
    unfold blake2bNew at h h'
    split at h
    case isFalse => exact absurd h (by simp)
    next hk =>
    split at h'
    case isFalse => exact absurd h' (by simp)
    next hk' =>
    have e1 : 16 * blake2bCode.k = 128 := rfl
    exact blake2_whole_key (by omega) (by omega) (by decide) (by omega) (by omega) (by omega) (by omega)
      (by omega) (by omega) (Except.ok.inj h) (Except.ok.inj h')
  · intro s hb hb' h h'
    unfold blake2sNew at h h'
    split at h
    case isFalse => exact absurd h (by simp)
    next hk =>
    split at h'
    case isFalse => exact absurd h' (by simp)
    next hk' =>
    have e1 : 16 * blake2sCode.k = 64 := rfl
    exact blake2_whole_key (by omega) (by omega) (by decide) (by omega) (by omega) (by omega) (by omega)
      (by omega) (by omega) (Except.ok.inj h) (Except.ok.inj h')

theorem expand_prefix (nk n : Nat) (w : List Bytes) : w <+: Spec.Aes.expand nk n w := by
  induction n generalizing w with
  | zero => exact List.prefix_refl _
  | succ n ih => exact (List.prefix_append _ _).trans (ih _)

theorem aesKey_prefix (key : Bytes) : key <+: (Spec.Aes.keyExpansion key).flatten := by
  obtain ⟨t, ht⟩ := expand_prefix (key.length / 4) (4 * (Spec.Aes.rounds (key.length / 4) + 1) - key.length / 4)
    (chunks 4 key)
  refine ⟨t.flatten, ?_⟩
  unfold Spec.Aes.keyExpansion
  simp only
  rw [← ht, List.flatten_append, chunks_flatten (by decide)]

theorem aes_same_length {k k' : Bytes} (hk : Rijndael.KeySize k) (hk' : Rijndael.KeySize k')
    (h : BitVec.ofNat 8 (Spec.Aes.rounds (k.length / 4)) = BitVec.ofNat 8 (Spec.Aes.rounds (k'.length / 4))) :
    k.length = k'.length := by
  have h := congrArg BitVec.toNat h
  simp only [BitVec.toNat_ofNat, Spec.Aes.rounds] at h
  rcases hk with hk | hk | hk <;> rcases hk' with hk' | hk' | hk' <;> rw [hk, hk'] at h ⊢ <;> omega

theorem prefix_same {k k' s : Bytes} (h : k <+: s) (h' : k' <+: s) (hl : k.length = k'.length) : k = k' := by
  rw [List.prefix_iff_eq_take.1 h, List.prefix_iff_eq_take.1 h', hl]

theorem flatMap_getD (ks : List Aesni.M128) : ∀ n, n = ks.length →
    ((List.range n).flatMap fun i => (ks.getD i Aesni.M128.zero).bytes) = ks.flatMap Aesni.M128.bytes := by
  intro n hn
  subst hn
  induction ks with
  | nil => rfl
  | cons k ks ih =>
    rw [List.length_cons, List.range_succ_eq_map, List.flatMap_cons, List.flatMap_map, List.flatMap_cons, ← ih]
    simp

theorem flatMap_bytes (ks : List Aesni.M128) :
    ks.flatMap Aesni.M128.bytes = (ks.flatMap Aesni.M128.words).flatten := by
  induction ks with
  | nil => rfl
  | cons x xs ih => rw [List.flatMap_cons, List.flatMap_cons, List.flatten_append, ← ih, Aesni.bytes_words]

/-- C100, AES encryption, with and without AES-NI instructions: different keys give different objects. -/
theorem C100_aes {host : Cipher.AesHost} {k k' : Bytes} {b : Cipher.AnyBlock}
    (h : Cipher.aesBlock host .encrypt k = some (.ok b)) (h' : Cipher.aesBlock host .encrypt k' = some (.ok b)) :
    k = k' := by
  cases host with
  | table junk =>
    have main : ∀ {k : Bytes}, Cipher.aesBlock (.table junk) .encrypt k = some (.ok b) →
        Rijndael.KeySize k ∧ b = ⟨Aes.encCipher, Aes.cookEnc junk k⟩ := by
      intro k h
      simp only [Cipher.aesBlock, Aes.encNew, Option.some.injEq] at h
      split at h
      · next hk => exact ⟨hk, (Except.ok.inj h).symm⟩
      · exact absurd h (by simp [Except.map])
    obtain ⟨hk, e⟩ := main h
    obtain ⟨hk', e'⟩ := main h'
    rw [e] at e'
    simp only [Cipher.AnyBlock.mk.injEq, heq_eq_eq, true_and] at e'
    have hp : ∀ {k : Bytes}, Rijndael.KeySize k → (Aes.cookEnc junk k).nr = BitVec.ofNat 8 (Spec.Aes.rounds (k.length / 4))
        ∧ k <+: ((Aes.cookEnc junk k).sched.map Rijndael.putU32).flatten := by
      intro k hk
      obtain ⟨h1, h2⟩ := Rijndael.keySetupEnc_eq hk
      refine ⟨congrArg (BitVec.ofNat 8) h2, ?_⟩
      have e : (Aes.cookEnc junk k).sched = (Rijndael.keySetupEnc k (8 * k.length)).1
        ++ junk.drop (Rijndael.keySetupEnc k (8 * k.length)).1.length := rfl
      rw [e, List.map_append, List.flatten_append, h1]
      exact (aesKey_prefix k).trans (List.prefix_append _ _)
    have p := hp hk
    have p' := hp hk'
    rw [← e'] at p'
    exact prefix_same p.2 p'.2 (aes_same_length hk hk' (p.1.symm.trans p'.1))
  | aesni junk pad =>
    have main : ∀ {k : Bytes}, Cipher.aesBlock (.aesni junk pad) .encrypt k = some (.ok b) →
        Rijndael.KeySize k ∧ ∃ c, Aesni.cookEnc junk k pad = some c ∧ b = ⟨Aesni.encCipher, c⟩ := by
      intro k h
      simp only [Cipher.aesBlock, Aesni.encNew] at h
      split at h
      · next hk =>
        refine ⟨hk, ?_⟩
        cases hc : Aesni.cookEnc junk k pad with
        | none => rw [hc] at h; exact absurd h (by simp)
        | some c =>
          rw [hc] at h
          exact ⟨c, rfl, (Except.ok.inj (Option.some.inj h)).symm⟩
      · exact absurd h (by simp [Except.map])
    obtain ⟨hk, c, hc, e⟩ := main h
    obtain ⟨hk', c', hc', e'⟩ := main h'
    rw [e] at e'
    simp only [Cipher.AnyBlock.mk.injEq, heq_eq_eq, true_and] at e'
    have hp : ∀ {k : Bytes} {c : Aesni.CKey}, Rijndael.KeySize k → Aesni.cookEnc junk k pad = some c →
        c.nr = BitVec.ofNat 8 (Spec.Aes.rounds (k.length / 4)) ∧ k <+: c.sched := by
      intro k c hk hc
      obtain ⟨ks, hks, hw⟩ := Aesni.keyExpansion_eq pad hk
      have hl := Rijndael.keyExpansion_length hk
      have hkl := Aesni.ks_length hw
      unfold Aesni.cookEnc at hc
      rw [hks] at hc
      have hc := Option.some.inj hc
      subst hc
      refine ⟨rfl, ?_⟩
      simp only
      rw [flatMap_getD ks _ (by omega)]
      refine List.IsPrefix.trans ?_ (List.prefix_append _ _)
      rw [flatMap_bytes, hw]
      exact aesKey_prefix k
    have p := hp hk hc
    have p' := hp hk' hc'
    rw [← e'] at p'
    exact prefix_same p.2 p'.2 (aes_same_length hk hk' (p.1.symm.trans p'.1))

/-- Objects to which the theorems above apply exist. -/
example : (∃ t, Cipher.chacha20 Example.env64 none none (List.replicate 16 7) .encrypt = .ok t)
    ∧ (∃ s, sipNew 64 (List.replicate 16 7) [] = .ok s)
    ∧ (∃ s, b3New (List.replicate 32 7) 256 [] = .ok s)
    ∧ (∃ s, blake2bNew 512 [1, 2, 3] (List.replicate 128 0) = .ok (some s))
    ∧ (∃ b, Cipher.aesBlock (.table []) .encrypt (List.replicate 24 7) = some (.ok b)) := by
  refine ⟨⟨_, rfl⟩, ⟨_, if_pos (by decide)⟩, ⟨_, if_pos (by decide)⟩, ?_, ?_⟩
  · have e : blake2bNew 512 [1, 2, 3] (List.replicate 128 0)
        = .ok (blake2Init blake2bCode 64 [1, 2, 3] (List.replicate 128 0)) := if_pos (by decide)
    rw [e]
    have : ∃ s, blake2Init blake2bCode 64 [1, 2, 3] (List.replicate 128 0) = some s :=
      Option.isSome_iff_exists.1 (by decide +kernel)
    obtain ⟨s, hs⟩ := this
    exact ⟨s, by rw [hs]⟩
  · unfold Cipher.aesBlock Aes.encNew
    simp only
    rw [if_pos (by decide)]
    exact ⟨_, rfl⟩

end Verif
