import Verif.Props.C57_C58_DH
import Verif.Props.C79_Collision
/-
C85: keys derived from different data are different, unless SHA-256 has a collision.
-/
namespace Verif

namespace Spec

/-- A message as SHA-256 pads it, FIPS 180-4 section 5.1.1. -/
def pad256 (m : Bytes) : Bytes := mdPad 64 m (natToBE 8 (8 * m.length))

/-- `m` and `m'` are different messages, and their SHA-256 digests are computed by the compression
function with a collision. -/
def Sha256Collision (m m' : Bytes) : Prop :=
  m ≠ m' ∧ SHA256 m = SHA256 m' ∧
    CompressionCollision 64 (sha2Compress params256 4) IV256 (pad256 m) (pad256 m')

end Spec

open Spec

theorem sha256_collision {m m' : Bytes} (hm : m.length < 2 ^ 61) (hm' : m'.length < 2 ^ 61)
    (hne : m ≠ m') (e : SHA256 m = SHA256 m') : Sha256Collision m m' := by
  refine ⟨hne, e, md_collision (by decide) (sha2Compress params256 4) IV256
    (fun x => natToBE 8 (8 * x)) (k := 8) (by decide) (fun x => natToBE_length _ _) hne
    (fun e => ?_) ?_⟩
  · have := natToBE_inj (by omega) (by omega) e
    omega
  · exact h8_inj (f := fun x => natToBE 4 x.toNat) (fun x => natToBE_length _ _)
      (fun x y => wordBE_inj (by decide) x y) e

theorem deriveKey_first {d s : Bytes} {n : Nat} (h : 32 ≤ n) :
    (Spec.deriveKey d s n).take 32 = SHA256 (d ++ s ++ ascii "1") := by
  rw [← C58_derive_key_prefix d s h]
  show (deriveBlocks d s ((32 + 31) / 32)).take 32 = _
  rw [show (32 + 31) / 32 = 0 + 1 from rfl, deriveBlocks_succ]
  rw [show deriveBlocks d s 0 = [] from rfl, List.nil_append]
  exact List.take_of_length_le (by rw [SHA256_length])

/-- C85 when the strings `diversification ^ secret` are different: equal keys of at least 32 bytes,
from calls of `derive_key` with any number of bytes, come from a collision of SHA-256 on the strings
`diversification ^ secret ^ "1"`. What is missing: the pairs `(diversification, secret)` that are
different but have the same concatenation, which always give the same key
(`C85_ambiguous_concatenation`). -/
theorem C85_derive_key_partial (env : Env) (hmax : env.maxLen ≤ maxString) (buf0 buf0' : Bytes)
    (hb : buf0.length = 64) (hb' : buf0'.length = 64) (d s d' s' : Bytes)
    (hl : d.length + s.length + 18 ≤ maxString) (hl' : d'.length + s'.length + 18 ≤ maxString)
    (n n' : Nat) (hn : n ≤ env.maxLen) (hn' : n' ≤ env.maxLen) (h32 : 32 ≤ n) (h32' : 32 ≤ n')
    (hne : d ++ s ≠ d' ++ s') (k k' : Bytes)
    (hk : dhDeriveKey env buf0 d s n () = .ok k ()) (hk' : dhDeriveKey env buf0' d' s' n' () = .ok k' ())
    (he : k.take 32 = k'.take 32) :
    Sha256Collision (d ++ s ++ ascii "1") (d' ++ s' ++ ascii "1") := by
  rw [C58_derive_key env hmax buf0 hb d s hl n hn] at hk
  rw [C58_derive_key env hmax buf0' hb' d' s' hl' n' hn'] at hk'
  cases hk
  cases hk'
  rw [deriveKey_first h32, deriveKey_first h32'] at he
  have hm : maxString < 2 ^ 61 := by decide
  have h1 : (ascii "1").length = 1 := by decide
  refine sha256_collision ?_ ?_ (fun h => hne (List.append_cancel_right h)) he
  · simp only [List.length_append, h1]; omega
  · simp only [List.length_append, h1]; omega

/-- C85 for two keys derived from the same secret with different diversification strings. -/
theorem C85_same_secret (env : Env) (hmax : env.maxLen ≤ maxString) (buf0 buf0' : Bytes)
    (hb : buf0.length = 64) (hb' : buf0'.length = 64) (d d' s : Bytes)
    (hl : d.length + s.length + 18 ≤ maxString) (hl' : d'.length + s.length + 18 ≤ maxString)
    (n : Nat) (hn : n ≤ env.maxLen) (h32 : 32 ≤ n) (hne : d ≠ d')
    (he : dhDeriveKey env buf0 d s n () = dhDeriveKey env buf0' d' s n ()) :
    Sha256Collision (d ++ s ++ ascii "1") (d' ++ s ++ ascii "1") :=
  C85_derive_key_partial env hmax buf0 buf0' hb hb' d s d' s hl hl' n n hn hn h32 h32
    (fun h => hne (List.append_cancel_right h)) _ _ (C58_derive_key env hmax buf0 hb d s hl n hn)
    (he ▸ C58_derive_key env hmax buf0 hb d s hl n hn) rfl

/-- C85 for two keys derived with the same diversification string from different secrets. -/
theorem C85_same_diversification (env : Env) (hmax : env.maxLen ≤ maxString) (buf0 buf0' : Bytes)
    (hb : buf0.length = 64) (hb' : buf0'.length = 64) (d s s' : Bytes)
    (hl : d.length + s.length + 18 ≤ maxString) (hl' : d.length + s'.length + 18 ≤ maxString)
    (n : Nat) (hn : n ≤ env.maxLen) (h32 : 32 ≤ n) (hne : s ≠ s')
    (he : dhDeriveKey env buf0 d s n () = dhDeriveKey env buf0' d s' n ()) :
    Sha256Collision (d ++ s ++ ascii "1") (d ++ s' ++ ascii "1") :=
  C85_derive_key_partial env hmax buf0 buf0' hb hb' d s d s' hl hl' n n hn hn h32 h32
    (fun h => hne (List.append_cancel_left h)) _ _ (C58_derive_key env hmax buf0 hb d s hl n hn)
    (he ▸ C58_derive_key env hmax buf0 hb d s hl n hn) rfl

/-- C85 is false of different pairs with the same concatenation: any part `t` can be moved from the
end of the diversification string to the beginning of the secret, and the key stays the same. -/
theorem C85_ambiguous_concatenation (env : Env) (hmax : env.maxLen ≤ maxString)
    (buf0 buf0' : Bytes) (hb : buf0.length = 64) (hb' : buf0'.length = 64) (d t s : Bytes)
    (hl : d.length + t.length + s.length + 18 ≤ maxString) (n : Nat) (hn : n ≤ env.maxLen) :
    dhDeriveKey env buf0 (d ++ t) s n () = dhDeriveKey env buf0' d (t ++ s) n () := by
  rw [C58_derive_key env hmax buf0 hb _ _ (by rw [List.length_append]; omega) n hn,
    C58_derive_key env hmax buf0' hb' _ _ (by rw [List.length_append]; omega) n hn]
  unfold Spec.deriveKey Spec.deriveBlocks
  simp only [List.append_assoc]

theorem digit_roundtrip {c : Char} (h : c.isDigit = true) :
    Char.ofNat (BitVec.ofNat 8 c.toNat).toNat = c := by
  have h1 : c.toNat < 256 := by
    have := (Char.isDigit_iff_toNat.1 h).2
    simp at this ⊢
    omega
  rw [BitVec.toNat_ofNat, Nat.mod_eq_of_lt h1, Char.ofNat_toNat]

theorem stringOfNat_inj {m n : Nat} (h : stringOfNat m = stringOfNat n) : m = n := by
  have key : ∀ n, (stringOfNat n).map (fun b => Char.ofNat b.toNat) = Nat.toDigits 10 n := by
    intro n
    unfold stringOfNat
    rw [List.map_map]
    conv_rhs => rw [← List.map_id (Nat.toDigits 10 n)]
    apply List.map_congr_left
    intro c hc
    exact digit_roundtrip (Nat.isDigit_of_mem_toDigits (by decide) (by decide) hc)
  have h2 := congrArg (List.map fun b => Char.ofNat b.toNat) h
  rw [key, key] at h2
  have h3 := congrArg (fun l => Nat.ofDigitChars 10 l 0) h2
  simpa only [Nat.ofDigitChars_ten_toDigits] using h3

theorem deriveKey_block {d s : Bytes} {n i : Nat} (h : 32 * (i + 1) ≤ n) :
    ((Spec.deriveKey d s n).drop (32 * i)).take 32 = SHA256 (d ++ s ++ ascii (toString (i + 1))) := by
  have e1 : Spec.deriveKey d s (32 * (i + 1)) = deriveBlocks d s (i + 1) := by
    unfold Spec.deriveKey
    rw [show (32 * (i + 1) + 31) / 32 = i + 1 by omega]
    exact List.take_of_length_le (by rw [deriveBlocks_length])
  have e2 := C58_derive_key_prefix d s h
  rw [e1, deriveBlocks_succ] at e2
  have e3 : ((Spec.deriveKey d s n).drop (32 * i)).take 32
      = ((Spec.deriveKey d s n).take (32 * (i + 1))).drop (32 * i) := by
    rw [List.drop_take]
    congr 1
    omega
  rw [e3, ← e2, List.drop_left' (deriveBlocks_length _ _ _)]

/-- C85: the 32-byte blocks of a derived key differ from one another, unless SHA-256 has a collision:
the parts of one long key can be used as several keys. -/
theorem C85_blocks_differ (env : Env) (hmax : env.maxLen ≤ maxString) (buf0 : Bytes)
    (hb : buf0.length = 64) (d s : Bytes) (hl : d.length + s.length + 18 ≤ maxString) (n : Nat)
    (hn : n ≤ env.maxLen) (k : Bytes) (hk : dhDeriveKey env buf0 d s n () = .ok k ())
    (i j : Nat) (hi : 32 * (i + 1) ≤ n) (hj : 32 * (j + 1) ≤ n) (hij : i ≠ j)
    (he : (k.drop (32 * i)).take 32 = (k.drop (32 * j)).take 32) :
    Sha256Collision (d ++ s ++ ascii (toString (i + 1))) (d ++ s ++ ascii (toString (j + 1))) := by
  rw [C58_derive_key env hmax buf0 hb d s hl n hn] at hk
  cases hk
  rw [deriveKey_block hi, deriveKey_block hj] at he
  have hm : maxString < 32 * (10 ^ 18 - 1) := by decide
  have hm' : maxString < 2 ^ 61 := by decide
  rw [← stringOfNat_eq, ← stringOfNat_eq] at he ⊢
  have l1 := stringOfNat_length (n := i + 1) (by omega)
  have l2 := stringOfNat_length (n := j + 1) (by omega)
  refine sha256_collision ?_ ?_ (fun h => hij ?_) he
  · simp only [List.length_append]; omega
  · simp only [List.length_append]; omega
  · have := stringOfNat_inj (List.append_cancel_left h)
    omega

/-! ### Non-vacuity

No collision of SHA-256 is known, so the hypothesis that two keys are equal is only known to be met by
the ambiguous concatenations. The other hypotheses are met by the keys below. -/

namespace Example

example : dhDeriveKey Example.env64 (List.replicate 64 0) (ascii "a" ++ ascii "b") (ascii "c") 40 ()
    = dhDeriveKey Example.env64 (List.replicate 64 1) (ascii "a") (ascii "b" ++ ascii "c") 40 () :=
  C85_ambiguous_concatenation _ (by decide) _ _ (by decide) (by decide) (ascii "a") (ascii "b")
    (ascii "c") (by decide) 40 (by decide)

/-- Keys of 40 bytes for two purposes: all the hypotheses but the equality are met. -/
example : ∃ k k', dhDeriveKey Example.env64 (List.replicate 64 0) (ascii "enc") (ascii "secret") 40 ()
      = .ok k () ∧
    dhDeriveKey Example.env64 (List.replicate 64 0) (ascii "mac") (ascii "secret") 40 () = .ok k' () ∧
    (k.take 32 = k'.take 32 → Sha256Collision (ascii "enc" ++ ascii "secret" ++ ascii "1")
      (ascii "mac" ++ ascii "secret" ++ ascii "1")) := by
  have h1 := C58_derive_key Example.env64 (by decide) (List.replicate 64 0) (by decide) (ascii "enc")
    (ascii "secret") (by decide) 40 (by decide)
  have h2 := C58_derive_key Example.env64 (by decide) (List.replicate 64 0) (by decide) (ascii "mac")
    (ascii "secret") (by decide) 40 (by decide)
  exact ⟨_, _, h1, h2, C85_derive_key_partial Example.env64 (by decide) _ _ (by decide) (by decide)
    (ascii "enc") (ascii "secret") (ascii "mac") (ascii "secret") (by decide) (by decide) 40 40
    (by decide) (by decide) (by decide) (by decide) (by decide) _ _ h1 h2⟩

end Example

end Verif
