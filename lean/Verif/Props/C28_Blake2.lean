import Verif.Proof.Blake2
import Verif.Props.C22_C24_SHA
/-
C28: `Hash.blake2b`, `Hash.blake2s` and the keyed `MAC.blake2b`, `MAC.blake2s` compute RFC 7693.
-/
namespace Verif

/-- C28 for BLAKE2b: any object built by the constructor, after any legal additions, returns
BLAKE2b of the concatenation, for the size and key given. -/
theorem C28_blake2b (sz : Int) (key buf0 : Bytes) (s : Option (Blake2Ctx 64))
    (h : blake2bNew sz key buf0 = .ok s) (hb : buf0.length = 128) :
    ∃ x, s = some x ∧
      (blake2Class blake2bCode sz).Computes x (Spec.BLAKE2b (sz / 8).toNat key) := by
  unfold blake2bNew at h
  split at h
  · next hk =>
    obtain ⟨h1, h2, h3, h4⟩ := hk
    cases h
    obtain ⟨x, hx, hr⟩ := blake2Rep_init blake2b_conf (nn := (sz / 8).toNat) (key := key)
      (buf0 := buf0) hb (by show key.length ≤ 128; omega)
    exact ⟨x, hx, stubHash_computes (blake2_spec blake2b_conf
      (by show key.length ≤ 64; omega) (by show (sz / 8).toNat ≤ 64; omega)
      (blake2_param 64 (by omega) (by omega))) hr⟩
  · cases h

/-- C28 for BLAKE2s. -/
theorem C28_blake2s (sz : Int) (key buf0 : Bytes) (s : Option (Blake2Ctx 32))
    (h : blake2sNew sz key buf0 = .ok s) (hb : buf0.length = 64) :
    ∃ x, s = some x ∧
      (blake2Class blake2sCode sz).Computes x (Spec.BLAKE2s (sz / 8).toNat key) := by
  unfold blake2sNew at h
  split at h
  · next hk =>
    obtain ⟨h1, h2, h3, h4⟩ := hk
    cases h
    obtain ⟨x, hx, hr⟩ := blake2Rep_init blake2s_conf (nn := (sz / 8).toNat) (key := key)
      (buf0 := buf0) hb (by show key.length ≤ 64; omega)
    exact ⟨x, hx, stubHash_computes (blake2_spec blake2s_conf
      (by show key.length ≤ 32; omega) (by show (sz / 8).toNat ≤ 32; omega)
      (blake2_param 32 (by omega) (by omega))) hr⟩
  · cases h

/-- C14 for BLAKE2b: digest sizes are the positive multiples of 8 bits up to 512, keys have at
most 64 bytes; everything else raises `Wrong_key_size`. -/
theorem C14_blake2b_args (sz : Int) (key buf0 : Bytes) :
    blake2bNew sz key buf0 = .error (.error .wrongKeySize) ↔
      ¬ ((∃ n : Nat, 1 ≤ n ∧ n ≤ 64 ∧ sz = 8 * n) ∧ key.length ≤ 64) := by
  unfold blake2bNew
  split
  · next h =>
    simp only [reduceCtorEq, false_iff, Classical.not_not]
    exact ⟨⟨(sz / 8).toNat, by omega, by omega, by omega⟩, h.2.2.2⟩
  · next h =>
    simp only [true_iff]
    rintro ⟨⟨n, h1, h2, h3⟩, h4⟩
    exact h ⟨by omega, by omega, by omega, h4⟩

/-- C14 for BLAKE2s: digest sizes are the positive multiples of 8 bits up to 256, keys have at
most 32 bytes. -/
theorem C14_blake2s_args (sz : Int) (key buf0 : Bytes) :
    blake2sNew sz key buf0 = .error (.error .wrongKeySize) ↔
      ¬ ((∃ n : Nat, 1 ≤ n ∧ n ≤ 32 ∧ sz = 8 * n) ∧ key.length ≤ 32) := by
  unfold blake2sNew
  split
  · next h =>
    simp only [reduceCtorEq, false_iff, Classical.not_not]
    exact ⟨⟨(sz / 8).toNat, by omega, by omega, by omega⟩, h.2.2.2⟩
  · next h =>
    simp only [true_iff]
    rintro ⟨⟨n, h1, h2, h3⟩, h4⟩
    exact h ⟨by omega, by omega, by omega, h4⟩

namespace Example

set_option maxRecDepth 100000 in
/-- RFC 7693 appendix A: BLAKE2b-512 of "abc", obtained by running the model on `hops`. -/
theorem blake2b_abc : Spec.BLAKE2b 64 [] (ascii "abc") = natToBE 64
    0xba80a53f981c4d0d6a2797b69f12f6e94c212f14685ac4b74b12bb6fdbffa2d17d87c5392aab792dc252d5de4533cc9518d38aa8dbf1925ab92386edd4009923 := by
  obtain ⟨x, hx, h⟩ := C28_blake2b 512 [] (List.replicate 128 0x55) _ rfl (by decide)
  have h := h hops hops_legal
  have e : (blake2Init blake2bCode 64 [] (List.replicate 128 0x55)).map (fun x =>
      ((blake2Class blake2bCode 512).digest hops x).observe) = some (some (.ok (natToBE 64
    0xba80a53f981c4d0d6a2797b69f12f6e94c212f14685ac4b74b12bb6fdbffa2d17d87c5392aab792dc252d5de4533cc9518d38aa8dbf1925ab92386edd4009923))) := by
    decide +kernel
  rw [show (512 / 8 : Int).toNat = 64 by decide] at hx h
  rw [hx, Option.map_some, h, hops_input] at e
  exact Except.ok.inj (Option.some.inj (Option.some.inj e))

set_option maxRecDepth 100000 in
/-- RFC 7693 appendix B: BLAKE2s-256 of "abc". -/
theorem blake2s_abc : Spec.BLAKE2s 32 [] (ascii "abc") = natToBE 32
    0x508c5e8c327c14e2e1a72ba34eeb452f37458b209ed63a294d999b4c86675982 := by
  obtain ⟨x, hx, h⟩ := C28_blake2s 256 [] (List.replicate 64 0x55) _ rfl (by decide)
  have h := h hops hops_legal
  have e : (blake2Init blake2sCode 32 [] (List.replicate 64 0x55)).map (fun x =>
      ((blake2Class blake2sCode 256).digest hops x).observe) = some (some (.ok (natToBE 32
    0x508c5e8c327c14e2e1a72ba34eeb452f37458b209ed63a294d999b4c86675982))) := by
    decide +kernel
  rw [show (256 / 8 : Int).toNat = 32 by decide] at hx h
  rw [hx, Option.map_some, h, hops_input] at e
  exact Except.ok.inj (Option.some.inj (Option.some.inj e))

/-- A keyed 160-bit BLAKE2b is accepted. -/
example : (blake2bNew 160 (ascii "secret") (List.replicate 128 0)).toOption.isSome = true := by
  decide +kernel

end Example

end Verif
