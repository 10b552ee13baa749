import Mathlib.Logic.Function.Iterate
import Verif.Proof.GcmAuth
import Verif.Props.C37_AuthCheck
import Verif.Props.Example
/-
C34: AES-GCM conforms to SP 800-38D; C36, C37, C38 for AES-GCM.

`aes` is the object `new Block.aes_encrypt key` and `E` the function it computes on blocks: see
C41 for AES.
-/
namespace Verif

open Spec Spec.GCM

variable {κ : Type} {aes : BlockCipher κ} {k : κ} {E : Bytes → Bytes}

/-- C34, encryption: for every header, IV of any length, message and history of calls, the
output is the ciphertext of SP 800-38D and its tag; `Message_too_long` is raised exactly for
messages over 2^39 - 256 bits. -/
theorem C34_gcm_encrypt (env : Env) (pclmul : Bool) (h : PureCipher aes k E)
    (hb : aes.blocksize = 16) (header iv : Bytes) (ops : List TOp) (hops : ∀ op ∈ ops, op.Legal)
    (hm : 256 ≤ env.maxLen) (hfit : (inputOf ops).length ≤ env.maxLen) :
    ∃ t, aesGcmInit env pclmul aes k header iv = .ok t k
      ∧ ((aesGcm env aes .encrypt).total ops t).observe
        = some (if (inputOf ops).length ≤ maxPlaintext then
            .ok (crypt E iv (inputOf ops), tag E iv header (crypt E iv (inputOf ops)))
          else .error (.error .messageTooLong)) := by
  obtain ⟨s, e0, hs, e1, e2, e3, e4, e5⟩ := gcmInit_ok env pclmul h hb header iv
  refine ⟨_, by simp only [aesGcmInit, e0]; rfl, ?_⟩
  have hR := blockRep_init (c := gcmEncWrapped aes) (inv := GcmInv k (subkey E)) env hs
    (by rw [show (gcmEncWrapped aes).blocksize = 16 from rfl]; omega)
  have ht := (gcmEnc_refines env h hb (subkey E)).total (blockSpec_lawful (by decide) _) ops hR hops
  have hd := gcmEnc_data h hb hs e1 e2 e3 e4 e5 (inputOf ops)
  by_cases hl : (inputOf ops).length ≤ maxPlaintext
  · rw [if_pos hl] at hd ⊢
    rw [hd] at ht
    obtain ⟨t', h1⟩ := ht (by rw [crypt_length h hb]; exact hfit)
    rw [h1]; rfl
  · rw [if_neg hl] at hd ⊢
    obtain ⟨o, hd, ho⟩ := hd
    rw [hd] at ht
    obtain ⟨t', h1⟩ := ht (by omega)
    rw [h1]; rfl

/-- C34, decryption: the output is the plaintext and the tag of the input. -/
theorem C34_gcm_decrypt (env : Env) (pclmul : Bool) (h : PureCipher aes k E)
    (hb : aes.blocksize = 16) (header iv : Bytes) (ops : List TOp) (hops : ∀ op ∈ ops, op.Legal)
    (hm : 256 ≤ env.maxLen) (hfit : (inputOf ops).length ≤ env.maxLen) :
    ∃ t, aesGcmInit env pclmul aes k header iv = .ok t k
      ∧ ((aesGcm env aes .decrypt).total ops t).observe
        = some (.ok (crypt E iv (inputOf ops), tag E iv header (inputOf ops))) := by
  obtain ⟨s, e0, hs, e1, e2, e3, e4, e5⟩ := gcmInit_ok env pclmul h hb header iv
  refine ⟨_, by simp only [aesGcmInit, e0]; rfl, ?_⟩
  have hR := blockRep_init (c := gcmDecWrapped aes) (inv := GcmInv k (subkey E)) env hs
    (by rw [show (gcmDecWrapped aes).blocksize = 16 from rfl]; omega)
  have ht := (gcmDec_refines env h hb (subkey E)).total (blockSpec_lawful (by decide) _) ops hR hops
  rw [gcmDec_data e1 e2 e3 e4 e5 (inputOf ops)] at ht
  obtain ⟨t', h1⟩ := ht (by rw [crypt_length h hb]; exact hfit)
  exact congrArg Out.observe h1

/-- C37 for AES-GCM: the check accepts exactly the strings `text ++ tag` whose last 16 bytes are
the tag of `text`, and returns the decrypted text. -/
theorem C37_gcm (env : Env) (pclmul : Bool) (h : PureCipher aes k E)
    (hb : aes.blocksize = 16) (header iv s : Bytes) (hm : 256 ≤ env.maxLen)
    (hfit : s.length ≤ env.maxLen) :
    ∃ t, aesGcmInit env pclmul aes k header iv = .ok t k
      ∧ (authCheckTransformString (aesGcm env aes .decrypt) s t).observe
        = some (if s.length < 16 then .error (.error .wrongDataLength)
            else .ok (if tag E iv header (s.take (s.length - 16)) = s.drop (s.length - 16)
              then some (crypt E iv (s.take (s.length - 16))) else none)) := by
  obtain ⟨g, e0, hs, e1, e2, e3, e4, e5⟩ := gcmInit_ok env pclmul h hb header iv
  refine ⟨_, by simp only [aesGcmInit, e0]; rfl, ?_⟩
  by_cases hl : s.length < 16
  · rw [if_pos hl, C37_too_short (aesGcm env aes .decrypt) s _ hl]; rfl
  · rw [if_neg hl]
    have hR := blockRep_init (c := gcmDecWrapped aes) (inv := GcmInv k (subkey E)) env hs
      (by rw [show (gcmDecWrapped aes).blocksize = 16 from rfl]; omega)
    have ht := (gcmDec_refines env h hb (subkey E)).check (s.take (s.length - 16))
      (s.drop (s.length - 16)) (show _ = 16 by rw [List.length_drop]; omega) hR
    rw [gcmDec_data e1 e2 e3 e4 e5, List.take_append_drop] at ht
    exact ht (by rw [crypt_length h hb, List.length_take]; omega)

theorem xor_twice {x e : Bytes} (h : x.length ≤ e.length) : xorb (xorb x e) e = x := by
  induction x generalizing e with
  | nil => simp [xorb]
  | cons a x ih =>
    cases e with
    | nil => simp at h
    | cons b e =>
      have := ih (e := e) (by simpa using h)
      simp only [xorb, List.zipWith_cons_cons] at this ⊢
      rw [this]
      congr 1
      rw [BitVec.xor_assoc, BitVec.xor_self, BitVec.xor_zero]

/-- Decryption undoes encryption. -/
theorem crypt_crypt (h : PureCipher aes k E) (hb : aes.blocksize = 16) (iv m : Bytes) :
    crypt E iv (crypt E iv m) = m := by
  have hE : ∀ x : Bytes, x.length = 16 → (E x).length = 16 := fun x hx => pure_len h hb hx
  have hJ := inc32_length (J0_length E iv)
  have key : ∀ (bs : List Bytes) (_ : ∀ b ∈ bs, b.length ≤ 16) (cb : Bytes), cb.length = 16 →
      gctr E cb (gctrBlocks E cb bs) = bs.flatten := by
    intro bs
    induction bs with
    | nil => intro _ _ _; rfl
    | cons b bs ih =>
      intro hbs cb hc
      simp only [gctrBlocks, gctr, List.flatten_cons]
      rw [ih (fun b' hb' => hbs b' (by simp [hb'])) _ (inc32_length hc),
        xor_twice (by have := hbs b (by simp); have := hE cb hc; omega)]
  conv => lhs; unfold crypt
  rw [show chunks 16 (gctr E (inc32 (J0 E iv)) (chunks 16 m)) = _ from chunks_gctr hE _ _ hJ,
    key _ (chunks_mem_length (by decide) m) _ hJ, chunks_flat]

/-- C36 for AES-GCM: what `auth_transform_string` encrypts, `auth_check_transform_string`
accepts and decrypts. -/
theorem C36_gcm_roundtrip (env : Env) (pclmul pclmul' : Bool) (h : PureCipher aes k E)
    (hb : aes.blocksize = 16) (header iv m : Bytes) (hm : m.length ≤ maxPlaintext)
    (hfit : m.length + 16 ≤ env.maxLen) (h256 : 256 ≤ env.maxLen) :
    ∃ t t' c t1, aesGcmInit env pclmul aes k header iv = .ok t k
      ∧ authTransformString (aesGcm env aes .encrypt) m t = .ok c t1
      ∧ aesGcmInit env pclmul' aes k header iv = .ok t' k
      ∧ (authCheckTransformString (aesGcm env aes .decrypt) c t').observe
        = some (.ok (some m)) := by
  obtain ⟨s, e0, hs, e1, e2, e3, e4, e5⟩ := gcmInit_ok env pclmul h hb header iv
  have hR := blockRep_init (c := gcmEncWrapped aes) (inv := GcmInv k (subkey E)) env hs
    (by rw [show (gcmEncWrapped aes).blocksize = 16 from rfl]; omega)
  have ht := (gcmEnc_refines env h hb (subkey E)).detached m hR
  have hd := gcmEnc_data h hb hs e1 e2 e3 e4 e5 m
  rw [if_pos hm] at hd
  rw [hd] at ht
  have hcl := crypt_length h hb iv m
  obtain ⟨t1, h1⟩ := ht (by omega)
  have htl : (tag E iv header (crypt E iv m)).length = 16 := by
    have := pure_len h hb (J0_length E iv)
    have hg : ∀ (X : Bytes), (ghash (subkey E) X).length = 16 := by
      intro X
      have : ∀ (bs : List Bytes) (y : Bytes), y.length = 16 →
          (bs.foldl (fun y x => ghashMul (xorb y x) (subkey E)) y).length = 16 := by
        intro bs
        induction bs with
        | nil => exact fun y hy => hy
        | cons b bs ih => exact fun y _ => ih _ (ghashMul_length _ _)
      exact this _ _ (by simp)
    simp only [tag, gctr, List.append_nil, xorb_length, hg, this]
    rfl
  have hl : (crypt E iv m ++ tag E iv header (crypt E iv m)).length = m.length + 16 := by
    rw [List.length_append, hcl, htl]
  obtain ⟨t', h2, h3⟩ := C37_gcm env pclmul' h hb header iv
    (crypt E iv m ++ tag E iv header (crypt E iv m)) h256 (by omega)
  refine ⟨_, t', crypt E iv m ++ tag E iv header (crypt E iv m), t1,
    by simp only [aesGcmInit, e0]; rfl, ?_, h2, ?_⟩
  · rw [authTransformString, M.bind_ok h1]; rfl
  · rw [h3, if_neg (by omega), hl]
    have hd1 : m.length + 16 - 16 = (crypt E iv m).length := by omega
    rw [hd1, List.take_left, List.drop_left, if_pos rfl, crypt_crypt h hb]

theorem inc32_iter (x : Bytes) (hx : x.length = 16) (i : Nat) :
    (inc32^[i] x).length = 16 ∧ (inc32^[i] x).take 12 = x.take 12
      ∧ beNat ((inc32^[i] x).drop 12) = (beNat (x.drop 12) + i) % 2 ^ 32 := by
  induction i with
  | zero =>
    refine ⟨hx, rfl, ?_⟩
    have := beNat_lt (x.drop 12)
    rw [List.length_drop, hx] at this
    exact (Nat.mod_eq_of_lt this).symm
  | succ i ih =>
    obtain ⟨h1, h2, h3⟩ := ih
    rw [Function.iterate_succ_apply']
    have hd : ((inc32^[i] x).take 12).length = 12 := by rw [List.length_take]; omega
    refine ⟨inc32_length h1, ?_, ?_⟩
    · rw [inc32, List.take_append_of_le_length (by omega), List.take_of_length_le (by omega), h2]
    · rw [inc32, List.drop_append_of_le_length (by omega), List.drop_of_length_le (by omega),
        List.nil_append, beNat_natToBE, h3]
      omega

/-- C38 for AES-GCM: the counter blocks used for the tag (`J0`) and for the blocks of a message
that is not rejected are pairwise different. -/
theorem C38_gcm_counters (E : Bytes → Bytes) (iv m : Bytes) (hm : m.length ≤ maxPlaintext)
    (i j : Nat) (hi : i ≤ (chunks 16 m).length) (hj : j ≤ (chunks 16 m).length)
    (h : inc32^[i] (J0 E iv) = inc32^[j] (J0 E iv)) : i = j := by
  have hJ := J0_length E iv
  obtain ⟨_, _, h1⟩ := inc32_iter (J0 E iv) hJ i
  obtain ⟨_, _, h2⟩ := inc32_iter (J0 E iv) hJ j
  rw [h, h2] at h1
  have hl : (chunks 16 m).length = (m.length + 15) / 16 := chunks_length (by decide) m
  have hx : maxPlaintext = 0xfffffffe0 := by decide
  omega

/-- The `i`-th block of the output is the `i`-th block of the input xored with the cipher of the
counter block `inc32^[i + 1] J0`. -/
theorem C38_gcm_blocks (E : Bytes → Bytes) (iv : Bytes) (m : Bytes) :
    crypt E iv m = (((chunks 16 m).zipIdx).map
      (fun p => xorb p.1 (E (inc32^[p.2 + 1] (J0 E iv))))).flatten := by
  have key : ∀ (bs : List Bytes) (n : Nat), gctr E (inc32^[n + 1] (J0 E iv)) bs
      = ((bs.zipIdx n).map (fun p => xorb p.1 (E (inc32^[p.2 + 1] (J0 E iv))))).flatten := by
    intro bs
    induction bs with
    | nil => intro n; rfl
    | cons b bs ih =>
      intro n
      simp only [gctr, List.zipIdx_cons, List.map_cons, List.flatten_cons]
      rw [← ih (n + 1), ← Function.iterate_succ_apply' inc32 (n + 1)]
  exact key _ 0

namespace Example

/-- A block cipher on 16-byte blocks. -/
def gcmToy (k b : Bytes) : Bytes := (xorb b k).reverse
def gcmToyEnc : BlockCipher Bytes := checkedCipher 16 (fun k b => some (gcmToy k b)) (fun _ => []) id
def gcmKey : Bytes := [1, 2, 3, 4, 5, 6, 7, 8, 9, 10, 11, 12, 13, 14, 15, 16]

theorem gcmToyEnc_pure : PureCipher gcmToyEnc gcmKey (gcmToy gcmKey) :=
  checkedCipher_pure (Es := []) (by decide) (fun _ _ => rfl) (fun _ _ => rfl)
    (by intro b hb; simp [gcmToy, gcmKey, hb]) (by simp)

end Example

example : ∃ t, aesGcmInit Example.env64 true Example.gcmToyEnc Example.gcmKey [1, 2] [9, 9, 9]
      = .ok t Example.gcmKey
    ∧ ((aesGcm Example.env64 Example.gcmToyEnc .encrypt).total Example.ops t).observe
      = some (.ok (crypt (Example.gcmToy Example.gcmKey) [9, 9, 9] [1, 2, 3, 4, 5, 6, 7, 8],
          tag (Example.gcmToy Example.gcmKey) [9, 9, 9] [1, 2]
            (crypt (Example.gcmToy Example.gcmKey) [9, 9, 9] [1, 2, 3, 4, 5, 6, 7, 8]))) := by
  obtain ⟨t, h1, h2⟩ := C34_gcm_encrypt Example.env64 true Example.gcmToyEnc_pure rfl [1, 2] [9, 9, 9]
    Example.ops Example.ops_legal (by decide) (by rw [Example.ops_input]; decide)
  rw [Example.ops_input] at h2
  exact ⟨t, h1, h2⟩

example : ∃ t t' c t1, aesGcmInit Example.env64 true Example.gcmToyEnc Example.gcmKey [1, 2] [9, 9, 9]
      = .ok t Example.gcmKey
    ∧ authTransformString (aesGcm Example.env64 Example.gcmToyEnc .encrypt) (List.replicate 35 7) t
      = .ok c t1
    ∧ aesGcmInit Example.env64 false Example.gcmToyEnc Example.gcmKey [1, 2] [9, 9, 9]
      = .ok t' Example.gcmKey
    ∧ (authCheckTransformString (aesGcm Example.env64 Example.gcmToyEnc .decrypt) c t').observe
      = some (.ok (some (List.replicate 35 7))) :=
  C36_gcm_roundtrip _ _ _ Example.gcmToyEnc_pure rfl _ _ _ (by decide) (by decide) (by decide)

end Verif
