import Verif.Proof.ChaPoly
import Verif.Props.C37_AuthCheck
import Verif.Props.Example
/-
C35: ChaCha20-Poly1305 conforms to RFC 8439 section 2.8; C36, C37, C38 and part of C13 and C65
for ChaCha20-Poly1305.

Besides the 32-byte keys and 12-byte IVs of RFC 8439, the code accepts 16-byte keys and 8-byte
IVs, which give the corresponding variants of ChaCha20.
-/
namespace Verif

open Spec Spec.ChaPoly

variable {key iv : Bytes}

/-- The message is rejected as too long: only with 12-byte IVs. -/
def Spec.ChaPoly.TooLong (iv : Bytes) (n : Nat) : Prop := iv.length = 12 ∧ n > 2 ^ 38

instance (iv : Bytes) (n : Nat) : Decidable (Spec.ChaPoly.TooLong iv n) :=
  inferInstanceAs (Decidable (_ ∧ _))

theorem chapolyEnc_put (m : Bytes) (header : Bytes) :
    ((genSpec (chapolyEncF key iv)).put [] m).andThen (chapolyFin key iv header)
      = if TooLong iv m.length then .err (crypt key iv m) (.error .messageTooLong)
        else .ok (crypt key iv m) (tag key iv header (crypt key iv m)) := by
  simp only [genSpec, chapolyEncF, List.length_nil, Nat.zero_add, List.nil_append]
  by_cases h : TooLong iv m.length
  · rw [if_pos ⟨h.1, Nat.zero_le _, h.2⟩, if_pos h]; rfl
  · rw [if_neg (fun hh => h ⟨hh.1, hh.2.2⟩), if_neg h]
    simp [SRes.andThen, crypt, chapolyFin]

theorem chapolyDec_put (m : Bytes) (header : Bytes) :
    ((genSpec (chapolyDecF key iv)).put [] m).andThen (chapolyFin key iv header)
      = .ok (crypt key iv m) (tag key iv header m) := by
  simp [genSpec, chapolyDecF, chapolyFin, SRes.andThen, crypt]

theorem chapoly_crypt_length (m : Bytes) : (crypt key iv m).length = m.length :=
  xorKeystream_length _ _ _

/-- C35, encryption: for every header, message and history of calls, the output is the
ciphertext of RFC 8439 and its tag. `Message_too_long` is raised exactly for messages of more
than 2^38 bytes with 12-byte IVs. -/
theorem C35_chapoly_encrypt (env : Env) (hk : key.length = 16 ∨ key.length = 32)
    (hiv : iv.length = 8 ∨ iv.length = 12) (header : Bytes) (ops : List TOp)
    (hops : ∀ op ∈ ops, op.Legal) (hm : 256 ≤ env.maxLen) (hm' : env.maxLen ≤ 2 ^ 62)
    (hfit : (inputOf ops).length ≤ env.maxLen) :
    ∃ t, chacha20Poly1305Init env header iv key = .ok t ()
      ∧ ((chacha20Poly1305 env iv.length .encrypt).total ops t).observe
        = some (if TooLong iv (inputOf ops).length then .error (.error .messageTooLong)
          else .ok (crypt key iv (inputOf ops), tag key iv header (crypt key iv (inputOf ops)))) := by
  obtain ⟨st, e0, hA⟩ := chapolyInit_ok hk hiv env header
  refine ⟨_, e0, ?_⟩
  have hR := genRep_init (At := ChaPolyEncAt key iv header) env hm ⟨hA, by simp⟩
  have ht := (chapolyEnc_refines (header := header) hk hiv env hm').total
    (chapolyEnc_lawful key iv) ops hR hops
  rw [chapolyEnc_put] at ht
  by_cases hl : TooLong iv (inputOf ops).length
  · rw [if_pos hl] at ht ⊢
    obtain ⟨t', h1⟩ := ht (by rw [chapoly_crypt_length]; exact hfit)
    rw [h1]; rfl
  · rw [if_neg hl] at ht ⊢
    obtain ⟨t', h1⟩ := ht (by rw [chapoly_crypt_length]; exact hfit)
    rw [h1]; rfl

/-- C35, decryption: the output is the plaintext and the tag of the input. -/
theorem C35_chapoly_decrypt (env : Env) (hk : key.length = 16 ∨ key.length = 32)
    (hiv : iv.length = 8 ∨ iv.length = 12) (header : Bytes) (ops : List TOp)
    (hops : ∀ op ∈ ops, op.Legal) (hm : 256 ≤ env.maxLen)
    (hfit : (inputOf ops).length ≤ env.maxLen) :
    ∃ t, chacha20Poly1305Init env header iv key = .ok t ()
      ∧ ((chacha20Poly1305 env iv.length .decrypt).total ops t).observe
        = some (.ok (crypt key iv (inputOf ops), tag key iv header (inputOf ops))) := by
  obtain ⟨st, e0, hA⟩ := chapolyInit_ok hk hiv env header
  refine ⟨_, e0, ?_⟩
  have hR := genRep_init (At := ChaPolyAt key iv header) env hm hA
  have ht := (chapolyDec_refines (header := header) hk hiv env).total
    (chapolyDec_lawful key iv) ops hR hops
  rw [chapolyDec_put] at ht
  obtain ⟨t', h1⟩ := ht (by rw [chapoly_crypt_length]; exact hfit)
  rw [h1]; rfl

/-- Other key and IV sizes are rejected (part of C14). -/
theorem C14_chapoly_args (env : Env) (header : Bytes)
    (h : ¬ ((key.length = 16 ∨ key.length = 32) ∧ (iv.length = 8 ∨ iv.length = 12))) :
    chacha20Poly1305Init env header iv key = .exn (.error
      (if key.length = 16 ∨ key.length = 32 then .wrongIVSize else .wrongKeySize)) () := by
  have ha : ¬ Spec.ChaChaArgs key (some iv) ((none : Option W64).getD 0) := by
    rintro ⟨h1, h2⟩
    have := h2 iv rfl
    exact h ⟨h1, by omega⟩
  simp only [chacha20Poly1305Init, chapolyInit, C14_chacha20_args ha]

/-- C37 for ChaCha20-Poly1305: the check accepts exactly the strings `text ++ tag` whose last 16
bytes are the tag of `text`, and returns the decrypted text. -/
theorem C37_chapoly (env : Env) (hk : key.length = 16 ∨ key.length = 32)
    (hiv : iv.length = 8 ∨ iv.length = 12) (header s : Bytes) (hm : 256 ≤ env.maxLen)
    (hfit : s.length ≤ env.maxLen) :
    ∃ t, chacha20Poly1305Init env header iv key = .ok t ()
      ∧ (authCheckTransformString (chacha20Poly1305 env iv.length .decrypt) s t).observe
        = some (if s.length < 16 then .error (.error .wrongDataLength)
            else .ok (if tag key iv header (s.take (s.length - 16)) = s.drop (s.length - 16)
              then some (crypt key iv (s.take (s.length - 16))) else none)) := by
  obtain ⟨st, e0, hA⟩ := chapolyInit_ok hk hiv env header
  refine ⟨_, e0, ?_⟩
  by_cases hl : s.length < 16
  · rw [if_pos hl, C37_too_short (chacha20Poly1305 env iv.length .decrypt) s _ hl]; rfl
  · rw [if_neg hl]
    have hR := genRep_init (At := ChaPolyAt key iv header) env hm hA
    have ht := (chapolyDec_refines (header := header) hk hiv env).check (s.take (s.length - 16))
      (s.drop (s.length - 16)) (show _ = 16 by rw [List.length_drop]; omega) hR
    rw [chapolyDec_put, List.take_append_drop] at ht
    exact ht (by rw [chapoly_crypt_length, List.length_take]; omega)

/-- C36 for ChaCha20-Poly1305: what `auth_transform_string` encrypts,
`auth_check_transform_string` accepts and decrypts. -/
theorem C36_chapoly_roundtrip (env : Env) (hk : key.length = 16 ∨ key.length = 32)
    (hiv : iv.length = 8 ∨ iv.length = 12) (header m : Bytes) (hl : ¬ TooLong iv m.length)
    (hfit : m.length + 16 ≤ env.maxLen) (h256 : 256 ≤ env.maxLen) (h62 : env.maxLen ≤ 2 ^ 62) :
    ∃ t c t1, chacha20Poly1305Init env header iv key = .ok t ()
      ∧ authTransformString (chacha20Poly1305 env iv.length .encrypt) m t = .ok c t1
      ∧ (authCheckTransformString (chacha20Poly1305 env iv.length .decrypt) c t).observe
        = some (.ok (some m)) := by
  obtain ⟨st, e0, hA⟩ := chapolyInit_ok hk hiv env header
  have hR := genRep_init (At := ChaPolyEncAt key iv header) env h256 ⟨hA, by simp⟩
  have ht := (chapolyEnc_refines (header := header) hk hiv env h62).detached m hR
  rw [chapolyEnc_put, if_neg hl] at ht
  obtain ⟨t1, h1⟩ := ht (by rw [chapoly_crypt_length]; omega)
  have htl : (tag key iv header (crypt key iv m)).length = 16 := natToLE_length _ _
  have hcl := chapoly_crypt_length (key := key) (iv := iv) m
  have hlen : (crypt key iv m ++ tag key iv header (crypt key iv m)).length = m.length + 16 := by
    rw [List.length_append, hcl, htl]
  obtain ⟨t', h2, h3⟩ := C37_chapoly env hk hiv header
    (crypt key iv m ++ tag key iv header (crypt key iv m)) h256 (by omega)
  rw [e0] at h2
  cases h2
  refine ⟨_, crypt key iv m ++ tag key iv header (crypt key iv m), t1, e0, ?_, ?_⟩
  · rw [authTransformString, M.bind_ok h1]; rfl
  · rw [h3, if_neg (by omega), hlen]
    have hd1 : m.length + 16 - 16 = (crypt key iv m).length := by omega
    rw [hd1, List.take_left, List.drop_left, if_pos rfl]
    congr 3
    exact xorKeystream_invol _ _ _

/-! ### C38: reuse of keystream blocks -/

/-- The number of bytes in 2^32 blocks. -/
def Spec.ChaPoly.limit : Nat := 2 ^ 38

/-- C38 is false of ChaCha20-Poly1305 with 12-byte IVs: a message of 2^38 bytes is accepted,
and its last 64 bytes are encrypted with the keystream block from which the Poly1305 key is
taken. With a message of zeros the first 32 of them are that key. -/
theorem C38_chapoly_leaks_poly1305_key (env : Env) (hk : key.length = 16 ∨ key.length = 32)
    (hiv : iv.length = 12) (header : Bytes) (hm : limit ≤ env.maxLen) (hm' : env.maxLen ≤ 2 ^ 62) :
    ∃ t c g, chacha20Poly1305Init env header iv key = .ok t ()
      ∧ ((chacha20Poly1305 env iv.length .encrypt).total
          [.putString (List.replicate limit 0)] t).observe = some (.ok (c, g))
      ∧ c.length = limit ∧ slice c (limit - 64) 32 = otk key iv := by
  generalize hN : limit = N at *
  have hN' : N = 2 ^ 38 := by rw [← hN]; rfl
  have hin : inputOf [.putString (List.replicate N 0)] = List.replicate N 0 := by
    simp only [inputOf, List.map_cons, List.map_nil, List.flatten_cons, List.flatten_nil,
      TOp.input, List.append_nil]
  obtain ⟨t, h1, h2⟩ := C35_chapoly_encrypt env hk (.inr hiv) header
    [.putString (List.replicate N 0)] (by simp [TOp.Legal]) (by omega) hm'
    (by rw [hin, List.length_replicate]; exact hm)
  rw [hin, List.length_replicate, if_neg (fun hh => by have := hh.2; omega)] at h2
  refine ⟨t, _, _, h1, h2, by rw [chapoly_crypt_length, List.length_replicate], ?_⟩
  have hb : (ChaCha20.block (ChaCha20.state key iv 0)).length = 64 :=
    chacha_block_length (state_length hk (.inr hiv) 0)
  apply List.ext_getElem?
  intro i
  rw [getElem?_slice]
  unfold otk
  by_cases hi : i < 32
  · rw [if_pos hi, List.getElem?_take, if_pos hi]
    simp only [crypt, Spec.xorKeystream, List.getElem?_mapIdx, Nat.zero_add]
    rw [List.getElem?_replicate, if_pos (by omega)]
    simp only [Option.map_some, Spec.ChaCha20.keystream]
    rw [show 1 + (N - 64 + i) / 64 = 0 + 2 ^ 32 by omega, show (N - 64 + i) % 64 = i by omega,
      state_period hiv, List.getElem?_eq_getElem (by omega)]
    show some (0#8 ^^^ _) = _
    rw [BitVec.zero_xor, List.getD_eq_getElem?_getD, List.getElem?_eq_getElem (by omega)]
    rfl
  · rw [if_neg hi, List.getElem?_take, if_neg hi]

/-- C38, the part that holds for ChaCha20-Poly1305: the keystream block of the Poly1305 key
(block 0) and those of the message (byte `p` is in block `1 + p / 64`, see C35) are pairwise
different for 8-byte IVs, and for 12-byte IVs on messages of at most 2^38 - 64 bytes.
Missing: messages of 2^38 - 63 to 2^38 bytes, see `C38_chapoly_leaks_poly1305_key`. -/
theorem C38_chapoly_blocks_distinct_partial (hiv : iv.length = 8 ∨ iv.length = 12) (m : Bytes)
    (hm : m.length ≤ if iv.length = 12 then limit - 64 else 2 ^ 62)
    (p q : Nat) (hp : p < m.length) (hq : q < m.length) :
    ChaCha20.state key iv 0 ≠ ChaCha20.state key iv (1 + p / 64)
    ∧ (ChaCha20.state key iv (1 + p / 64) = ChaCha20.state key iv (1 + q / 64) → p / 64 = q / 64) := by
  have hL : limit = 2 ^ 38 := rfl
  have hb : ∀ a b, a < b → b ≤ 1 + (m.length - 1) / 64 →
      ChaCha20.state key iv a ≠ ChaCha20.state key iv b := by
    intro a b hab hbl
    apply C21_chacha20_blocks_distinct_partial hiv a b hab
    rcases hiv with h | h
    · rw [if_pos h]; rw [if_neg (by omega)] at hm; omega
    · rw [if_neg (by omega)]; rw [if_pos h] at hm; omega
  refine ⟨hb _ _ (by omega) (by omega), fun he => ?_⟩
  rcases Nat.lt_trichotomy (p / 64) (q / 64) with h | h | h
  · exact absurd he (hb _ _ (by omega) (by omega))
  · exact h
  · exact absurd he.symm (hb _ _ (by omega) (by omega))

/-! ### C65: offsets -/

/-- C65 is false of `AEAD.chacha20_poly1305 ... Decrypt`: `put_substring` with offsets outside
the string reads outside the string. -/
theorem C65_chapoly_decrypt_out_of_bounds (env : Env) (hk : key.length = 16 ∨ key.length = 32)
    (hiv : iv.length = 8 ∨ iv.length = 12) (header : Bytes) (hm : 256 ≤ env.maxLen) :
    ∃ t, chacha20Poly1305Init env header iv key = .ok t ()
      ∧ (chacha20Poly1305 env iv.length .decrypt).base.putSubstring [1, 2, 3] 0 4 t = .ub := by
  obtain ⟨st, e0, hA⟩ := chapolyInit_ok hk hiv env header
  refine ⟨_, e0, ?_⟩
  obtain ⟨o', h1, h2, h3⟩ := OBuf.ensureCapacity_ok
    (OBuf.rep_init env 256 (by decide) hm) 4 (by simp; omega)
  have hr : cRead [1, 2, 3] 0 4 = none := by decide
  have he : OBuf.ensureCapacity env 4 (streamInit env st).ob = .ok () o' := h1
  show streamPut env chapolyDec [1, 2, 3] 0 4 (streamInit env st) = .ub
  have hx : ∀ d, chapolyDec.transform (.other [1, 2, 3]) 0 o'.oend 4 (st, d) = .ub := by
    intro d
    have : polyUpdate st.h [1, 2, 3] 0 4 = none := by
      simp only [polyUpdate]
      rw [if_neg (by decide), show (4 : Int).toNat = 4 from rfl, hr]
    simp only [chapolyDec, M.bind_def, M.get_def, chapolyHash, Src.read_other, this, M.orUB]
    rfl
  simp only [streamPut, bind, M.bind, M.zoom, he]
  have := hx o'.obuf
  simp only [streamInit] at this ⊢
  rw [this]

/-! ### Non-vacuity -/

example : ∃ t, chacha20Poly1305Init Example.env64 [1, 2] (List.replicate 12 5) (List.replicate 32 7)
      = .ok t ()
    ∧ ((chacha20Poly1305 Example.env64 12 .encrypt).total Example.ops t).observe
      = some (.ok (crypt (List.replicate 32 7) (List.replicate 12 5) [1, 2, 3, 4, 5, 6, 7, 8],
          tag (List.replicate 32 7) (List.replicate 12 5) [1, 2]
            (crypt (List.replicate 32 7) (List.replicate 12 5) [1, 2, 3, 4, 5, 6, 7, 8]))) := by
  obtain ⟨t, h1, h2⟩ := C35_chapoly_encrypt (key := List.replicate 32 7) (iv := List.replicate 12 5)
    Example.env64 (.inr rfl) (.inr rfl) [1, 2]
    Example.ops Example.ops_legal (by decide) (by decide) (by rw [Example.ops_input]; decide)
  rw [Example.ops_input] at h2
  exact ⟨t, h1, h2⟩

example : ∃ t c t1, chacha20Poly1305Init Example.env64 [1, 2] (List.replicate 8 5)
      (List.replicate 16 7) = .ok t ()
    ∧ authTransformString (chacha20Poly1305 Example.env64 8 .encrypt) (List.replicate 100 3) t = .ok c t1
    ∧ (authCheckTransformString (chacha20Poly1305 Example.env64 8 .decrypt) c t).observe
      = some (.ok (some (List.replicate 100 3))) :=
  C36_chapoly_roundtrip (key := List.replicate 16 7) (iv := List.replicate 8 5) Example.env64
    (.inl rfl) (.inl rfl) _ _ (by decide) (by decide) (by decide) (by decide)

end Verif
