import Verif.Model.Sizes
import Verif.Props.C02_C03_C68_BlockTransform
import Verif.Props.C04_C05_C06_Padding
import Verif.Props.C18_C21_Stream
import Verif.Props.C45_C48_Codec
import Verif.Props.C49_C52_Combinators
/-
C72: `input_block_size` and `output_block_size` mean what the documentation says.
-/
namespace Verif

/-- What the documentation says of `input_block_size` (src/cryptokit.mli:117-126) and
`output_block_size` (src/cryptokit.mli:128-136), for the messages in `ok`: messages whose length is
a multiple of `input_block_size` are not refused because of their length (in particular none is if
`input_block_size` is 1); the length of the output is a multiple of `output_block_size`. -/
structure Spec.SizesContract (T : Transform τ) (t : τ) (z : BlockSizes) (ok : Bytes → Prop) : Prop where
  accepts : ∀ ops : List TOp, (∀ op ∈ ops, op.Proper) → ok (inputOf ops) →
    z.inp ∣ (inputOf ops).length →
    (T.total ops t).observe ≠ some (.error (.error .wrongDataLength))
  output : ∀ ops : List TOp, (∀ op ∈ ops, op.Proper) → ok (inputOf ops) →
    ∀ out, (T.total ops t).observe = some (.ok out) → z.out ∣ out.length

open Spec

variable {env : Env} {σ τ : Type}

/-- C72, unpadded block ciphers. -/
theorem C72_cipher {c : BlockCipher σ} {inv : σ → Prop} {f : σ → Bytes → BRes σ} {s : σ}
    (h : Implements c inv f) (hf : Total f) (hs : inv s)
    (hm : max 256 (2 * c.blocksize) ≤ env.maxLen) :
    SizesContract (blockTransform env c) (cipherInit env c s) (cipherSizes c)
      (·.length ≤ env.maxLen) := by
  constructor
  · intro ops hops hfit hd
    rw [C03_finish_wrong_data_length_iff h hf hs hm ops (fun o ho => (hops o ho).1) hfit,
      if_pos (show c.blocksize ∣ _ from hd)]
    simp
  · intro ops hops hfit out ho
    rw [C03_finish_wrong_data_length_iff h hf hs hm ops (fun o ho => (hops o ho).1) hfit] at ho
    split at ho
    · rename_i hd
      cases ho
      rw [blockwise_length (f := f) h.out_len h.inv_step _ s hs
        (chunks_length_of_dvd h.pos _ hd), chunks_flatten h.pos]
      exact hd
    · cases ho

/-- C72, padded encryption: any length is accepted, the output is a number of blocks. -/
theorem C72_padded_encrypt {c : BlockCipher σ} {inv : σ → Prop} {f : σ → Bytes → BRes σ} {s : σ}
    (h : Implements c inv f) (hf : Total f) (hs : inv s) {p : PadScheme} {pad : Bytes → Bytes}
    (hp : LibraryPadding.fn pad p c.blocksize)
    (hm : max 256 (2 * c.blocksize) ≤ env.maxLen) :
    SizesContract (paddedEncrypt env p c) (cipherInit env c s) (paddedEncryptSizes c)
      (fun m => (m.length / c.blocksize + 1) * c.blocksize ≤ env.maxLen) := by
  have hc := LibraryPadding.computes h.pos hp
  constructor
  · intro ops hops hfit _
    rw [C05_padded_encrypt h hf hs hp hm ops (fun o ho => (hops o ho).1) hfit]
    simp
  · intro ops hops hfit out ho
    rw [C05_padded_encrypt h hf hs hp hm ops (fun o ho => (hops o ho).1) hfit] at ho
    cases ho
    have hpl := padMessage_length h.pos (pad := pad) (fun x hx => hc.pad_len hx) (inputOf ops)
    have hd : c.blocksize ∣ (Spec.padMessage c.blocksize pad (inputOf ops)).length := by
      rw [hpl]; exact Nat.dvd_mul_left _ _
    rw [blockwise_length (f := f) h.out_len h.inv_step _ s hs
      (chunks_length_of_dvd h.pos _ hd), chunks_flatten h.pos]
    exact hd

/-- C72, padded decryption of at least one byte. Missing: the empty message, whose length is a
multiple of every block size, and which is refused (`C72_padded_decrypt_empty`). -/
theorem C72_padded_decrypt_partial {c : BlockCipher σ} {inv : σ → Prop} {f : σ → Bytes → BRes σ}
    {s : σ} (h : Implements c inv f) (hf : Total f) (hs : inv s) {p : PadScheme}
    {pad : Bytes → Bytes} (hp : LibraryPadding.fn pad p c.blocksize)
    (hm : max 256 (2 * c.blocksize) ≤ env.maxLen) :
    SizesContract (paddedDecrypt env p c) (cipherInit env c s) (paddedDecryptSizes c)
      (fun m => m ≠ [] ∧ m.length ≤ env.maxLen) := by
  constructor
  · intro ops hops hfit hd
    have := C06_padded_decrypt h hf hs hp hm ops (fun o ho => (hops o ho).1) hfit.2
    by_cases hx : ∃ x : Bytes, x.length < c.blocksize ∧
        (blockwise f s (chunks c.blocksize (inputOf ops))).flatten.drop
          ((inputOf ops).length - c.blocksize) = pad x
    · obtain ⟨x, h1, h2⟩ := hx
      rw [this.good hfit.1 hd x h1 h2]
      simp
    · rw [this.bad_padding hfit.1 hd hx]
      simp
  · intro ops hops hfit out ho
    exact Nat.one_dvd _

theorem C72_padded_decrypt_empty {c : BlockCipher σ} {inv : σ → Prop} {f : σ → Bytes → BRes σ}
    {s : σ} (h : Implements c inv f) (hf : Total f) (hs : inv s) {p : PadScheme}
    {pad : Bytes → Bytes} (hp : LibraryPadding.fn pad p c.blocksize)
    (hm : max 256 (2 * c.blocksize) ≤ env.maxLen) :
    (paddedDecryptSizes c).inp ∣ (inputOf []).length ∧
    ((paddedDecrypt env p c).total [] (cipherInit env c s)).observe
      = some (.error (.error .wrongDataLength)) :=
  ⟨Nat.dvd_zero _, (C06_padded_decrypt h hf hs hp hm [] (by simp) (by simp [inputOf])).bad_length
    (.inl rfl)⟩

/-- C72, stream ciphers. -/
theorem C72_stream {c : StreamCipher σ} {At : σ → Nat → Prop} {ks : Nat → Byte}
    (h : StreamImplements c At ks) {s : σ} (hs : At s 0) (hm : 256 ≤ env.maxLen) :
    SizesContract (streamTransform env c) (streamInit env s) byteSizes (·.length ≤ env.maxLen) := by
  constructor
  · intro ops hops hfit _
    have ht := (streamTransform_refines env h).total (streamSpec_lawful ks) ops
      (streamRep_init env hm hs) (fun o ho => (hops o ho).1)
    simp only [streamSpec, SRes.andThen] at ht
    obtain ⟨t', ht', _⟩ := ht (by simpa using hfit)
    rw [ht']
    simp [Out.observe]
  · intro ops hops hfit out ho
    exact Nat.one_dvd _

/-- C72, Base64 encoders. -/
theorem C72_base64_encode (hm : 256 ≤ env.maxLen) (ml pad : Bool) :
    SizesContract (B64.encode env ml pad) (B64.encInit env) byteSizes
      (fun m => 2 * m.length + 10 ≤ env.maxLen) := by
  constructor
  · intro ops hops hfit _ h
    have := runBase64Encode_eq hm ml pad hops (Nat.le_trans (B64.layout_length ml pad 0 _) hfit)
    rw [runBase64Encode, h] at this
    cases this
  · intro ops hops hfit out ho
    exact Nat.one_dvd _

/-- C72, the Base64 decoder. -/
theorem C72_base64_decode (hm : 256 ≤ env.maxLen) :
    SizesContract (B64.decode env) (B64.decInit env) byteSizes (·.length ≤ env.maxLen) := by
  constructor
  · intro ops hops hfit _ h
    by_cases hw : Spec.Base64.WellFormed (inputOf ops)
    · have := C47_accepts hm hops hfit hw
      rw [runBase64Decode, h] at this; cases this
    · have := C47_rejects hm hops hfit hw
      rw [runBase64Decode, h] at this; cases this
  · intro ops hops hfit out ho
    exact Nat.one_dvd _

/-- C72, the hexadecimal encoder. -/
theorem C72_hex_encode (hm : 256 ≤ env.maxLen) :
    SizesContract (Hex.encode env) (Hex.encInit env) byteSizes (fun m => 2 * m.length ≤ env.maxLen) := by
  constructor
  · intro ops hops hfit _ h
    have := C48_encode hm hops hfit
    rw [runHexEncode, h] at this; cases this
  · intro ops hops hfit out ho
    exact Nat.one_dvd _

/-- C72, the hexadecimal decoder. -/
theorem C72_hex_decode (hm : 256 ≤ env.maxLen) :
    SizesContract (Hex.decode env) (Hex.decInit env) byteSizes (·.length ≤ env.maxLen) := by
  constructor
  · intro ops hops hfit _ h
    by_cases hw : Spec.Hex.WellFormed (inputOf ops)
    · have := C48_accepts hm hops hfit hw
      rw [runHexDecode, h] at this; cases this
    · have := C48_rejects hm hops hfit hw
      rw [runHexDecode, h] at this; cases this
  · intro ops hops hfit out ho
    exact Nat.one_dvd _

/-- A history of calls then `finish` is a history of one part. -/
theorem total_of_runParts (T : Transform τ) (ops : List TOp) (t : τ) {r : Except Exn (List Bytes)}
    (h : (runParts T [⟨ops, false⟩] t).observe = some r) :
    (T.total ops t).observe = some (r.map List.flatten) := by
  have e : runParts T [⟨ops, false⟩] = (do let x ← T.total ops; pure [x] : M τ (List Bytes)) := by
    funext t
    show (T.calls ops >>= fun x => _) t = (Transform.total T ops >>= fun x => _) t
    unfold Transform.total
    simp only [M.bind_def, List.isEmpty_nil, endPart, if_true]
    cases T.calls ops t with
    | ok x t1 =>
      simp only []
      cases T.finish t1 with
      | ok _ t2 =>
        simp only [Transform.call, Bool.false_eq_true, if_false]
        cases T.getString t2 <;> rfl
      | _ => rfl
    | _ => rfl
  rw [e, M.bind_def] at h
  cases ht : T.total ops t <;> rw [ht] at h <;> simp only [Out.observe] at h ⊢
  · cases h; simp [Except.map]
  · cases h; rfl
  · cases h
  · cases h

/-- C72, `compose`: the output is a multiple of the `output_block_size` announced, and the input is
accepted if its length is a multiple of the `input_block_size` announced, provided that what the
first transform outputs has a length that the second one accepts. Missing: this proviso, without
which the property is false (`C72_compose_refuses`). `F1` and `F2` are what the two transforms
compute (cf. C49). -/
theorem C72_compose_partial {T1 : Transform σ} {T2 : Transform τ} {t1 : σ} {t2 : τ}
    {ok1 ok2 : List Bytes → Prop} {F1 F2 : List Bytes → Except Exn (List Bytes)}
    (h1 : TComputes T1 t1 ok1 F1) (h2 : TComputes T2 t2 ok2 F2) (z1 : BlockSizes)
    {z2 : BlockSizes} {small2 : Bytes → Prop} (c2 : SizesContract T2 t2 z2 small2) :
    SizesContract (compose T1 T2) (t1, t2) (composeSizes z1 z2)
      (fun m => ok1 [m] ∧ ∃ x, F1 [m] = .ok [x] ∧ ok2 [x] ∧ small2 x
        ∧ z2.inp ∣ x.length) := by
  have key : ∀ ops : List TOp, (∀ op ∈ ops, op.Proper) → ∀ x, ok1 [inputOf ops] →
      F1 [inputOf ops] = .ok [x] → ok2 [x] →
      ((compose T1 T2).total ops (t1, t2)).observe = (T2.total [.putString x] t2).observe := by
    intro ops hops x a1 a2 a3
    have hc := C49_compose h1 h2 [⟨ops, false⟩] (by simp)
      (by intro p hp; rw [List.mem_singleton.1 hp]; exact hops) ⟨a1, [x], a2, a3⟩
    have hx := h2 [⟨[.putString x], false⟩] (by simp)
      (by
        intro p hp op ho
        rw [List.mem_singleton.1 hp] at ho
        rw [List.mem_singleton.1 ho]
        exact ⟨trivial, trivial⟩)
      (by simpa [Part.data, inputOf, TOp.input] using a3)
    rw [total_of_runParts _ _ _ hc, total_of_runParts _ _ _ hx]
    simp only [List.map_cons, List.map_nil, Part.data]
    rw [a2]
    simp [inputOf, TOp.input, bind, Except.bind]
  have hp : ∀ x : Bytes, ∀ op ∈ [TOp.putString x], op.Proper := by
    intro x op ho
    rw [List.mem_singleton.1 ho]
    exact ⟨trivial, trivial⟩
  have hi : ∀ x : Bytes, inputOf [TOp.putString x] = x := by intro x; simp [inputOf, TOp.input]
  constructor
  · rintro ops hops ⟨a1, x, a2, a3, a4, a5⟩ _
    rw [key ops hops x a1 a2 a3]
    exact c2.accepts _ (hp x) (by rw [hi]; exact a4) (by rw [hi]; exact a5)
  · rintro ops hops ⟨a1, x, a2, a3, a4, a5⟩ out ho
    rw [key ops hops x a1 a2 a3] at ho
    exact c2.output _ (hp x) (by rw [hi]; exact a4) out ho

/-- The same for authenticated transforms, whose end is `finish_and_get_tag`. -/
structure Spec.AuthSizesContract (A : AuthTransform τ) (t : τ) (z : BlockSizes) (ok : Bytes → Prop) : Prop where
  accepts : ∀ ops : List TOp, (∀ op ∈ ops, op.Proper) → ok (inputOf ops) →
    z.inp ∣ (inputOf ops).length →
    (A.total ops t).observe ≠ some (.error (.error .wrongDataLength))
  output : ∀ ops : List TOp, (∀ op ∈ ops, op.Proper) → ok (inputOf ops) →
    ∀ out tag, (A.total ops t).observe = some (.ok (out, tag)) → z.out ∣ out.length

theorem Spec.SizesContract.of_computes {T : Transform τ} {t : τ} {ok : List Bytes → Prop}
    {F : List Bytes → Except Exn (List Bytes)} (hT : TComputes T t ok F) {z : BlockSizes}
    {small : Bytes → Prop} (c : SizesContract T t z small) {ops : List TOp}
    (hops : ∀ op ∈ ops, op.Proper) (h1 : ok [inputOf ops]) (h2 : small (inputOf ops)) :
    (z.inp ∣ (inputOf ops).length → F [inputOf ops] ≠ .error (.error .wrongDataLength))
      ∧ ∀ y, F [inputOf ops] = .ok [y] → z.out ∣ y.length := by
  have hx := hT [⟨ops, false⟩] (by simp)
    (by intro p hp; rw [List.mem_singleton.1 hp]; exact hops) (by simpa [Part.data] using h1)
  have ht := total_of_runParts T ops t hx
  simp only [List.map_cons, List.map_nil, Part.data] at ht
  refine ⟨fun hd hF => ?_, fun y hF => ?_⟩
  · rw [hF] at ht
    exact c.accepts ops hops h2 hd ht
  · rw [hF] at ht
    exact c.output ops hops h2 y (by rw [ht]; simp [Except.map])

/-- C72, `transform_then_hash`, which announces the sizes of its transform: it inherits its contract,
for the messages on which the transform raises no other exception than that on the length, and whose
result can be held in memory. -/
theorem C72_transform_then_hash {T : Transform τ} {H : HashObj η} {t : τ} {s : η}
    {ok : List Bytes → Prop} {F : List Bytes → Except Exn (List Bytes)} {f : Bytes → Bytes}
    (hT : TComputes T t ok F) (hH : HComputes H s fun m => .ok (f m)) (h256 : 256 ≤ env.maxLen)
    {z : BlockSizes} {small : Bytes → Prop} (c : SizesContract T t z small) :
    AuthSizesContract (transformThenHash env T H) (thenHashInit env t s) (withHashSizes z)
      (fun m => ok [m] ∧ small m ∧ (F [m] = .error (.error .wrongDataLength)
        ∨ ∃ y, F [m] = .ok [y] ∧ y.length ≤ env.maxLen ∧ y.length ≤ maxString)) := by
  constructor
  · rintro ops hops ⟨h1, h2, h3 | ⟨y, h3, h4, h5⟩⟩ hd
    · exact absurd h3 ((c.of_computes hT hops h1 h2).1 hd)
    · rw [C52_then_hash env hT hH h256 hops h1 h3 h4 h5]
      simp [Except.map]
  · rintro ops hops ⟨h1, h2, h3 | ⟨y, h3, h4, h5⟩⟩ out tag ho
    · exfalso
      cases hr : (transformThenHash env T H).total ops (thenHashInit env t s) with
      | ok r st => exact C52_then_hash_errors env hT hops h1 h3 (by simp) r st hr
      | _ => rw [hr] at ho; simp [Out.observe] at ho
    · rw [C52_then_hash env hT hH h256 hops h1 h3 h4 h5] at ho
      simp only [Except.map, Option.some.injEq, Except.ok.injEq, Prod.mk.injEq] at ho
      rw [← ho.1]
      exact (c.of_computes hT hops h1 h2).2 y h3

/-- C72, `transform_and_hash`: the same, for the messages that the transform accepts. -/
theorem C72_transform_and_hash {T : Transform τ} {H : HashObj η} {t : τ} {s : η}
    {ok : List Bytes → Prop} {F : List Bytes → Except Exn (List Bytes)} {f : Bytes → Bytes}
    (hT : TComputes T t ok F) (hH : HComputes H s fun m => .ok (f m))
    {z : BlockSizes} {small : Bytes → Prop} (c : SizesContract T t z small) :
    AuthSizesContract (transformAndHash T H) (t, s) (withHashSizes z)
      (fun m => ok [m] ∧ small m ∧ m.length ≤ maxString ∧ ∃ y, F [m] = .ok [y]) := by
  constructor
  · rintro ops hops ⟨h1, h2, h3, y, h4⟩ hd
    rw [C52_and_hash hT hH hops h1 h4 h3]
    simp [Except.map]
  · rintro ops hops ⟨h1, h2, h3, y, h4⟩ out tag ho
    rw [C52_and_hash hT hH hops h1 h4 h3] at ho
    simp only [Except.map, Option.some.injEq, Except.ok.injEq, Prod.mk.injEq] at ho
    rw [← ho.1]
    exact (c.of_computes hT hops h1 h2).2 y h4

open Example in
/-- C72 is false of the code for `compose`: hexadecimal encoding then unpadded encryption announces
an `input_block_size` of 1, but refuses messages because of their length. -/
theorem C72_compose_refuses :
    (composeSizes byteSizes (cipherSizes toyEnc)).inp = 1 ∧
    ((compose (Hex.encode env64) (blockTransform env64 toyEnc)).total [.putString [1, 2, 3]]
      (Hex.encInit env64, cipherInit env64 toyEnc key)).observe
      = some (.error (.error .wrongDataLength)) := by
  refine ⟨rfl, ?_⟩
  decide +kernel

namespace Example

/-- The unpadded and padded toy ciphers meet the hypotheses. -/
example : SizesContract (blockTransform env64 toyEnc) (cipherInit env64 toyEnc key) ⟨4, 4⟩
    (·.length ≤ env64.maxLen) :=
  C72_cipher (env := env64) toyEnc_pure (fun _ _ => rfl) rfl (by decide)

example : SizesContract (paddedEncrypt env64 Padding.length toyEnc) (cipherInit env64 toyEnc key)
    ⟨1, 4⟩ (fun m => (m.length / 4 + 1) * 4 ≤ env64.maxLen) :=
  C72_padded_encrypt (env := env64) toyEnc_pure (fun _ _ => rfl) rfl (pad := Spec.padLength 4)
    (.inl ⟨rfl, by decide, rfl⟩) (by decide)

example : SizesContract (paddedDecrypt env64 Padding._8000 toyDec) (cipherInit env64 toyDec key)
    ⟨4, 1⟩ (fun m => m ≠ [] ∧ m.length ≤ env64.maxLen) :=
  C72_padded_decrypt_partial (env := env64) toyDec_pure (fun _ _ => rfl) rfl (pad := Spec.pad8000 4)
    (.inr ⟨rfl, rfl⟩) (by decide)

/-- A composition that meets the hypotheses. -/
example : (composeSizes byteSizes byteSizes).inp ∣ (inputOf [.putString [1, 2, 3]]).length ∧
    ((compose (Hex.encode env64) (Hex.decode env64)).total [.putString [1, 2, 3]]
      (Hex.encInit env64, Hex.decInit env64)).observe ≠ some (.error (.error .wrongDataLength)) := by
  refine ⟨Nat.one_dvd _, ?_⟩
  refine (C72_compose_partial (Hex.encode_computes env64 (by decide))
    (Hex.decode_computes env64 (by decide)) byteSizes (C72_hex_decode (by decide))).accepts
    [.putString [1, 2, 3]] ?_ ?_ (Nat.one_dvd _)
  · intro op ho
    rw [List.mem_singleton.1 ho]; exact ⟨trivial, trivial⟩
  · refine ⟨?_, Spec.Hex.encode [1, 2, 3], rfl, ⟨[[1, 2, 3]], rfl, ?_⟩, ?_, Nat.one_dvd _⟩
    · intro m hm; rw [List.mem_singleton.1 hm]; decide
    · intro m hm; rw [List.mem_singleton.1 hm]; decide
    · decide

/-- Hexadecimal encoding, then or and SHA-1. -/
example : (withHashSizes byteSizes).out ∣ (ascii "ab0103").length ∧
    ((transformThenHash env64 (Hex.encode env64) sha1).total hexOps
      (thenHashInit env64 (Hex.encInit env64) (sha1Init (List.replicate 64 0)))).observe
      ≠ some (.error (.error .wrongDataLength)) ∧
    ((transformAndHash (Hex.encode env64) sha1).total hexOps
      (Hex.encInit env64, sha1Init (List.replicate 64 0))).observe
      ≠ some (.error (.error .wrongDataLength)) := by
  refine ⟨Nat.one_dvd _, ?_, ?_⟩
  · exact (C72_transform_then_hash (Hex.encode_computes env64 (by decide))
      (C22_sha1 (List.replicate 64 0) (by decide)).toH (by decide) (C72_hex_encode (by decide))).accepts
      hexOps hexOps_proper ⟨by decide, by decide, .inr ⟨ascii "ab0103", by decide +kernel, by decide,
        by decide +kernel⟩⟩ (Nat.one_dvd _)
  · exact (C72_transform_and_hash (Hex.encode_computes env64 (by decide))
      (C22_sha1 (List.replicate 64 0) (by decide)).toH (C72_hex_encode (by decide))).accepts
      hexOps hexOps_proper ⟨by decide, by decide, by decide +kernel, ascii "ab0103", by decide +kernel⟩
      (Nat.one_dvd _)

end Example

end Verif
