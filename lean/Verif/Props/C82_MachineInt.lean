import Verif.Proof.MachineInt
import Verif.Proof.MachineAead
import Verif.Props.Example
import Verif.Props.C67_Cipher
import Verif.Props.C34_Gcm
import Verif.Props.C35_ChaPoly
import Verif.Props.C15_C17_Mac
/-
C82 The wrap-around of OCaml's integers.
-/
namespace Verif

open Spec Cipher

variable {w : Nat} {env : Env}

/-- C82, the output buffer: on every buffer in a state that its class allows, with every argument of
moderate size, `ensure_capacity` has the same effect as with mathematical integers. -/
theorem C82_ensure_capacity (hp : Platform w env) {n : Int} (hn : Moderate w n) {o : OBuf}
    (h0 : 0 < o.obuf.length) (h1 : o.obeg ≤ o.oend) (h2 : o.oend ≤ o.obuf.length)
    (h3 : o.obuf.length ≤ env.maxLen) :
    OBuf.ensureCapacityW w env n o = OBuf.ensureCapacity env n o :=
  ensureCapacityW_eq hp.1 hp.2.2 hn ⟨h0, h1, h2⟩ h3

/-- The model of the `while` loop of `ensure_capacity` says "infinite loop" exactly when the test of
the loop is true of all the values that `newlen` takes. -/
theorem C82_loop_model (hw : 0 < w) (need newlen : Int) :
    growLoopW w need w newlen = none ↔ ∀ j, need > doubled w newlen j := growLoopW_none_iff hw need newlen

/-- C82, `Cipher.arcfour`: after every history of calls with moderate arguments, every such call has
the same effect as with mathematical integers. -/
theorem C82_arcfour_partial (hp : Platform w env) {key : Bytes} {s : Arcfour} (hk : arcfourInit key = .ok s) :
    Agree (invoke (streamTransformW w env Verif.arcfour)) (invoke (streamTransform env Verif.arcfour))
      (moderateT w env) (streamInit env s) :=
  stream_agree arcfour_safe arcfour_wipeSafe hp.1 hp.2.2 hp.2.1 (arcfourInit_safe hk)

/-- C82, `Cipher.chacha20`. -/
theorem C82_chacha20_partial (hp : Platform w env) {key : Bytes} {iv : Option Bytes} {ctr : Option W64} {s : ChaCha}
    (hk : chacha20Init env key iv ctr = .ok s) :
    Agree (invoke (streamTransformW w env Verif.chacha20)) (invoke (streamTransform env Verif.chacha20))
      (moderateT w env) (streamInit env s) :=
  stream_agree chacha20_safe chacha20_wipeSafe hp.1 hp.2.2 hp.2.1 (chacha20Init_safe hk)

/-- What remains false of C82: `put_substring` of a stream cipher with a length greater than
`max_int / 2` (in particular with `max_int`), whatever the string, does not raise `Invalid_argument`:
it does not terminate. -/
theorem C82_stream_hangs (hw : 11 ≤ w) {σ : Type} (c : StreamCipher σ) (s : σ) (src : Bytes) (ofs : Int)
    {len : Int} (h1 : 2 ^ (w - 2) < len) (h2 : len < 2 ^ (w - 1)) :
    (streamTransformW w env c).putSubstring src ofs len (streamInit env s) = .loop := by
  show streamPutW w env c src ofs len (streamInit env s) = .loop
  unfold streamPutW
  rw [M.bind_def, M.zoom]
  rw [ensureCapacityW_loop (a := 8) (by omega) (by omega) env h1 h2
    (by show (env.create 256).length = _; rw [Env.create_length]; rfl) rfl rfl]

/-- C82, the block ciphers DES, triple DES and Blowfish in all modes, without padding: after every
history of calls with any arguments, every call has the same effect as with mathematical integers,
except that a `put_substring` with an illegal range may raise `Invalid_argument` at once. -/
theorem C82_block (hp : Platform w env) {mode : Mode} {iv : Option Bytes} {dir dir' : Dir} {key : Bytes}
    {b m : AnyBlock}
    (hb : desBlock dir key = some (.ok b) ∨ tripleDesBlock dir key = some (.ok b)
      ∨ blowfishBlock dir key = some (.ok b))
    (hm : chained env mode iv dir' b = .ok m) :
    AgreeOrReject (invoke (blockTransformW w env m.c)) (invoke (blockTransform env m.c)) isPutSubstring
      (machineT w env) (cipherInit env m.c m.s) := by
  have hok : BlockOk True b ∧ b.c.blocksize = 8 := by
    rcases hb with h | h | h
    · exact desBlock_ok h
    · exact tripleDesBlock_ok h
    · exact blowfishBlock_ok h
  obtain ⟨I, h1, h2, h3⟩ := chained_ok hok.1 hm
  have hs := chained_blocksize hm
  have := hp.2.1
  exact block_agree h1 (fun _ => h3 trivial) hp.1 (fun _ h => h) hp.2.2 (by omega) h2

/-- C82 for AES, with or without AES-NI, as long as `wipe` is not called (see C63). -/
theorem C82_block_aes (hp : Platform w env) {host : AesHost} {mode : Mode} {iv : Option Bytes}
    {dir dir' : Dir} {key : Bytes} {b m : AnyBlock} (hb : aesBlock host dir key = some (.ok b))
    (hm : chained env mode iv dir' b = .ok m) :
    AgreeOrReject (invoke (blockTransformW w env m.c)) (invoke (blockTransform env m.c)) isPutSubstring
      (machineNoWipeT w env) (cipherInit env m.c m.s) := by
  have hok := aesBlock_ok hb
  obtain ⟨I, h1, h2, h3⟩ := chained_ok hok.1 hm
  have hs := chained_blocksize hm
  have := hp.2.1
  exact block_agree h1 (fun h => absurd rfl h.2) hp.1 (fun _ h => h.1) hp.2.2 (by omega) h2

/-- C82, the same block ciphers with padding, for every padding scheme that keeps the length of the
buffer and strips no more than it (as do those of the library, see the examples). -/
theorem C82_padded (hp : Platform w env) {mode : Mode} {iv : Option Bytes} {dir dir' : Dir} {key : Bytes}
    {b m : AnyBlock}
    (hb : desBlock dir key = some (.ok b) ∨ tripleDesBlock dir key = some (.ok b)
      ∨ blowfishBlock dir key = some (.ok b))
    (hm : chained env mode iv dir' b = .ok m) {p : PadScheme} (hk : PadKeeps p) (hs : PadStrips p) :
    AgreeOrReject (invoke (paddedEncryptW w env p m.c)) (invoke (paddedEncrypt env p m.c)) isPutSubstring
      (machineT w env) (cipherInit env m.c m.s)
    ∧ AgreeOrReject (invoke (paddedDecryptW w env p m.c)) (invoke (paddedDecrypt env p m.c)) isPutSubstring
      (machineT w env) (cipherInit env m.c m.s) := by
  have hok : BlockOk True b ∧ b.c.blocksize = 8 := by
    rcases hb with h | h | h
    · exact desBlock_ok h
    · exact tripleDesBlock_ok h
    · exact blowfishBlock_ok h
  obtain ⟨I, h1, h2, h3⟩ := chained_ok hok.1 hm
  have hc := chained_blocksize hm
  have := hp.2.1
  exact ⟨paddedEncrypt_agree h1 (fun _ => h3 trivial) hp.1 (fun _ h => h) hp.2.2 (by omega) hk h2,
    paddedDecrypt_agree h1 (fun _ => h3 trivial) hp.1 (fun _ h => h) hp.2.2 (by omega) hs h2⟩

/-- C82, AES with padding, as long as `wipe` is not called. -/
theorem C82_padded_aes (hp : Platform w env) {host : AesHost} {mode : Mode} {iv : Option Bytes}
    {dir dir' : Dir} {key : Bytes} {b m : AnyBlock} (hb : aesBlock host dir key = some (.ok b))
    (hm : chained env mode iv dir' b = .ok m) {p : PadScheme} (hk : PadKeeps p) (hs : PadStrips p) :
    AgreeOrReject (invoke (paddedEncryptW w env p m.c)) (invoke (paddedEncrypt env p m.c)) isPutSubstring
      (machineNoWipeT w env) (cipherInit env m.c m.s)
    ∧ AgreeOrReject (invoke (paddedDecryptW w env p m.c)) (invoke (paddedDecrypt env p m.c)) isPutSubstring
      (machineNoWipeT w env) (cipherInit env m.c m.s) := by
  have hok := aesBlock_ok hb
  obtain ⟨I, h1, h2, h3⟩ := chained_ok hok.1 hm
  have hc := chained_blocksize hm
  have := hp.2.1
  exact ⟨paddedEncrypt_agree h1 (fun h => absurd rfl h.2) hp.1 (fun _ h => h.1) hp.2.2 (by omega) hk h2,
    paddedDecrypt_agree h1 (fun h => absurd rfl h.2) hp.1 (fun _ h => h.1) hp.2.2 (by omega) hs h2⟩

/-- C82, the CBC-MACs of DES, triple DES and Blowfish. -/
theorem C82_mac (hp : Platform w env) {iv : Option Bytes} {dir : Dir} {key : Bytes} {b : AnyBlock}
    (hb : desBlock dir key = some (.ok b) ∨ tripleDesBlock dir key = some (.ok b)
      ∨ blowfishBlock dir key = some (.ok b))
    {pad : Option PadScheme} (hpad : ∀ p, pad = some p → PadKeeps p) {st : MacSt b.σ}
    (hi : macInit env b.c b.s iv = .ok st) :
    AgreeOrReject (invokeH (macW w b.c pad)) (invokeH (mac b.c pad)) isAddSubstring (machineH w env) st := by
  have hok : BlockOk True b ∧ b.c.blocksize = 8 := by
    rcases hb with h | h | h
    · exact desBlock_ok h
    · exact tripleDesBlock_ok h
    · exact blowfishBlock_ok h
  obtain ⟨⟨I, h1, h2, h3⟩, h4⟩ := hok
  have := hp.2.1
  exact mac_agree h1 (fun _ => h3 trivial) hp.1 (fun _ h => h) hp.2.2 (by omega) hpad h2 hi

/-- C82, the CBC-MAC of AES, as long as `wipe` is not called. -/
theorem C82_mac_aes (hp : Platform w env) {host : AesHost} {iv : Option Bytes} {dir : Dir} {key : Bytes}
    {b : AnyBlock} (hb : aesBlock host dir key = some (.ok b))
    {pad : Option PadScheme} (hpad : ∀ p, pad = some p → PadKeeps p) {st : MacSt b.σ}
    (hi : macInit env b.c b.s iv = .ok st) :
    AgreeOrReject (invokeH (macW w b.c pad)) (invokeH (mac b.c pad)) isAddSubstring (machineNoWipeH w env)
      st := by
  obtain ⟨⟨I, h1, h2, h3⟩, h4⟩ := aesBlock_ok hb
  have := hp.2.1
  exact mac_agree h1 (fun h => absurd rfl h.2) hp.1 (fun _ h => h.1) hp.2.2 (by omega) hpad h2 hi

/-- C82, `MAC.des_final_triple_des`. -/
theorem C82_mac_final_triple (hp : Platform w env) {iv : Option Bytes} {k1 k2 k3 : Bytes} {d1 d2 d3 : Dir}
    {b1 b2 b3 : AnyBlock} (e1 : desBlock d1 k1 = some (.ok b1)) (e2 : desBlock d2 k2 = some (.ok b2))
    (e3 : desBlock d3 k3 = some (.ok b3))
    {pad : Option PadScheme} (hpad : ∀ p, pad = some p → PadKeeps p) {st : Mac3St b1.σ b2.σ b3.σ}
    (hi : mac3Init env b1.c b2.c b3.c b1.s b2.s b3.s iv = .ok st) :
    AgreeOrReject (invokeH (macFinalTripleW w b1.c b2.c b3.c pad)) (invokeH (macFinalTriple b1.c b2.c b3.c pad))
      isAddSubstring (machineH w env) st := by
  obtain ⟨⟨I1, s1, i1, w1⟩, n1⟩ := desBlock_ok e1
  obtain ⟨⟨I2, s2, i2, w2⟩, n2⟩ := desBlock_ok e2
  obtain ⟨⟨I3, s3, i3, w3⟩, n3⟩ := desBlock_ok e3
  have := hp.2.1
  unfold mac3Init at hi
  split at hi
  · cases hi
  · split at hi
    · next m hm =>
      cases hi
      exact derived_agree s1 hp.1 hp.2.2 (by omega) (get := Mac3St.m) (set := fun m t => { t with m := m })
        (fun _ => rfl) (H := macFinalTriple b1.c b2.c b3.c pad) (fun _ _ _ => rfl) (fun _ => rfl)
        (mac3_safe s1 s2 s3 (n1.trans n2.symm) (n2.trans n3.symm) hpad) (fun t ht => ht.1)
        (fun _ => mac3_wipe (w1 trivial) (w2 trivial) (w3 trivial) pad) (fun _ h => h)
        ⟨macInit_safe i1 hm, i2, i3⟩
    · cases hi

/-- C82, `MAC.aes_cmac`, as long as `wipe` is not called. -/
theorem C82_cmac (hp : Platform w env) {host : AesHost} {iv : Option Bytes} {dir : Dir} {key : Bytes}
    {b : AnyBlock} (hb : aesBlock host dir key = some (.ok b)) {st : CmacSt b.σ} {s' : b.σ}
    (hi : aesCmacNew env b.c b.s iv = .ok st s') :
    AgreeOrReject (invokeH (cmacW w b.c)) (invokeH (cmac b.c)) isAddSubstring (machineNoWipeH w env) st := by
  obtain ⟨⟨I, h1, h2, h3⟩, h4⟩ := aesBlock_ok hb
  have := hp.2.1
  have hnew := MAC.aesCmacNew_safe (env := env) (iv := iv) h1 h4 h2
  rw [hi] at hnew
  exact derived_agree h1 hp.1 hp.2.2 (by omega) (get := CmacSt.m) (set := fun m t => { t with m := m })
    (fun _ => rfl) (H := cmac b.c) (fun _ _ _ => rfl) (fun _ => rfl) (cmac_safe h1) (fun t ht => ht.1)
    (fun h => absurd rfl h.2) (fun _ h => h.1) hnew

/-- C82, AES-GCM in both directions, as long as `wipe` is not called: every call has the same effect
as with mathematical integers, except that a `put_substring` with an illegal range may raise
`Invalid_argument` at once; and the tags are the same, and so is their size. -/
theorem C82_gcm (hp : Platform w env) {host : AesHost} {pclmul : Bool} {key header iv : Bytes}
    {b : AnyBlock} (hb : aesBlock host .encrypt key = some (.ok b)) (dir : Dir) {t0 : CipherSt (GcmSt b.σ)}
    {s' : b.σ} (hi : aesGcmInit env pclmul b.c b.s header iv = .ok t0 s') :
    AgreeOrReject (invokeA (aesGcmW w env b.c dir)) (invokeA (aesGcm env b.c dir)) isPutSubstringA
      (machineNoWipeA w env) t0
    ∧ ∀ t, Reachable (invokeA (aesGcmW w env b.c dir)) (machineNoWipeA w env) t0 t →
      (aesGcmW w env b.c dir).finishAndGetTag t = (aesGcm env b.c dir).finishAndGetTag t
        ∧ (aesGcmW w env b.c dir).tagSize = (aesGcm env b.c dir).tagSize := by
  obtain ⟨⟨I, h1, h2, h3⟩, h4⟩ := aesBlock_ok hb
  have h : AgreeOrReject (invokeA (aesGcmW w env b.c dir)) (invokeA (aesGcm env b.c dir)) isPutSubstringA
      (machineNoWipeA w env) t0
    ∧ ∀ t, Reachable (invokeA (aesGcmW w env b.c dir)) (machineNoWipeA w env) t0 t →
      (aesGcmW w env b.c dir).finishAndGetTag t = (aesGcm env b.c dir).finishAndGetTag t :=
    aesGcm_agree h1 h4 (fun h => h.2 rfl) hp.1 (fun _ h => h.1) hp.2.2 hp.2.1 h2 dir hi
  exact ⟨h.1, fun t ht => ⟨h.2 t ht, by cases dir <;> rfl⟩⟩

/-- C82, encryption with ChaCha20-Poly1305, with moderate arguments. (The method
`finish_and_get_tag` computes with no integer given by the caller.) -/
theorem C82_chapoly_encrypt_partial (hp : Platform w env) {header iv key : Bytes} {t0 : StreamSt ChaPolySt} {u : Unit}
    (hi : chacha20Poly1305Init env header iv key = .ok t0 u) (ivLength : Nat) :
    Agree (invokeA (chacha20Poly1305W w env ivLength .encrypt)) (invokeA (chacha20Poly1305 env ivLength .encrypt))
      (moderateA w env) t0
    ∧ (chacha20Poly1305W w env ivLength .encrypt).tagSize = (chacha20Poly1305 env ivLength .encrypt).tagSize :=
  ⟨chapoly_agree hp.1 hp.2.2 hp.2.1 hi ivLength (fun _ h => h) (fun h => by cases h), rfl⟩

/-- C82, decryption with ChaCha20-Poly1305, with moderate arguments and legal ranges (other ranges make
the C code read out of bounds, see C26). -/
theorem C82_chapoly_decrypt_partial (hp : Platform w env) {header iv key : Bytes} {t0 : StreamSt ChaPolySt} {u : Unit}
    (hi : chacha20Poly1305Init env header iv key = .ok t0 u) (ivLength : Nat) :
    Agree (invokeA (chacha20Poly1305W w env ivLength .decrypt)) (invokeA (chacha20Poly1305 env ivLength .decrypt))
      (fun c => moderateA w env c ∧ inRangeA c) t0
    ∧ (chacha20Poly1305W w env ivLength .decrypt).tagSize = (chacha20Poly1305 env ivLength .decrypt).tagSize :=
  ⟨chapoly_agree hp.1 hp.2.2 hp.2.1 hi ivLength (fun _ h => h.1) (fun _ _ h => h.2), rfl⟩

/-- C82, the encoders and decoders of Base64 and hexadecimal: when `ofs + len - 1` is an OCaml
integer (in particular on all ranges of all strings), `put_substring` has the same effect as with
mathematical integers, whatever `put_char` does. -/
theorem C82_codec_partial {τ : Type} (hw : 0 < w) (put : Byte → M τ Unit) (s : Bytes) {ofs len : Int}
    (h : IsInt w (ofs + len - 1)) :
    putLoopW w put s ofs len = putLoop put s ofs len.toNat := by
  have e0 := pow_half hw
  have e1 := pow_pos' (w - 1)
  obtain ⟨h1, h2⟩ := h
  unfold putLoopW
  by_cases hc : ofs + len = 2 ^ (w - 1)
  · rw [hc, wrapInt_above hw (Int.le_refl _) (by omega), wrapInt_below hw (by omega) (by omega)]
    congr 1; omega
  · rw [wrapInt_of (x := ofs + len) hw ⟨by omega, by omega⟩, wrapInt_of hw ⟨by omega, by omega⟩]
    congr 1; omega

/-- What remains false of C82: when `ofs + len - 1` is larger than `max_int`, the range is illegal,
but `put_substring` of the encoders and decoders returns, having done nothing. -/
theorem C82_codec_ignores {τ : Type} (hp : Platform w env) (put : Byte → M τ Unit) {s : Bytes}
    (hs : s.length ≤ env.maxLen) {ofs len : Int} (ho : IsInt w ofs) (hl : IsInt w len)
    (h : 2 ^ (w - 1) ≤ ofs + len - 1) (t : τ) :
    ¬ InRange s ofs len ∧ putLoopW w put s ofs len t = .ok () t := by
  obtain ⟨hw, hm0, hm⟩ := hp
  have e0 : (2 : Int) ^ w = 2 * 2 ^ (w - 1) := pow_half (w := w) (by omega)
  have e1 : (2 : Int) ^ (w - 1) = 2 * 2 ^ (w - 2) := pow_half (w := w - 1) (by omega)
  have e2 : (2 : Int) ^ (w - 2) = 2 * 2 ^ (w - 3) := pow_half (w := w - 2) (by omega)
  have e3 := pow_pos' (w - 3)
  obtain ⟨o1, o2⟩ := ho
  obtain ⟨l1, l2⟩ := hl
  refine ⟨fun ⟨r1, r2, r3⟩ => by omega, ?_⟩
  unfold putLoopW
  rw [wrapInt_above (x := ofs + len) (by omega) (by omega) (by omega),
    wrapInt_of (by omega) ⟨by omega, by omega⟩,
    show (ofs + len - 2 ^ w - 1 - ofs + 1).toNat = 0 by omega]
  rfl

/-- And with the negative length `min_int` at offset 0, the whole string is processed, as by
`put_string`, before `Invalid_argument` is raised; with mathematical integers, as with the other
negative lengths, nothing would happen. -/
theorem C82_codec_min_int {τ : Type} (hp : Platform w env) (put : Byte → M τ Unit) {s : Bytes}
    (hs : s.length ≤ env.maxLen) {t t' : τ} (h : iterChars put s t = .ok () t') :
    putLoopW w put s 0 (-2 ^ (w - 1)) t = .exn .invalidArg t'
      ∧ putLoop put s 0 (-2 ^ (w - 1) : Int).toNat t = .ok () t := by
  obtain ⟨hw, hm0, hm⟩ := hp
  have e0 : (2 : Int) ^ w = 2 * 2 ^ (w - 1) := pow_half (w := w) (by omega)
  have e1 : (2 : Int) ^ (w - 1) = 2 * 2 ^ (w - 2) := pow_half (w := w - 1) (by omega)
  have e2 : (2 : Int) ^ (w - 2) = 2 * 2 ^ (w - 3) := pow_half (w := w - 2) (by omega)
  have e3 := pow_pos' (w - 3)
  constructor
  · unfold putLoopW
    rw [wrapInt_of (x := 0 + -2 ^ (w - 1)) (by omega) ⟨by omega, by omega⟩,
      wrapInt_below (by omega) (by omega) (by omega)]
    exact putLoop_all put s s [] t t' _ rfl h (by omega)
  · rw [show (-2 ^ (w - 1) : Int).toNat = 0 by omega]
    rfl

namespace Example

open Spec Cipher

/-- 64-bit and 32-bit platforms. -/
example : Platform 63 env64 := ⟨by decide, by decide, by decide⟩
example : Platform 31 { env64 with maxLen := 16777211 } := ⟨by decide, by decide, by decide⟩

/-- Legal calls are moderate: no string is longer than `maxLen`. -/
example (hp : Platform w env) {b : Bytes} (hb : b.length ≤ env.maxLen) {ofs len : Int} (h : InRange b ofs len) :
    moderateT w env (.buf (.putSubstring b ofs len)) := by
  obtain ⟨h1, h2, h3⟩ := h
  obtain ⟨p1, p2, p3⟩ := hp
  have := pow_pos' (w - 3)
  exact ⟨hb, ⟨by omega, by omega⟩, ⟨by omega, by omega⟩⟩

/-- So are some illegal ones. -/
example : moderateT 63 env64 (.buf (.putSubstring [1, 2, 3] (-1) 1000000)) :=
  ⟨by decide, ⟨by decide, by decide⟩, ⟨by decide, by decide⟩⟩

/-- `put_substring s 0 max_int` on a new `Cipher.arcfour` never returns, on 64-bit and 32-bit
platforms. -/
example (s : Arcfour) : (streamTransformW 63 env64 Verif.arcfour).putSubstring [1, 2, 3] 0 4611686018427387903
    (streamInit env64 s) = .loop :=
  C82_stream_hangs (by decide) Verif.arcfour s _ _ (by decide) (by decide)
example (s : Arcfour) : (streamTransformW 31 env64 Verif.arcfour).putSubstring [1, 2, 3] 0 1073741823
    (streamInit env64 s) = .loop :=
  C82_stream_hangs (by decide) Verif.arcfour s _ _ (by decide) (by decide)

/-- With mathematical integers it would raise an exception, as any other illegal length does. -/
example (s : Arcfour) (hs : s.state.length = 256) {len : Int} (h : 3 < len) : ∃ e t,
    (streamTransform env64 Verif.arcfour).putSubstring [1, 2, 3] 0 len (streamInit env64 s)
      = .exn e t ∧ RangeExn e :=
  streamPut_range arcfour_safe env64 _ (streamInit_safe env64 hs) _ _ _
    (fun h' => by have := h'.2.2; simp at this; omega)

/-- The hypotheses of `C82_block` hold of a DES key in CBC mode. -/
example : ∃ b m, Cipher.desBlock .encrypt (List.replicate 8 1) = some (.ok b)
    ∧ chained env64 .CBC none .encrypt b = .ok m := ⟨_, _, rfl, rfl⟩
example : ∃ b st, Cipher.desBlock .encrypt (List.replicate 8 1) = some (.ok b)
    ∧ macInit env64 b.c b.s none = .ok st := ⟨_, _, rfl, rfl⟩

/-- The padding schemes of the library meet the hypotheses of `C82_padded`. -/
example : PadKeeps Padding.length ∧ PadStrips Padding.length := ⟨padKeeps_length, padStrips_length⟩
example : PadKeeps Padding._8000 ∧ PadStrips Padding._8000 := ⟨padKeeps_8000, padStrips_8000⟩

/-- The hypotheses of `C82_mac_final_triple` hold of three DES keys. -/
example : ∃ b1 b2 b3 st, Cipher.desBlock .encrypt (List.replicate 8 1) = some (.ok b1)
    ∧ Cipher.desBlock .decrypt (List.replicate 8 2) = some (.ok b2)
    ∧ Cipher.desBlock .encrypt (List.replicate 8 3) = some (.ok b3)
    ∧ mac3Init env64 b1.c b2.c b3.c b1.s b2.s b3.s none = .ok st := ⟨_, _, _, _, rfl, rfl, rfl, rfl⟩

/-- The hypotheses of `C82_cmac`, `C82_gcm` hold of all AES keys, those of `C82_chapoly_encrypt_partial`,
`C82_chapoly_decrypt_partial` of all ChaCha20 keys and IVs. -/
example (host : AesHost) {key : Bytes} (hk : key.length = 16) (header iv : Bytes) (pclmul : Bool) :
    ∃ b, Cipher.aesBlock host .encrypt key = some (.ok b)
      ∧ (∃ st, aesCmacNew env64 b.c b.s none = .ok st b.s)
      ∧ ∃ t, aesGcmInit env64 pclmul b.c b.s header iv = .ok t b.s := by
  obtain ⟨b, h1, h2, h3⟩ := aesBlock_enc host (.inl hk)
  obtain ⟨st, e, _⟩ := C17_cmac h3 h2 env64 none (fun _ h => by cases h)
  obtain ⟨t, e', _⟩ := C34_gcm_encrypt env64 pclmul h3 h2 header iv [] (fun _ h => by cases h)
    (by decide) (by decide)
  exact ⟨b, h1, ⟨st, e⟩, t, e'⟩
example {key iv : Bytes} (hk : key.length = 32) (hiv : iv.length = 12) (header : Bytes) :
    ∃ t, chacha20Poly1305Init env64 header iv key = .ok t () := by
  obtain ⟨t, e, _⟩ := C35_chapoly_encrypt env64 (.inr hk) (.inr hiv) header [] (fun _ h => by cases h)
    (by decide) (by decide) (by decide)
  exact ⟨t, e⟩

/-- `put_substring "abc" 2 max_int` on a hexadecimal encoder returns, and nothing is output. -/
example : putLoopW 63 (Hex.encPutChar env64) [97, 98, 99] 2 4611686018427387903 (Hex.encInit env64)
    = .ok () (Hex.encInit env64) :=
  (C82_codec_ignores (env := env64) ⟨by decide, by decide, by decide⟩ (Hex.encPutChar env64) (by decide)
    ⟨by decide, by decide⟩ ⟨by decide, by decide⟩ (by decide) (Hex.encInit env64)).2

end Example
end Verif
