import Verif.Proof.SafeAead
import Verif.Proof.SafeCodec
import Verif.Proof.SafeComb
import Verif.Props.C67_Cipher
import Verif.Props.C31_Hmac
/-
C65: whatever an object has been through, calls with illegal offsets and lengths are rejected and
no call accesses memory out of bounds; and the second half of C63: the same holds after `wipe`,
for the objects whose methods may still be called then. `MemorySafe`, `RangeChecked`,
`RangeRejected` and the sets of calls are defined in `Spec/Safety.lean`. The classes of which C63 or
C65 is false are listed at the end with a reference to the theorem showing it.
-/
namespace Verif

open Spec Cipher

/-! ### Ciphers -/

/-- C63, C65 for `Cipher.des`: with every mode, padding scheme, IV, key and direction, after every
sequence of calls with any arguments, `wipe` included, every call returns or raises an exception,
and `put_substring` on an illegal range raises or (length negative) does nothing. -/
theorem C65_cipher_des {env : Env} {mode : Option Mode} {pad : Option PadScheme} {iv : Option Bytes}
    {key : Bytes} {dir : Dir} {A : AnyTransform} (hp : ∀ p, pad = some p → PadKeeps p)
    (h : Cipher.des env mode pad iv key dir = some (.ok A)) :
    MemorySafe (invoke A.T) anyCall A.t ∧ RangeChecked (invoke A.T) anyCall A.t A.T.putSubstring :=
  (make_ok hp (fun _ hb => (desBlock_ok hb).1) h).any

/-- C63, C65 for `Cipher.triple_des`. -/
theorem C65_cipher_triple_des {env : Env} {mode : Option Mode} {pad : Option PadScheme} {iv : Option Bytes}
    {key : Bytes} {dir : Dir} {A : AnyTransform} (hp : ∀ p, pad = some p → PadKeeps p)
    (h : Cipher.tripleDes env mode pad iv key dir = some (.ok A)) :
    MemorySafe (invoke A.T) anyCall A.t ∧ RangeChecked (invoke A.T) anyCall A.t A.T.putSubstring :=
  (make_ok hp (fun _ hb => (tripleDesBlock_ok hb).1) h).any

/-- C63, C65 for `Cipher.blowfish`. -/
theorem C65_cipher_blowfish {env : Env} {mode : Option Mode} {pad : Option PadScheme} {iv : Option Bytes}
    {key : Bytes} {dir : Dir} {A : AnyTransform} (hp : ∀ p, pad = some p → PadKeeps p)
    (h : Cipher.blowfish env mode pad iv key dir = some (.ok A)) :
    MemorySafe (invoke A.T) anyCall A.t ∧ RangeChecked (invoke A.T) anyCall A.t A.T.putSubstring :=
  (make_ok hp (fun _ hb => (blowfishBlock_ok hb).1) h).any

/-- C65 for `Cipher.aes`, with or without AES-NI, as long as `wipe` is not called: after `wipe` it
is false (`C63_aes_encrypt_after_wipe_out_of_bounds`). -/
theorem C65_cipher_aes_partial {env : Env} {host : AesHost} {mode : Option Mode} {pad : Option PadScheme}
    {iv : Option Bytes} {key : Bytes} {dir : Dir} {A : AnyTransform} (hp : ∀ p, pad = some p → PadKeeps p)
    (h : Cipher.aes env host mode pad iv key dir = some (.ok A)) :
    MemorySafe (invoke A.T) notWipe A.t ∧ RangeChecked (invoke A.T) notWipe A.t A.T.putSubstring :=
  (make_ok hp (fun _ hb => (aesBlock_ok hb).1) h).notWipe

/-- C63, C65 for `Cipher.arcfour`. -/
theorem C65_cipher_arcfour {env : Env} {key : Bytes} {dir : Dir} {A : AnyTransform}
    (h : Cipher.arcfour env key dir = .ok A) :
    MemorySafe (invoke A.T) anyCall A.t ∧ RangeChecked (invoke A.T) anyCall A.t A.T.putSubstring :=
  (arcfour_ok h).any

/-- C63, C65 for `Cipher.chacha20`. -/
theorem C65_cipher_chacha20 {env : Env} {iv : Option Bytes} {ctr : Option W64} {key : Bytes} {dir : Dir}
    {A : AnyTransform} (h : Cipher.chacha20 env iv ctr key dir = .ok A) :
    MemorySafe (invoke A.T) anyCall A.t ∧ RangeChecked (invoke A.T) anyCall A.t A.T.putSubstring :=
  (chacha20_ok h).any

/-- The padding schemes of the library keep the length of the buffer. -/
theorem C65_paddings : PadKeeps Padding._8000 ∧ PadKeeps Padding.length :=
  ⟨padKeeps_8000, padKeeps_length⟩

/-! ### MACs based on block ciphers -/

/-- C63, C65 for `MAC.des`. -/
theorem C65_mac_des {env : Env} {iv : Option Bytes} {pad : Option PadScheme} {key : Bytes} {A : AnyHash}
    (hp : ∀ p, pad = some p → PadKeeps p) (h : MAC.des env iv pad key = some (.ok A)) :
    MemorySafe (invokeH A.H) anyCall A.t ∧ RangeChecked (invokeH A.H) anyCall A.t A.H.addSubstring :=
  (MAC.ofBlock_ok hp (fun _ hb => desBlock_ok hb) h).any

/-- C63, C65 for `MAC.triple_des`. -/
theorem C65_mac_triple_des {env : Env} {iv : Option Bytes} {pad : Option PadScheme} {key : Bytes} {A : AnyHash}
    (hp : ∀ p, pad = some p → PadKeeps p) (h : MAC.tripleDes env iv pad key = some (.ok A)) :
    MemorySafe (invokeH A.H) anyCall A.t ∧ RangeChecked (invokeH A.H) anyCall A.t A.H.addSubstring :=
  (MAC.ofBlock_ok hp (fun _ hb => tripleDesBlock_ok hb) h).any

/-- C63, C65 for `MAC.des_final_triple_des`. -/
theorem C65_mac_des_final_triple_des {env : Env} {iv : Option Bytes} {pad : Option PadScheme} {key : Bytes}
    {A : AnyHash} (hp : ∀ p, pad = some p → PadKeeps p)
    (h : MAC.desFinalTripleDes env iv pad key = some (.ok A)) :
    MemorySafe (invokeH A.H) anyCall A.t ∧ RangeChecked (invokeH A.H) anyCall A.t A.H.addSubstring :=
  (MAC.desFinalTripleDes_ok hp h).any

/-- C65 for `MAC.aes`, without `wipe`. -/
theorem C65_mac_aes_partial {env : Env} {host : AesHost} {iv : Option Bytes} {pad : Option PadScheme} {key : Bytes}
    {A : AnyHash} (hp : ∀ p, pad = some p → PadKeeps p) (h : MAC.aes env host iv pad key = some (.ok A)) :
    MemorySafe (invokeH A.H) notWipeH A.t ∧ RangeChecked (invokeH A.H) notWipeH A.t A.H.addSubstring :=
  (MAC.ofBlock_ok hp (fun _ hb => aesBlock_ok hb) h).notWipe

/-- C65 for `MAC.aes_cmac`, without `wipe`. -/
theorem C65_mac_aes_cmac_partial {env : Env} {host : AesHost} {iv : Option Bytes} {key : Bytes}
    {A : AnyHash} (h : MAC.aesCmac env host iv key = some (.ok A)) :
    MemorySafe (invokeH A.H) notWipeH A.t ∧ RangeChecked (invokeH A.H) notWipeH A.t A.H.addSubstring :=
  (MAC.aesCmac_ok h).notWipe

/-! ### Authenticated ciphers -/

/-- C65 for `AEAD.aes_gcm`, without `wipe`. -/
theorem C65_aes_gcm_partial {env : Env} {host : AesHost} {pclmul : Bool} {header : Option Bytes} {iv key : Bytes}
    {dir : Dir} {A : AEAD.AnyAuth} (h : AEAD.aesGcm env host pclmul header iv key dir = some (.ok A)) :
    MemorySafe (invokeA A.T) notWipeA A.t ∧
      RangeChecked (invokeA A.T) notWipeA A.t A.T.base.putSubstring :=
  (AEAD.aesGcm_ok h).notWipe

/-- C63, C65 for `AEAD.chacha20_poly1305 Encrypt`. -/
theorem C65_chapoly_encrypt {env : Env} {header iv key : Bytes} {t : StreamSt ChaPolySt}
    (h : chacha20Poly1305Init env header iv key = .ok t ()) :
    MemorySafe (invokeA (chacha20Poly1305 env iv.length .encrypt)) anyCall t ∧
      RangeChecked (invokeA (chacha20Poly1305 env iv.length .encrypt)) anyCall t
        (chacha20Poly1305 env iv.length .encrypt).base.putSubstring := by
  have hp := chapolyEnc_preserves env iv.length
  have h0 := chapolyInit_safe h
  exact ⟨hp.safe h0, fun t ht b ofs len hb =>
    .inl (streamPut_range (chapolyEnc_safe iv.length) env t (hp.reachable h0 ht) b ofs len hb)⟩

/-- C63, C65 for `AEAD.chacha20_poly1305 Decrypt`: only for calls of `put_substring` with a legal range;
for the others C65 is false (`C65_chapoly_decrypt_out_of_bounds`). -/
theorem C65_chapoly_decrypt_partial {env : Env} {header iv key : Bytes} {t : StreamSt ChaPolySt}
    (h : chacha20Poly1305Init env header iv key = .ok t ()) :
    MemorySafe (invokeA (chacha20Poly1305 env iv.length .decrypt)) inRangeA t :=
  (chapolyDec_preserves env iv.length).safe (chapolyInit_safe h)

/-! ### Codecs -/

/-- C63, C65 for the Base64 and hexadecimal codecs. -/
theorem C65_codecs (env : Env) :
    (∀ multiline padding, MemorySafe (invoke (B64.encode env multiline padding)) anyCall (B64.encInit env) ∧
      RangeChecked (invoke (B64.encode env multiline padding)) anyCall (B64.encInit env)
        (B64.encode env multiline padding).putSubstring) ∧
    (MemorySafe (invoke (B64.decode env)) anyCall (B64.decInit env) ∧
      RangeChecked (invoke (B64.decode env)) anyCall (B64.decInit env) (B64.decode env).putSubstring) ∧
    (MemorySafe (invoke (Hex.encode env)) anyCall (Hex.encInit env) ∧
      RangeChecked (invoke (Hex.encode env)) anyCall (Hex.encInit env) (Hex.encode env).putSubstring) ∧
    (MemorySafe (invoke (Hex.decode env)) anyCall (Hex.decInit env) ∧
      RangeChecked (invoke (Hex.decode env)) anyCall (Hex.decInit env) (Hex.decode env).putSubstring) :=
  ⟨fun m p => (B64.encode_ok env m p).any, (B64.decode_ok env).any, (Hex.encode_ok env).any,
    (Hex.decode_ok env).any⟩

/-! ### Hashes -/

/-- C63, C65 for SHA-1: illegal ranges raise `Invalid_argument` and change nothing. -/
theorem C65_sha1 {buf0 : Bytes} (hb : buf0.length = 64) :
    MemorySafe (invokeH sha1) anyCall (sha1Init buf0) ∧
      RangeRejected (invokeH sha1) anyCall (sha1Init buf0) sha1.addSubstring :=
  (stub_ok sha1_stub ⟨hb, by show 0 < 64; decide⟩ sha1Wipe_safe).any

/-- C63, C65 for RIPEMD-160. -/
theorem C65_ripemd160 {buf0 : Bytes} (hb : buf0.length = 64) :
    MemorySafe (invokeH ripemd160) anyCall (rmdInit buf0) ∧
      RangeRejected (invokeH ripemd160) anyCall (rmdInit buf0) ripemd160.addSubstring :=
  (stub_ok rmd_stub ⟨hb, by show 0 < 64; decide⟩ sha1Wipe_safe).any

/-- C63, C65 for `Hash.sha2`, of every size. -/
theorem C65_sha2 {sz : Int} {buf0 : Bytes}
    (hb : buf0.length = if sz = 224 ∨ sz = 256 then 64 else 128) {A : AnyHash} (h : sha2New sz buf0 = .ok A) :
    MemorySafe (invokeH A.H) anyCall A.t ∧ RangeRejected (invokeH A.H) anyCall A.t A.H.addSubstring := by
  unfold sha2New at h
  split at h
  · next e =>
    rw [← Except.ok.inj h]
    exact (stub_ok (sha2_stub sha256Code (by decide) (k := 7) (by decide))
      ⟨by rw [if_pos (.inl e)] at hb; exact hb, by show 0 < 64; decide⟩ sha2Wipe_safe).any
  · split at h
    · next e =>
      rw [← Except.ok.inj h]
      exact (stub_ok (sha2_stub sha256Code (by decide) (k := 8) (by decide))
        ⟨by rw [if_pos (.inr e)] at hb; exact hb, by show 0 < 64; decide⟩ sha2Wipe_safe).any
    · split at h
      · rw [← Except.ok.inj h]
        exact (stub_ok (sha2_stub sha512Code (by decide) (k := 6) (by decide))
          ⟨by rw [if_neg (by omega)] at hb; exact hb, by show 0 < 128; decide⟩ sha2Wipe_safe).any
      · split at h
        · rw [← Except.ok.inj h]
          exact (stub_ok (sha2_stub sha512Code (by decide) (k := 8) (by decide))
            ⟨by rw [if_neg (by omega)] at hb; exact hb, by show 0 < 128; decide⟩ sha2Wipe_safe).any
        · cases h

/-- C65 for SHA-3 and Keccak, without `wipe` (after it, false: `C63_sha3_after_wipe`). -/
theorem C65_sha3_partial {sz : Int} {official : Bool} {buf0 : Bytes} (hb : buf0.length = 200 - 2 * (sz.toNat / 8))
    {s : Option Sha3Ctx} (h : sha3New sz buf0 = .ok s) :
    MemorySafe (invokeH (sha3Class sz.toNat official)) notWipeH s ∧
      RangeRejected (invokeH (sha3Class sz.toNat official)) notWipeH s
        (sha3Class sz.toNat official).addSubstring := by
  unfold sha3New at h
  split at h
  · next hs =>
    rw [← Except.ok.inj h]
    refine StubOk.notWipe (L := fun _ => True) ⟨_, stubHash_safe (sha3_stub _), ⟨_, rfl, sha3InitC_safe ?_ hb⟩, ?_,
      fun t _ _ _ hr => stubHash_addSubstring_bad hr t⟩
    · omega
    · exact False.elim
  · cases h

/-- C63, C65 for BLAKE2b. -/
theorem C65_blake2b {sz : Int} {key buf0 : Bytes} (hb : buf0.length = 128) {s : Blake2Ctx 64}
    (h : blake2bNew sz key buf0 = .ok (some s)) :
    MemorySafe (invokeH (blake2Class blake2bCode sz)) anyCall s ∧
      RangeRejected (invokeH (blake2Class blake2bCode sz)) anyCall s (blake2Class blake2bCode sz).addSubstring := by
  unfold blake2bNew at h
  split at h
  · exact (stub_ok (blake2_stub blake2bCode (by decide) _) (blake2Init_safe hb (Except.ok.inj h)) blake2Wipe_safe).any
  · cases h

/-- C63, C65 for BLAKE2s. -/
theorem C65_blake2s {sz : Int} {key buf0 : Bytes} (hb : buf0.length = 64) {s : Blake2Ctx 32}
    (h : blake2sNew sz key buf0 = .ok (some s)) :
    MemorySafe (invokeH (blake2Class blake2sCode sz)) anyCall s ∧
      RangeRejected (invokeH (blake2Class blake2sCode sz)) anyCall s (blake2Class blake2sCode sz).addSubstring := by
  unfold blake2sNew at h
  split at h
  · exact (stub_ok (blake2_stub blake2sCode (by decide) _) (blake2Init_safe hb (Except.ok.inj h)) blake2Wipe_safe).any
  · cases h

/-- C65 for BLAKE3, without `wipe` (after it, false: `C63_blake3_after_wipe`), for less than 2^64
bytes of data. -/
theorem C65_blake3_partial {e : B3Env} (he : 1 ≤ e.maxSimd) {key : Bytes} {sz : Int} {stack0 : Bytes}
    (hs : stack0.length = 1760) {s : Option B3Hasher} (h : b3New key sz stack0 = .ok s) :
    MemorySafeBelow (2 ^ 64) (invokeH (b3Class e sz)) notWipeH HCall.bytes s ∧
      RangeRejected (invokeH (b3Class e sz)) notWipeH s (b3Class e sz).addSubstring :=
  ⟨blake3_safe he hs h, fun t _ _ _ _ hr => stubHash_addSubstring_bad hr t⟩

/-- C63, C65 for SipHash. -/
theorem C65_siphash {sz : Int} {key buf0 : Bytes} (hb : buf0.length = 8) {s : SipCtx}
    (h : sipNew sz key buf0 = .ok s) :
    MemorySafe (invokeH (sipClass sz)) anyCall s ∧
      RangeRejected (invokeH (sipClass sz)) anyCall s (sipClass sz).addSubstring := by
  unfold sipNew at h
  split at h
  · next hk =>
    rw [← Except.ok.inj h]
    refine (stub_ok (sip_stub (n := (sz / 8).toNat) ?_) ?_ sipWipe_safe).any
    · rcases hk.2 with rfl | rfl <;> decide
    · exact ⟨hb, by show 0 < 8; decide⟩
  · cases h

/-! ### HMAC -/

/-- C63, C65 for HMAC, over a hash of module `Hash` whose results fit in its blocks. -/
theorem hmac_any {size : Nat} {update : τ → Bytes → Option τ} {final : τ → Option (Bytes × τ)} {wipe : τ → τ}
    {I : τ → Prop} {L : Bytes → Prop} {n : Nat} {fresh : Nat → τ} {s0 s : τ} {key : Bytes}
    (hs : StubSafe update final I L) (hw : ∀ t, I t → I (wipe t)) (hL : ∀ r, L r → r.length ≤ n)
    (hf : ∀ i, I (fresh i)) (h0 : I s0)
    (h : hmacNew (stubHash size update final wipe) n fresh key s0 = .ok () s) :
    MemorySafe (invokeH (hmac (stubHash size update final wipe) n fresh key)) anyCall s ∧
      RangeRejected (invokeH (hmac (stubHash size update final wipe) n fresh key)) anyCall s
        (hmac (stubHash size update final wipe) n fresh key).addSubstring := by
  have hh := stubHash_safe (size := size) (wipe := wipe) hs
  have hi := hmacNew_safe hh hw hL hf key s0 h0
  rw [h] at hi
  exact StubOk.any ⟨I, hmac_safe hh hw hL hf key, hi, fun _ => hw, fun t _ _ _ hr =>
    stubHash_addSubstring_bad (size := size) (final := final) (wipe := wipe) hr t⟩

/-- C63, C65 for `MAC.hmac_sha1`. `fresh` are the SHA-1 objects that the methods create. -/
theorem C65_hmac_sha1 {buf0 : Nat → Bytes} (hb : ∀ i, (buf0 i).length = 64) {key : Bytes} {s : Sha1Ctx}
    (h : hmacNew sha1 64 (fun i => sha1Init (buf0 (i + 1))) key (sha1Init (buf0 0)) = .ok () s) :
    MemorySafe (invokeH (hmac sha1 64 (fun i => sha1Init (buf0 (i + 1))) key)) anyCall s ∧
      RangeRejected (invokeH (hmac sha1 64 (fun i => sha1Init (buf0 (i + 1))) key)) anyCall s
        (hmac sha1 64 (fun i => sha1Init (buf0 (i + 1))) key).addSubstring :=
  hmac_any sha1_stub sha1Wipe_safe (fun r hr => by rw [hr]; decide)
    (fun i => ⟨hb (i + 1), by show 0 < 64; decide⟩) ⟨hb 0, by show 0 < 64; decide⟩ h

/-- C63, C65 for `MAC.hmac_ripemd160`. -/
theorem C65_hmac_ripemd160 {buf0 : Nat → Bytes} (hb : ∀ i, (buf0 i).length = 64) {key : Bytes} {s : Sha1Ctx}
    (h : hmacNew ripemd160 64 (fun i => rmdInit (buf0 (i + 1))) key (rmdInit (buf0 0)) = .ok () s) :
    MemorySafe (invokeH (hmac ripemd160 64 (fun i => rmdInit (buf0 (i + 1))) key)) anyCall s ∧
      RangeRejected (invokeH (hmac ripemd160 64 (fun i => rmdInit (buf0 (i + 1))) key)) anyCall s
        (hmac ripemd160 64 (fun i => rmdInit (buf0 (i + 1))) key).addSubstring :=
  hmac_any rmd_stub sha1Wipe_safe (fun r hr => by rw [hr]; decide)
    (fun i => ⟨hb (i + 1), by show 0 < 64; decide⟩) ⟨hb 0, by show 0 < 64; decide⟩ h

/-- C63, C65 for `MAC.hmac_sha256`. -/
theorem C65_hmac_sha256 {buf0 : Nat → Bytes} (hb : ∀ i, (buf0 i).length = 64) {key : Bytes} {s : Sha2Ctx 32}
    (h : hmacNew sha256 64 (fun i => sha256Init (buf0 (i + 1))) key (sha256Init (buf0 0)) = .ok () s) :
    MemorySafe (invokeH (hmac sha256 64 (fun i => sha256Init (buf0 (i + 1))) key)) anyCall s ∧
      RangeRejected (invokeH (hmac sha256 64 (fun i => sha256Init (buf0 (i + 1))) key)) anyCall s
        (hmac sha256 64 (fun i => sha256Init (buf0 (i + 1))) key).addSubstring :=
  hmac_any (sha2_stub sha256Code (by decide) (k := 8) (by decide)) sha2Wipe_safe
    (fun r hr => by rw [hr]; decide)
    (fun i => ⟨hb (i + 1), by show 0 < 64; decide⟩) ⟨hb 0, by show 0 < 64; decide⟩ h

/-- C63, C65 for `MAC.hmac_sha384`. -/
theorem C65_hmac_sha384 {buf0 : Nat → Bytes} (hb : ∀ i, (buf0 i).length = 128) {key : Bytes} {s : Sha2Ctx 64}
    (h : hmacNew sha384 128 (fun i => sha384Init (buf0 (i + 1))) key (sha384Init (buf0 0)) = .ok () s) :
    MemorySafe (invokeH (hmac sha384 128 (fun i => sha384Init (buf0 (i + 1))) key)) anyCall s ∧
      RangeRejected (invokeH (hmac sha384 128 (fun i => sha384Init (buf0 (i + 1))) key)) anyCall s
        (hmac sha384 128 (fun i => sha384Init (buf0 (i + 1))) key).addSubstring :=
  hmac_any (sha2_stub sha512Code (by decide) (k := 6) (by decide)) sha2Wipe_safe
    (fun r hr => by rw [hr]; decide)
    (fun i => ⟨hb (i + 1), by show 0 < 128; decide⟩) ⟨hb 0, by show 0 < 128; decide⟩ h

/-- C63, C65 for `MAC.hmac_sha512`. -/
theorem C65_hmac_sha512 {buf0 : Nat → Bytes} (hb : ∀ i, (buf0 i).length = 128) {key : Bytes} {s : Sha2Ctx 64}
    (h : hmacNew sha512 128 (fun i => sha512Init (buf0 (i + 1))) key (sha512Init (buf0 0)) = .ok () s) :
    MemorySafe (invokeH (hmac sha512 128 (fun i => sha512Init (buf0 (i + 1))) key)) anyCall s ∧
      RangeRejected (invokeH (hmac sha512 128 (fun i => sha512Init (buf0 (i + 1))) key)) anyCall s
        (hmac sha512 128 (fun i => sha512Init (buf0 (i + 1))) key).addSubstring :=
  hmac_any (sha2_stub sha512Code (by decide) (k := 8) (by decide)) sha2Wipe_safe
    (fun r hr => by rw [hr]; decide)
    (fun i => ⟨hb (i + 1), by show 0 < 128; decide⟩) ⟨hb 0, by show 0 < 128; decide⟩ h

/-! ### Combinations -/

theorem callsOf_eq (w : Bool) : callsOf w = wipeOr w := by
  funext c; cases w <;> simp [callsOf, wipeOr, anyCall, notWipe]
theorem callsOfA_eq (w : Bool) : callsOfA w = wipeOrA w := by
  funext c; cases w <;> simp [callsOfA, wipeOrA, anyCall, notWipeA]
theorem callsOfH_eq (w : Bool) : callsOfH w = wipeOrH w := by
  funext c; cases w <;> simp [callsOfH, wipeOrH, anyCall, notWipeH]

/-- C63, C65: `compose` of two transforms that never access memory out of bounds never does (with
`wipe` among the calls if `w`). -/
theorem C65_compose {T1 : Transform τ1} {T2 : Transform τ2} {t1 : τ1} {t2 : τ2} (w : Bool)
    (h1 : MemorySafe (invoke T1) (callsOf w) t1) (h2 : MemorySafe (invoke T2) (callsOf w) t2) :
    MemorySafe (invoke (compose T1 T2)) (callsOf w) (t1, t2) := by
  rw [callsOf_eq] at *
  obtain ⟨a1, b1, c1⟩ := TSafe.of_preserves (MemorySafe.preserves h1)
  obtain ⟨a2, b2, c2⟩ := TSafe.of_preserves (MemorySafe.preserves h2)
  exact (compose_safe a1 b1 c1 a2 b2 c2).safe ⟨Reachable.start, Reachable.start⟩

/-- C63, C65: the same of `transform_and_hash`. -/
theorem C65_transform_and_hash {T : Transform τ1} {H : HashObj η} {t : τ1} {s : η} (w : Bool)
    (h1 : MemorySafe (invoke T) (callsOf w) t) (h2 : MemorySafe (invokeH H) (callsOfH w) s) :
    MemorySafe (invokeA (transformAndHash T H)) (callsOfA w) (t, s) := by
  rw [callsOf_eq] at h1; rw [callsOfH_eq] at h2; rw [callsOfA_eq]
  obtain ⟨a1, b1, c1⟩ := TSafe.of_preserves (MemorySafe.preserves h1)
  obtain ⟨a2, c2⟩ := HSafe.of_preserves (MemorySafe.preserves h2)
  exact (andHash_safe a1 b1 c1 a2 c2).safe ⟨Reachable.start, Reachable.start⟩

/-- C63, C65: the same of `transform_then_hash`. -/
theorem C65_transform_then_hash (env : Env) {T : Transform τ1} {H : HashObj η} {t : τ1} {s : η} (w : Bool)
    (h1 : MemorySafe (invoke T) (callsOf w) t) (h2 : MemorySafe (invokeH H) (callsOfH w) s) :
    MemorySafe (invokeA (transformThenHash env T H)) (callsOfA w) (thenHashInit env t s) := by
  rw [callsOf_eq] at h1; rw [callsOfH_eq] at h2; rw [callsOfA_eq]
  obtain ⟨a1, b1, c1⟩ := TSafe.of_preserves (MemorySafe.preserves h1)
  obtain ⟨a2, c2⟩ := HSafe.of_preserves (MemorySafe.preserves h2)
  exact (thenHash_safe env a1 b1 c1 a2 c2).safe ⟨Reachable.start, Reachable.start, OBuf.safe_init env (by decide)⟩

/-! ### The hypotheses are met -/

/-- DES in counter mode with padding: an object, which is safe in all states. -/
example : ∃ A, Cipher.des Example.env64 (some (.CTR_N 4)) (some Padding._8000) (some Example.desKey)
    Example.desKey .encrypt = some (.ok A) ∧ MemorySafe (invoke A.T) anyCall A.t := by
  obtain ⟨tE, tD, h1, h2, h3⟩ := C67_des (env := Example.env64) (env' := Example.env64) (maxLen := 1000)
    (mode := some (.CTR_N 4)) (pad := some Padding._8000) (iv := some Example.desKey) (key := Example.desKey)
    rfl (by decide) (by decide) (by simp [ModeOk]) (.inr (by simp [IVOk, Example.desKey])) ._8000
  exact ⟨tE, h1, (C65_cipher_des (fun p hp => by cases hp; exact C65_paddings.1) h1).1⟩

/-- AES. -/
example (host : AesHost) : ∃ A, Cipher.aes Example.env64 host (some (.CFB 1)) none none Example.aesKey .encrypt
    = some (.ok A) ∧ MemorySafe (invoke A.T) notWipe A.t := by
  obtain ⟨tE, tD, h1, h2, h3⟩ := C67_aes (env := Example.env64) (env' := Example.env64)
    (maxLen := 1000) (mode := some (.CFB 1)) (pad := none) (padf := id) (iv := none) host host
    (key := Example.aesKey) (.inl rfl) (by decide) (by decide) (by simp [ModeOk]) (.inr (by simp [IVOk])) .none
  exact ⟨tE, h1, (C65_cipher_aes_partial (fun p hp => by cases hp) h1).1⟩

/-- The state after some calls, whose exceptions are caught. -/
def stateAfter (run : μ → M τ Unit) : List μ → τ → Option τ
  | [], t => some t
  | c :: cs, t =>
    match run c t with
    | .ok _ t' => stateAfter run cs t'
    | .exn _ t' => stateAfter run cs t'
    | _ => none

theorem stateAfter_reachable {run : μ → M τ Unit} {t0 : τ} : ∀ (cs : List μ) {t t' : τ},
    Reachable run anyCall t0 t → stateAfter run cs t = some t' → Reachable run anyCall t0 t'
  | [], _, _, hr, h => by cases h; exact hr
  | c :: cs, t, t', hr, h => by
    unfold stateAfter at h
    cases hc : run c t with
    | ok a t1 => rw [hc] at h; exact stateAfter_reachable cs (.returned hr trivial hc) h
    | exn e t1 => rw [hc] at h; exact stateAfter_reachable cs (.raised hr trivial hc) h
    | ub => rw [hc] at h; cases h
    | loop => rw [hc] at h; cases h

/-- A history in which data are put, an exception is raised, the object is wiped and used again. -/
def Example.abuse : List TCall :=
  [.buf (.putSubstring [1] 0 2), .buf (.putChar 7), .buf .getChar, .buf .wipe, .buf (.putString [9]),
    .buf (.putSubstring [1] (-1) 1), .finish]

example : ∃ t, Reachable (invoke (Hex.encode Example.env64)) anyCall (Hex.encInit Example.env64) t ∧
    t.obeg = 1 ∧ t.oend = 6 := by
  have h : (stateAfter (invoke (Hex.encode Example.env64)) Example.abuse (Hex.encInit Example.env64)).map
      (fun t => (t.obeg, t.oend)) = some (1, 6) := by decide +kernel
  rw [Option.map_eq_some_iff] at h
  obtain ⟨t, h1, h2⟩ := h
  exact ⟨t, stateAfter_reachable _ .start h1, congrArg Prod.fst h2, congrArg Prod.snd h2⟩

/-- HMAC-SHA-1 with a key of two bytes. -/
example : ∃ s, MemorySafe (invokeH (hmac sha1 64 (fun _ => sha1Init (List.replicate 64 0)) [1, 2])) anyCall s := by
  obtain ⟨s, h, -⟩ := C31_hmac_sha1 (fun _ => List.replicate 64 0) (fun _ => rfl) [1, 2] (by decide +kernel)
  exact ⟨s, (C65_hmac_sha1 (buf0 := fun _ => List.replicate 64 0) (fun _ => rfl) h).1⟩

example : b3New [] 256 (List.replicate 1760 0) = .ok (some (b3Init [] (List.replicate 1760 0))) := rfl
example : sipNew 64 (List.replicate 16 1) (List.replicate 8 0)
    = .ok (sipInit (List.replicate 16 1) 8 (List.replicate 8 0)) := rfl

end Verif
