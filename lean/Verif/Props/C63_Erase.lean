import Verif.Spec.Erase
import Verif.Model.Combinators
import Verif.Model.Codec
import Verif.Model.Ripemd
import Verif.Model.Mac
import Verif.Model.Random
import Verif.Props.C34_Gcm
import Verif.Props.C29_Blake3
/-
C63, first half: after `wipe`, the buffers of the object contain only zeroes. The theorems hold of
every state of the object, in particular of the reachable ones. `Zeroed` and the lists of the fields
of each context are in `Spec/Erase.lean`. The second half is in `C63_C65_Safety.lean`.

Not covered: the buffers that `ensure_capacity` replaced by larger ones, which nobody overwrites.
-/
namespace Verif

open Spec

theorem zero_wipe (b : Bytes) : Zeroed (wipeBytes b) := fun x hx => List.eq_of_mem_replicate hx

theorem zero_map [OfNat β 0] (l : List α) : Zeroed (l.map fun _ => (0 : β)) := by
  intro x hx
  obtain ⟨_, _, h⟩ := List.mem_map.1 hx
  exact h.symm

/-! ### Block ciphers -/

/-- C63: `wipe` zeroes the key schedules of DES, triple DES and Blowfish, and those of AES except for
their last byte, the number of rounds, which becomes 16. -/
theorem C63_key_schedules_partial :
    (∀ k, Zeroed (Des.cipher.wipe k)) ∧
    (∀ k, Zeroed (Des.cipher3.wipe k).ckey1 ∧ Zeroed (Des.cipher3.wipe k).ckey2 ∧ Zeroed (Des.cipher3.wipe k).ckey3) ∧
    (∀ k, Zeroed (Blowfish.cipherEnc.wipe k).P ∧ ∀ s ∈ (Blowfish.cipherEnc.wipe k).S, Zeroed s) ∧
    (∀ k, Zeroed (Blowfish.cipherDec.wipe k).P ∧ ∀ s ∈ (Blowfish.cipherDec.wipe k).S, Zeroed s) ∧
    (∀ k, Zeroed (Aes.encCipher.wipe k).sched ∧ Zeroed (Aes.decCipher.wipe k).sched) ∧
    (∀ k, Zeroed (Aesni.encCipher.wipe k).sched ∧ Zeroed (Aesni.decCipher.wipe k).sched) := by
  have hs : ∀ (l : List (List W32)), ∀ s ∈ l.map (·.map fun _ => (0 : W32)), Zeroed s := by
    intro l s hs
    obtain ⟨x, _, h⟩ := List.mem_map.1 hs
    rw [← h]; exact zero_map x
  exact ⟨fun k => zero_map k, fun k => ⟨zero_map _, zero_map _, zero_map _⟩,
    fun k => ⟨zero_map _, hs _⟩, fun k => ⟨zero_map _, hs _⟩,
    fun k => ⟨zero_map _, zero_map _⟩, fun k => ⟨zero_map _, zero_map _⟩⟩

/-- C63 for the chaining modes: `wipe` wipes the underlying cipher (bringing it to a state in `Z`)
and zeroes the IV or counter and, in the modes that have one, the auxiliary block. -/
theorem C63_modes (c : BlockCipher σ) (Z : σ → Prop) (hZ : ∀ s, Z (c.wipe s)) :
    (∀ st, Z ((cbcEncrypt c).wipe st).c ∧ Zeroed ((cbcEncrypt c).wipe st).iv) ∧
    (∀ st, Z ((cbcDecrypt c).wipe st).c ∧ Zeroed ((cbcDecrypt c).wipe st).iv
      ∧ Zeroed ((cbcDecrypt c).wipe st).aux) ∧
    (∀ n st, Z ((cfbEncrypt n c).wipe st).c ∧ Zeroed ((cfbEncrypt n c).wipe st).iv
      ∧ Zeroed ((cfbEncrypt n c).wipe st).aux) ∧
    (∀ n st, Z ((cfbDecrypt n c).wipe st).c ∧ Zeroed ((cfbDecrypt n c).wipe st).iv
      ∧ Zeroed ((cfbDecrypt n c).wipe st).aux) ∧
    (∀ n st, Z ((ofb n c).wipe st).c ∧ Zeroed ((ofb n c).wipe st).iv) ∧
    (∀ n st, Z ((ctr n c).wipe st).m.c ∧ Zeroed ((ctr n c).wipe st).m.iv ∧ Zeroed ((ctr n c).wipe st).m.aux) :=
  ⟨fun st => ⟨hZ st.c, zero_wipe _⟩, fun st => ⟨hZ st.c, zero_wipe _, zero_wipe _⟩,
    fun _ st => ⟨hZ st.c, zero_wipe _, zero_wipe _⟩, fun _ st => ⟨hZ st.c, zero_wipe _, zero_wipe _⟩,
    fun _ st => ⟨hZ st.c, zero_wipe _⟩, fun _ st => ⟨hZ st.m.c, zero_wipe _, zero_wipe _⟩⟩

/-- C63 for the transforms made from a block cipher, with or without padding: the cipher is wiped,
and the pending input and the output buffer are zeroed. -/
theorem C63_block_transform (env : Env) (c : BlockCipher σ) (Z : σ → Prop) (hZ : ∀ s, Z (c.wipe s))
    (p : PadScheme) (T : Transform (CipherSt σ))
    (hT : T = blockTransform env c ∨ T = paddedEncrypt env p c ∨ T = paddedDecrypt env p c) (t : CipherSt σ) :
    ∃ t', T.wipe t = .ok () t' ∧ Z t'.c ∧ Zeroed t'.ibuf ∧ ZeroOut t'.ob := by
  have h : T.wipe = cipherWipe c := by rcases hT with rfl | rfl | rfl <;> rfl
  rw [h]
  exact ⟨_, rfl, hZ t.c, zero_wipe _, zero_wipe _⟩

/-- C63: two objects of the same class, with any keys and any data, are the same after `wipe`, as soon
as their buffers have the same sizes and contain the same numbers of bytes: nothing of the keys
and of the data is left. `hc` says this of the underlying cipher. -/
theorem C63_block_transform_forgets (env : Env) (c : BlockCipher σ) (t1 t2 : CipherSt σ)
    (hc : c.wipe t1.c = c.wipe t2.c) (h1 : t1.ibuf.length = t2.ibuf.length) (h2 : t1.used = t2.used)
    (h3 : t1.ob.obuf.length = t2.ob.obuf.length) (h4 : t1.ob.obeg = t2.ob.obeg) (h5 : t1.ob.oend = t2.ob.oend) :
    (blockTransform env c).wipe t1 = (blockTransform env c).wipe t2 := by
  show Out.ok () _ = Out.ok () _
  simp only [wipeBytes, hc, h1, h2, h3, h4, h5]

/-! ### Stream ciphers -/

/-- C63 for RC4 and ChaCha20 contexts. -/
theorem C63_stream_keys :
    (∀ k, Zeroed (arcfour.wipe k).state ∧ (arcfour.wipe k).x = 0 ∧ (arcfour.wipe k).y = 0) ∧
    (∀ k, ZeroChaCha (chacha20.wipe k)) :=
  ⟨fun k => ⟨zero_wipe _, rfl, rfl⟩, fun k => ⟨by simp [Zeroed, chacha20, checkedStream, ChaCha.wipe],
    zero_wipe _, rfl, rfl⟩⟩

/-- C63 for the transforms made from a stream cipher: `Cipher.arcfour`, `Cipher.chacha20`. -/
theorem C63_stream_transform (env : Env) (c : StreamCipher σ) (Z : σ → Prop) (hZ : ∀ s, Z (c.wipe s))
    (t : StreamSt σ) :
    ∃ t', (streamTransform env c).wipe t = .ok () t' ∧ Z t'.c ∧ Zeroed t'.charbuf ∧ ZeroOut t'.ob :=
  ⟨_, rfl, hZ t.c, zero_wipe _, zero_wipe _⟩

/-- C63 for `AEAD.chacha20_poly1305`, in both directions. -/
theorem C63_chapoly (env : Env) (n : Nat) (dir : Dir) (t : StreamSt ChaPolySt) :
    ∃ t', (chacha20Poly1305 env n dir).base.wipe t = .ok () t' ∧ ZeroChaCha t'.c.cha ∧ ZeroPoly t'.c.h
      ∧ Zeroed t'.charbuf ∧ ZeroOut t'.ob := by
  have hc : ∀ st, ZeroChaCha (chapolyWipe st).cha ∧ ZeroPoly (chapolyWipe st).h := fun st =>
    ⟨⟨by simp [Zeroed, chapolyWipe, ChaCha.wipe], zero_wipe _, rfl, rfl⟩,
      ⟨by simp [Zeroed, chapolyWipe], zero_wipe _, rfl⟩⟩
  cases dir with
  | encrypt =>
    exact ⟨_, rfl, (hc t.c).1, (hc t.c).2, zero_wipe _, zero_wipe _⟩
  | decrypt =>
    exact ⟨_, rfl, (hc t.c).1, (hc t.c).2, zero_wipe _, zero_wipe _⟩

/-- The property C63 does not hold of AES-GCM: for every key, IV and header, `wipe` called right after
the creation of the object leaves in it the counter block `J0`, the mask `E(K, J0)` of the tag and
the hash key `H = E(K, 0)`, as a multiplication by it (`mac := mac xor block; mac * H`). -/
theorem C63_gcm_wipe_incomplete {κ : Type} {aes : BlockCipher κ} {k : κ} {E : Bytes → Bytes}
    (env : Env) (pclmul : Bool) (h : PureCipher aes k E) (hb : aes.blocksize = 16) (header iv : Bytes)
    (dir : Dir) :
    ∃ t t', aesGcmInit env pclmul aes k header iv = .ok t k ∧ (aesGcm env aes dir).base.wipe t = .ok () t' ∧
      t'.c.ctr = GCM.J0 E iv ∧ t'.c.e0 = E (GCM.J0 E iv) ∧
      ∀ x : Bytes, x.length = 16 → cGhashMult t'.c.h x = some (ghashMul x (GCM.subkey E)) := by
  obtain ⟨s, e0, hs, e1, e2, -⟩ := gcmInit_ok env pclmul h hb header iv
  cases dir with
  | encrypt =>
    exact ⟨cipherInit env (gcmEncWrapped aes) s, _, by simp only [aesGcmInit, e0], rfl, e1, e2, hs.h.2⟩
  | decrypt =>
    exact ⟨cipherInit env (gcmEncWrapped aes) s, _, by simp only [aesGcmInit, e0], rfl, e1, e2, hs.h.2⟩

/-! ### MACs -/

/-- C63 for CBC-MACs, the final-triple MAC and CMAC: the ciphers are wiped; the pending data, the
chaining value and (CMAC) the subkeys are zeroed. -/
theorem C63_macs (c : BlockCipher σ) (Z : σ → Prop) (hZ : ∀ s, Z (c.wipe s))
    (c2 : BlockCipher σ2) (Z2 : σ2 → Prop) (hZ2 : ∀ s, Z2 (c2.wipe s))
    (c3 : BlockCipher σ3) (Z3 : σ3 → Prop) (hZ3 : ∀ s, Z3 (c3.wipe s)) (pad : Option PadScheme) :
    (∀ t, ∃ t', (mac c pad).wipe t = .ok () t' ∧ Z t'.c ∧ Zeroed t'.buffer ∧ Zeroed t'.iv) ∧
    (∀ t, ∃ t', (macFinalTriple c c2 c3 pad).wipe t = .ok () t' ∧ Z t'.m.c ∧ Zeroed t'.m.buffer ∧ Zeroed t'.m.iv
      ∧ Z2 t'.c2 ∧ Z3 t'.c3) ∧
    (∀ t, ∃ t', (cmac c).wipe t = .ok () t' ∧ Z t'.m.c ∧ Zeroed t'.m.buffer ∧ Zeroed t'.m.iv
      ∧ Zeroed t'.k1 ∧ Zeroed t'.k2) :=
  ⟨fun t => ⟨_, rfl, hZ t.c, zero_wipe _, zero_wipe _⟩,
    fun t => ⟨_, rfl, hZ t.m.c, zero_wipe _, zero_wipe _, hZ2 _, hZ3 _⟩,
    fun t => ⟨_, rfl, hZ t.m.c, zero_wipe _, zero_wipe _, zero_wipe _, zero_wipe _⟩⟩

/-! ### Hashes -/

/-- C63 for SHA-1 and RIPEMD-160: chaining value, length and pending data. -/
theorem C63_sha1_ripemd160 (t : Sha1Ctx) (H : HashObj Sha1Ctx) (hH : H = sha1 ∨ H = ripemd160) :
    ∃ t', H.wipe t = .ok () t' ∧ Zeroed t'.buf.h.words ∧ Zeroed t'.buf.buffer ∧ t'.buf.numbytes = 0
      ∧ t'.hi = 0 ∧ t'.lo = 0 := by
  have h : H.wipe t = .ok () (sha1Wipe t) := by rcases hH with rfl | rfl <;> rfl
  exact ⟨_, h, by simp [Zeroed, sha1Wipe, Sha1State.words], zero_wipe _, rfl, rfl, rfl⟩

/-- C63 for SHA-224, SHA-256, SHA-384 and SHA-512. -/
theorem C63_sha2 :
    (∀ H : HashObj (Sha2Ctx 32), H = sha224 ∨ H = sha256 → ∀ t, ∃ t', H.wipe t = .ok () t' ∧
      Zeroed t'.buf.h.words ∧ Zeroed t'.buf.buffer ∧ t'.buf.numbytes = 0 ∧ t'.hi = 0 ∧ t'.lo = 0) ∧
    (∀ H : HashObj (Sha2Ctx 64), H = sha384 ∨ H = sha512 → ∀ t, ∃ t', H.wipe t = .ok () t' ∧
      Zeroed t'.buf.h.words ∧ Zeroed t'.buf.buffer ∧ t'.buf.numbytes = 0 ∧ t'.hi = 0 ∧ t'.lo = 0) := by
  constructor <;> intro H hH t
  · have h : H.wipe t = .ok () (sha2Wipe t) := by rcases hH with rfl | rfl <;> rfl
    exact ⟨_, h, by simp [Zeroed, sha2Wipe, Sha2State.words], zero_wipe _, rfl, rfl, rfl⟩
  · have h : H.wipe t = .ok () (sha2Wipe t) := by rcases hH with rfl | rfl <;> rfl
    exact ⟨_, h, by simp [Zeroed, sha2Wipe, Sha2State.words], zero_wipe _, rfl, rfl, rfl⟩

/-- C63 for BLAKE2 (hash or MAC). -/
theorem C63_blake2 (p : Blake2Code w) (sz : Int) (t : Blake2Ctx w) :
    ∃ t', (blake2Class p sz).wipe t = .ok () t' ∧ Zeroed t'.h.h ∧ t'.h.len0 = 0 ∧ t'.h.len1 = 0
      ∧ Zeroed t'.buffer ∧ t'.numbytes = 0 :=
  ⟨_, rfl, fun _ hx => List.eq_of_mem_replicate hx, rfl, rfl, zero_wipe _, rfl⟩

/-- C63 for SipHash. -/
theorem C63_siphash (sz : Int) (t : SipCtx) :
    ∃ t', (sipClass sz).wipe t = .ok () t' ∧ Zeroed [t'.buf.h.v0, t'.buf.h.v1, t'.buf.h.v2, t'.buf.h.v3]
      ∧ Zeroed t'.buf.buffer ∧ t'.buf.numbytes = 0 ∧ t'.len8 = 0 :=
  ⟨_, rfl, by simp [Zeroed, sipWipe], zero_wipe _, rfl, rfl⟩

/-- C63 for SHA-3, Keccak and BLAKE3: the context is released (src/stubs-sha3.c and
src/stubs-blake3.c zero it first). -/
theorem C63_released_partial (sz : Nat) (official : Bool) (t : Option Sha3Ctx) (e : B3Env) (sz' : Int)
    (t' : Option B3Hasher) :
    (sha3Class sz official).wipe t = .ok () none ∧ (b3Class e sz').wipe t' = .ok () none := ⟨rfl, rfl⟩

/-! ### Codecs, combinations, generators -/

/-- C63 for the Base64 and hexadecimal codecs. -/
theorem C63_codecs (env : Env) (multiline padding : Bool) :
    (∀ t, ∃ t', (B64.encode env multiline padding).wipe t = .ok () t' ∧ Zeroed t'.ibuf ∧ ZeroOut t'.ob) ∧
    (∀ t, ∃ t', (B64.decode env).wipe t = .ok () t' ∧ Zeroed t'.ibuf ∧ ZeroOut t'.ob) ∧
    (∀ t, ∃ t', (Hex.encode env).wipe t = .ok () t' ∧ ZeroOut t') ∧
    (∀ t, ∃ t', (Hex.decode env).wipe t = .ok () t' ∧ Zeroed t'.ibuf ∧ ZeroOut t'.ob) :=
  ⟨fun t => ⟨_, rfl, zero_wipe _, zero_wipe _⟩, fun t => ⟨_, rfl, zero_map _, zero_wipe _⟩,
    fun t => ⟨_, rfl, zero_wipe _⟩, fun t => ⟨_, rfl, zero_map _, zero_wipe _⟩⟩

/-- C63 for `compose`, `transform_and_hash` and `transform_then_hash`: `wipe` wipes both
components (and zeroes the output buffer of the last). -/
theorem C63_combinations (env : Env) {T1 : Transform τ1} {T2 : Transform τ2} {H : HashObj η} {t1 t1' : τ1}
    {t2 t2' : τ2} {s s' : η} (h1 : T1.wipe t1 = .ok () t1') (h2 : T2.wipe t2 = .ok () t2')
    (h3 : H.wipe s = .ok () s') :
    (compose T1 T2).wipe (t1, t2) = .ok () (t1', t2') ∧
    (transformAndHash T1 H).base.wipe (t1, s) = .ok () (t1', s') ∧
    ∀ o, ∃ o', (transformThenHash env T1 H).base.wipe ⟨t1, s, o⟩ = .ok () ⟨t1', s', o'⟩ ∧ ZeroOut o' := by
  refine ⟨?_, ?_, fun o => ⟨{ o with obuf := wipeBytes o.obuf }, ?_, zero_wipe _⟩⟩
  · show (M.onFst T1.wipe >>= fun _ => M.onSnd T2.wipe) (t1, t2) = _
    simp only [M.bind_def, M.onFst, M.onSnd, M.zoom, h1, h2]
  · show (M.onFst T1.wipe >>= fun _ => M.onSnd H.wipe) (t1, s) = _
    simp only [M.bind_def, M.onFst, M.onSnd, M.zoom, h1, h3]
  · show ((ThenHashSt.onBuf OBuf.wipe >>= fun _ => ThenHashSt.onTr T1.wipe >>= fun _ =>
      ThenHashSt.onHash H.wipe : M (ThenHashSt τ1 η) Unit)) ⟨t1, s, o⟩ = _
    simp only [M.bind_def, ThenHashSt.onTr, ThenHashSt.onHash, ThenHashSt.onBuf, M.zoom, OBuf.wipe,
      M.modify, h1, h3]

/-- C63 for `Random.pseudo_rng`. -/
theorem C63_pseudo_rng (g : ChaCha) : ∃ g', pseudoRng.wipe g = .ok () g' ∧ ZeroChaCha g' :=
  ⟨_, rfl, by simp [Zeroed, ChaCha.wipe], zero_wipe _, rfl, rfl⟩

/-- A state with non-zero contents. -/
example : ∃ t', (cmac Des.cipher).wipe ⟨⟨[1, 2], [3, 4], [5], 1⟩, [6], [7]⟩ = .ok () t' ∧ t'.k1 = [0] ∧ t'.m.c = [0, 0] :=
  ⟨_, rfl, rfl, rfl⟩

/-- The hypothesis on the cipher, for DES. -/
example (env : Env) (t : CipherSt (ModeSt (List W32))) :=
  C63_block_transform env (cbcDecrypt Des.cipher)
    (fun st => Zeroed st.c ∧ Zeroed st.iv ∧ Zeroed st.aux)
    (C63_modes Des.cipher (fun k => Zeroed k) C63_key_schedules_partial.1).2.1 Padding._8000 _ (.inr (.inr rfl)) t

/-- States that differ in their contents only. -/
example (env : Env) (ob : OBuf) : (blockTransform env Des.cipher).wipe ⟨[1, 2], [3], 1, ob⟩
    = (blockTransform env Des.cipher).wipe ⟨[4, 5], [6], 1, ob⟩ :=
  C63_block_transform_forgets env _ _ _ rfl rfl rfl rfl rfl rfl

end Verif
