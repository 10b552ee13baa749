import Verif.Proof.Cipher
import Verif.Props.C18_C21_Stream
import Verif.Props.C41_C42_Aes
import Verif.Props.C43_Des
import Verif.Props.C44_Blowfish
/-
C67: the entry points `Cipher.aes`, `Cipher.des`, `Cipher.triple_des`, `Cipher.blowfish`,
`Cipher.arcfour` and `Cipher.chacha20` compute the standard ciphertext in every mode, and with
`Decrypt` give back what they encrypted with `Encrypt`.

The default mode is CBC. See Spec/CipherModes for `Enciphers`, `MessageOk` and `cipherText`.
-/
namespace Verif

open Spec Cipher

theorem Cipher.wipe_ok {σ : Type} (c : BlockCipher σ) (t : CipherSt σ) :
    ∃ t', cipherWipe c t = .ok () t' := ⟨_, rfl⟩

theorem Cipher.padLength {n : Nat} {p : PadScheme} {padf : Bytes → Bytes} (hn : 0 < n)
    (h : PadOk n (some p) padf) :
    ∃ pad, p.Computes n pad ∧ padf = padMessage n pad
      ∧ ∀ m : Bytes, (padf m).length = (m.length / n + 1) * n := by
  cases h with
  | length h => exact ⟨_, length_computes hn h, rfl,
      fun m => padMessage_length hn (fun x hx => (length_computes hn h).pad_len hx) m⟩
  | _8000 => exact ⟨_, _8000_computes, rfl,
      fun m => padMessage_length hn (fun x hx => _8000_computes.pad_len hx) m⟩

/-- The generic statement, for a pair of block cipher objects that compute `E` and `D` on blocks of
`n` bytes (`bD` computes `E` too, for the modes that only use the forward direction). -/
theorem makeBlockCipher_enciphers {env env' : Env} {maxLen n : Nat} (hE : maxLen ≤ env.maxLen)
    (hD : maxLen ≤ env'.maxLen) {bE bD : AnyBlock} {E D : Bytes → Bytes} {mode : Option Mode}
    (hbE : PureCipher bE.c bE.s E)
    (hbD : PureCipher bD.c bD.s
      (match normalizeDir mode .decrypt with | .encrypt => E | .decrypt => D))
    (hnE : bE.c.blocksize = n) (hnD : bD.c.blocksize = n)
    (hinv : ∀ b : Bytes, b.length = n → D (E b) = b)
    (hmode : ModeOk n (mode.getD .CBC)) {iv : Option Bytes} (hiv : ModeIVOk n (mode.getD .CBC) iv)
    {pad : Option PadScheme} {padf : Bytes → Bytes}
    (hpad : PadOk (unitOf n (mode.getD .CBC)) pad padf) :
    ∃ tE tD, makeBlockCipher env mode pad iv .encrypt bE = .ok tE
      ∧ makeBlockCipher env' mode pad iv .decrypt bD = .ok tD
      ∧ Enciphers tE tD (MessageOk maxLen n (mode.getD .CBC) pad padf)
          (cipherText E n (mode.getD .CBC) padf iv) := by
  have hnd : normalizeDir mode .decrypt = normalizeDir (some (mode.getD .CBC)) .decrypt := by
    cases mode <;> rfl
  rw [hnd] at hbD
  unfold makeBlockCipher
  generalize mode.getD .CBC = mode at *
  subst hnE
  obtain ⟨mE, h1, hrE⟩ := chained_enc (env := env) hbE hmode hiv
  obtain ⟨mD, h2, hrD⟩ := chained_dec (env := env') (E := E) (D := D) hbD (hnD ▸ hmode) (hnD ▸ hiv)
  rw [hnD] at hrD
  generalize hn : bE.c.blocksize = n at *
  have hu : 0 < unitOf n mode := by
    obtain ⟨_, _, hi, _, hs, _⟩ := hrE
    rw [← hs]; exact hi.pos
  rw [h1, h2]
  refine ⟨_, _, rfl, rfl, ?_⟩
  -- lengths and inversion of the ciphertext
  have key : ∀ m, MessageOk maxLen n mode pad padf m →
      unitOf n mode ∣ (padf m).length
      ∧ (cipherText E n mode padf iv m).length = (padf m).length
      ∧ (modeDec E D n (ivOf n iv) mode
          (chunks (unitOf n mode) (cipherText E n mode padf iv m))).flatten = padf m := by
    intro m hm
    have hd : unitOf n mode ∣ (padf m).length := by
      cases pad with
      | none => cases hpad; exact hm.whole rfl
      | some p =>
        obtain ⟨_, _, _, h⟩ := Cipher.padLength hu hpad
        rw [h]; exact Nat.dvd_mul_left _ _
    obtain ⟨k1, k2, k3⟩ := modeDec_modeEnc (E := E) (D := D) (fun b hb => hn ▸ hbE.len (hn ▸ hb)) hinv hmode hiv
      (chunks_length_of_dvd hu _ hd)
    refine ⟨hd, same_length_blocks hu hd k1 k2, ?_⟩
    rw [cipherText, chunks_of_flatten hu _ k1, k3, chunks_flatten hu]
  have enc : ∀ ops : List TOp, (∀ op ∈ ops, op.Legal) → MessageOk maxLen n mode pad padf (inputOf ops) →
      AnyTransform.run (match pad with
        | none => ⟨blockTransform env mE.c, cipherInit env mE.c mE.s⟩
        | some p => ⟨paddedEncrypt env p mE.c, cipherInit env mE.c mE.s⟩) ops
        = some (.ok (cipherText E n mode padf iv (inputOf ops))) := by
    intro ops hops hm
    have hroom : max 256 (2 * unitOf n mode) ≤ env.maxLen := Nat.le_trans hm.room hE
    have hfits := hm.fits
    cases pad with
    | none =>
      cases hpad
      exact hrE.plain hroom ops hops (hm.whole rfl) hm.count (Nat.le_trans hfits hE)
    | some p =>
      obtain ⟨pad, hc, rfl, hl⟩ := Cipher.padLength hu hpad
      have hcount := hm.count
      rw [hl, Nat.mul_div_cancel _ hu] at hcount
      rw [hl] at hfits
      exact hrE.padEnc hc hroom ops hops hcount (Nat.le_trans hfits hE)
  have dec : ∀ (ops : List TOp) (m : Bytes), (∀ op ∈ ops, op.Legal) → MessageOk maxLen n mode pad padf m →
      inputOf ops = cipherText E n mode padf iv m →
      AnyTransform.run (match pad with
        | none => ⟨blockTransform env' mD.c, cipherInit env' mD.c mD.s⟩
        | some p => ⟨paddedDecrypt env' p mD.c, cipherInit env' mD.c mD.s⟩) ops
        = some (.ok m) := by
    intro ops m hops hm hin
    obtain ⟨hd, hl, hinv⟩ := key m hm
    have hroom : max 256 (2 * unitOf n mode) ≤ env'.maxLen := Nat.le_trans hm.room hD
    have hfits := hm.fits
    rw [← hin] at hl hinv
    cases pad with
    | none =>
      cases hpad
      have := hrD.plain hroom ops hops (by rw [hl]; exact hd) (by rw [hl]; exact hm.count)
        (by rw [hl]; exact Nat.le_trans hfits hD)
      rw [hinv] at this
      exact this
    | some p =>
      obtain ⟨pad, hc, rfl, hpl⟩ := Cipher.padLength hu hpad
      have hcount := hm.count
      rw [hpl, Nat.mul_div_cancel _ hu] at hcount
      exact hrD.padDec hc hroom ops hops m (by rw [hl, hpl]) hinv hcount
        (by rw [hl]; exact Nat.le_trans hfits hD)
  have hput : ∀ m : Bytes, inputOf [.putString m] = m := by intro m; simp [inputOf, TOp.input]
  have hleg : ∀ m : Bytes, ∀ op ∈ [TOp.putString m], op.Legal := by
    intro m op h; simp only [List.mem_singleton] at h; subst h; trivial
  refine ⟨?_, ?_, ?_, ?_⟩
  · intro ops hops hm
    have := enc ops hops hm
    cases pad <;> exact this
  · intro ops m hops hm hin
    have := dec ops m hops hm hin
    cases pad <;> exact this
  · intro m hm
    have := enc [.putString m] (hleg m) (by rw [hput]; exact hm)
    rw [hput] at this
    cases pad <;>
    · rw [AnyTransform.string, transformString_observe (fun t => Cipher.wipe_ok _ t)]
      exact this
  · intro m hm
    have := dec [.putString (cipherText E n mode padf iv m)] m (hleg _) hm (hput _)
    cases pad <;>
    · rw [AnyTransform.string, transformString_observe (fun t => Cipher.wipe_ok _ t)]
      exact this

variable {env env' : Env} {maxLen : Nat} {mode : Option Mode} {pad : Option PadScheme}
  {padf : Bytes → Bytes} {iv : Option Bytes} {key : Bytes}

theorem aesBlock_enc (host : AesHost) (hk : key.length = 16 ∨ key.length = 24 ∨ key.length = 32) :
    ∃ b, aesBlock host .encrypt key = some (.ok b) ∧ b.c.blocksize = 16
      ∧ PureCipher b.c b.s (Spec.Aes.encrypt key) := by
  cases host with
  | table junk =>
    obtain ⟨k, h1, h2, h3⟩ := C41_aes_encrypt junk hk
    exact ⟨⟨Aes.encCipher, k⟩, by simp [aesBlock, h1, Except.map], h2, h3⟩
  | aesni junk pad =>
    obtain ⟨⟨k, h1, h3⟩, _⟩ := C42_aesni_fips197 junk pad hk
    exact ⟨⟨Aesni.encCipher, k⟩, by simp [aesBlock, h1, Except.map], rfl, h3⟩

theorem aesBlock_dec (host : AesHost) (hk : key.length = 16 ∨ key.length = 24 ∨ key.length = 32) :
    ∃ b, aesBlock host .decrypt key = some (.ok b) ∧ b.c.blocksize = 16
      ∧ PureCipher b.c b.s (Spec.Aes.decrypt key) := by
  cases host with
  | table junk =>
    obtain ⟨k, h1, h2, h3⟩ := C41_aes_decrypt junk hk
    exact ⟨⟨Aes.decCipher, k⟩, by simp [aesBlock, h1, Except.map], h2, h3⟩
  | aesni junk pad =>
    obtain ⟨_, ⟨k, h1, h3⟩⟩ := C42_aesni_fips197 junk pad hk
    exact ⟨⟨Aesni.decCipher, k⟩, by simp [aesBlock, h1, Except.map], rfl, h3⟩

/-- From the objects of both directions to the entry point. -/
theorem make_enciphers {n : Nat} (hE : maxLen ≤ env.maxLen) (hD : maxLen ≤ env'.maxLen)
    {mkE mkD : Dir → Option (Except Exn AnyBlock)} {E D : Bytes → Bytes}
    (h1 : ∃ b, mkE .encrypt = some (.ok b) ∧ b.c.blocksize = n ∧ PureCipher b.c b.s E)
    (h2 : ∃ b, mkD .encrypt = some (.ok b) ∧ b.c.blocksize = n ∧ PureCipher b.c b.s E)
    (h3 : ∃ b, mkD .decrypt = some (.ok b) ∧ b.c.blocksize = n ∧ PureCipher b.c b.s D)
    (hinv : ∀ b : Bytes, b.length = n → D (E b) = b)
    (hmode : ModeOk n (mode.getD .CBC)) (hiv : ModeIVOk n (mode.getD .CBC) iv)
    (hpad : PadOk (unitOf n (mode.getD .CBC)) pad padf) :
    ∃ tE tD, make env mode pad iv .encrypt (mkE (normalizeDir mode .encrypt)) = some (.ok tE)
      ∧ make env' mode pad iv .decrypt (mkD (normalizeDir mode .decrypt)) = some (.ok tD)
      ∧ Enciphers tE tD (MessageOk maxLen n (mode.getD .CBC) pad padf)
          (cipherText E n (mode.getD .CBC) padf iv) := by
  obtain ⟨bE, e1, e2, e3⟩ := h1
  have hne : normalizeDir mode .encrypt = .encrypt := by
    unfold normalizeDir; split <;> rfl
  have : ∃ b, mkD (normalizeDir mode .decrypt) = some (.ok b) ∧ b.c.blocksize = n
      ∧ PureCipher b.c b.s (match normalizeDir mode .decrypt with | .encrypt => E | .decrypt => D) := by
    cases normalizeDir mode .decrypt
    · exact h2
    · exact h3
  obtain ⟨bD, d1, d2, d3⟩ := this
  obtain ⟨tE, tD, k1, k2, k3⟩ := makeBlockCipher_enciphers (env := env) (env' := env') hE hD
    (mode := mode) e3 d3 e2 d2 hinv hmode hiv hpad
  refine ⟨tE, tD, ?_, ?_, k3⟩
  · rw [hne, e1]; simp [make, Except.bind, k1]
  · rw [d1]; simp [make, Except.bind, k2]

/-- C67, `Cipher.aes`, for every mode, padding, IV and key, whether or not either side has the
AES-NI instructions. -/
theorem C67_aes (host host' : AesHost) (hk : key.length = 16 ∨ key.length = 24 ∨ key.length = 32)
    (hE : maxLen ≤ env.maxLen) (hD : maxLen ≤ env'.maxLen)
    (hmode : ModeOk 16 (mode.getD .CBC)) (hiv : ModeIVOk 16 (mode.getD .CBC) iv)
    (hpad : PadOk (unitOf 16 (mode.getD .CBC)) pad padf) :
    ∃ tE tD, Cipher.aes env host mode pad iv key .encrypt = some (.ok tE)
      ∧ Cipher.aes env' host' mode pad iv key .decrypt = some (.ok tD)
      ∧ Enciphers tE tD (MessageOk maxLen 16 (mode.getD .CBC) pad padf)
          (cipherText (Spec.Aes.encrypt key) 16 (mode.getD .CBC) padf iv) :=
  make_enciphers (mkE := fun d => aesBlock host d key) (mkD := fun d => aesBlock host' d key) hE hD
    (aesBlock_enc host hk) (aesBlock_enc host' hk) (aesBlock_dec host' hk)
    (fun _ hb => (C41_aes_inverse hk hb).2.2.1) hmode hiv hpad

/-- C67, `Cipher.des`. -/
theorem C67_des (hk : key.length = 8) (hE : maxLen ≤ env.maxLen) (hD : maxLen ≤ env'.maxLen)
    (hmode : ModeOk 8 (mode.getD .CBC)) (hiv : ModeIVOk 8 (mode.getD .CBC) iv)
    (hpad : PadOk (unitOf 8 (mode.getD .CBC)) pad padf) :
    ∃ tE tD, Cipher.des env mode pad iv key .encrypt = some (.ok tE)
      ∧ Cipher.des env' mode pad iv key .decrypt = some (.ok tD)
      ∧ Enciphers tE tD (MessageOk maxLen 8 (mode.getD .CBC) pad padf)
          (cipherText (Spec.Des.encrypt key) 8 (mode.getD .CBC) padf iv) := by
  obtain ⟨ke, kd, h1, h2, h3, h4, h5⟩ := C43_des hk
  have he : ∃ b, desBlock .encrypt key = some (.ok b) ∧ b.c.blocksize = 8
      ∧ PureCipher b.c b.s (Spec.Des.encrypt key) :=
    ⟨⟨Des.cipher, ke⟩, by simp [desBlock, h1, Except.map], rfl, h4⟩
  exact make_enciphers (mkE := fun d => desBlock d key) (mkD := fun d => desBlock d key) hE hD he he
    ⟨⟨Des.cipher, kd⟩, by simp [desBlock, h2, Except.map], rfl, h5⟩
    (fun _ hb => (C43_inverse key hb).2.2.1) hmode hiv hpad

/-- C67, `Cipher.triple_des`. -/
theorem C67_triple_des (hk : key.length = 16 ∨ key.length = 24) (hE : maxLen ≤ env.maxLen)
    (hD : maxLen ≤ env'.maxLen)
    (hmode : ModeOk 8 (mode.getD .CBC)) (hiv : ModeIVOk 8 (mode.getD .CBC) iv)
    (hpad : PadOk (unitOf 8 (mode.getD .CBC)) pad padf) :
    ∃ tE tD, Cipher.tripleDes env mode pad iv key .encrypt = some (.ok tE)
      ∧ Cipher.tripleDes env' mode pad iv key .decrypt = some (.ok tD)
      ∧ Enciphers tE tD (MessageOk maxLen 8 (mode.getD .CBC) pad padf)
          (cipherText (Spec.Des.encrypt3 key) 8 (mode.getD .CBC) padf iv) := by
  obtain ⟨ke, kd, h1, h2, h3, h4, h5⟩ := C43_triple_des hk
  have he : ∃ b, tripleDesBlock .encrypt key = some (.ok b) ∧ b.c.blocksize = 8
      ∧ PureCipher b.c b.s (Spec.Des.encrypt3 key) :=
    ⟨⟨Des.cipher3, ke⟩, by simp [tripleDesBlock, h1, Except.map], rfl, h4⟩
  exact make_enciphers (mkE := fun d => tripleDesBlock d key) (mkD := fun d => tripleDesBlock d key)
    hE hD he he
    ⟨⟨Des.cipher3, kd⟩, by simp [tripleDesBlock, h2, Except.map], rfl, h5⟩
    (fun _ hb => (C43_inverse key hb).2.2.2.2.1) hmode hiv hpad

/-- C67, `Cipher.blowfish`. -/
theorem C67_blowfish (hk : 4 ≤ key.length ∧ key.length ≤ 56) (hE : maxLen ≤ env.maxLen)
    (hD : maxLen ≤ env'.maxLen)
    (hmode : ModeOk 8 (mode.getD .CBC)) (hiv : ModeIVOk 8 (mode.getD .CBC) iv)
    (hpad : PadOk (unitOf 8 (mode.getD .CBC)) pad padf) :
    ∃ tE tD, Cipher.blowfish env mode pad iv key .encrypt = some (.ok tE)
      ∧ Cipher.blowfish env' mode pad iv key .decrypt = some (.ok tD)
      ∧ Enciphers tE tD (MessageOk maxLen 8 (mode.getD .CBC) pad padf)
          (cipherText (Spec.Blowfish.encrypt key) 8 (mode.getD .CBC) padf iv) := by
  obtain ⟨k, h1, h2, h3, h4, h5⟩ := C44_blowfish hk
  have he : ∃ b, blowfishBlock .encrypt key = some (.ok b) ∧ b.c.blocksize = 8
      ∧ PureCipher b.c b.s (Spec.Blowfish.encrypt key) :=
    ⟨⟨Blowfish.cipherEnc, k⟩, by simp [blowfishBlock, h1, Except.map], rfl, h4⟩
  exact make_enciphers (mkE := fun d => blowfishBlock d key) (mkD := fun d => blowfishBlock d key)
    hE hD he he
    ⟨⟨Blowfish.cipherDec, k⟩, by simp [blowfishBlock, h1, Except.map], rfl, h5⟩
    (fun _ hb => (C44_inverse (by omega) hb).2.2.1) hmode hiv hpad

/-! ### Stream ciphers -/

theorem Transform.calls_eq_callsF {τ : Type} (T : Transform τ) (ops : List TOp) :
    T.calls ops = T.callsF (ops.map .call) := by
  induction ops with
  | nil => rfl
  | cons op ops ih =>
    simp only [List.map_cons, Transform.calls, Transform.callsF, ih]
    rfl

theorem Transform.total_eq_totalF {τ : Type} (T : Transform τ) (ops : List TOp) :
    T.total ops = T.totalF (ops.map .call) := by
  simp only [Transform.total, Transform.totalF, T.calls_eq_callsF]

/-- Messages acceptable to a stream cipher. -/
def Spec.StreamMessageOk (maxLen : Nat) (m : Bytes) : Prop := m.length ≤ maxLen ∧ 256 ≤ maxLen

theorem stream_enciphers {σ σ' : Type} (hE : maxLen ≤ env.maxLen) (hD : maxLen ≤ env'.maxLen)
    {c : StreamCipher σ} {c' : StreamCipher σ'} {At : σ → Nat → Prop} {At' : σ' → Nat → Prop}
    {ks : Nat → Byte} (h : StreamImplements c At ks) (h' : StreamImplements c' At' ks)
    {s : σ} {s' : σ'} (hs : At s 0) (hs' : At' s' 0) :
    Enciphers ⟨streamTransform env c, streamInit env s⟩ ⟨streamTransform env' c', streamInit env' s'⟩
      (StreamMessageOk maxLen) (xorKeystream ks 0) := by
  have enc : ∀ ops : List TOp, (∀ op ∈ ops, op.Legal) → StreamMessageOk maxLen (inputOf ops) →
      AnyTransform.run ⟨streamTransform env c, streamInit env s⟩ ops
        = some (.ok (xorKeystream ks 0 (inputOf ops))) := by
    intro ops hops hm
    have := C18_stream_transform (env := env) h hs (Nat.le_trans hm.2 hE) (ops.map .call)
      (by
        intro op ho
        obtain ⟨x, hx, rfl⟩ := List.mem_map.1 ho
        exact hops x hx)
      (by rw [finputOf_calls]; exact Nat.le_trans hm.1 hE)
    rw [finputOf_calls] at this
    rw [AnyTransform.run, Transform.total_eq_totalF]
    exact this
  have dec : ∀ (ops : List TOp) (m : Bytes), (∀ op ∈ ops, op.Legal) → StreamMessageOk maxLen m →
      inputOf ops = xorKeystream ks 0 m →
      AnyTransform.run ⟨streamTransform env' c', streamInit env' s'⟩ ops = some (.ok m) := by
    intro ops m hops hm hin
    have := C18_stream_transform (env := env') h' hs' (Nat.le_trans hm.2 hD) (ops.map .call)
      (by
        intro op ho
        obtain ⟨x, hx, rfl⟩ := List.mem_map.1 ho
        exact hops x hx)
      (by rw [finputOf_calls, hin]; simpa using Nat.le_trans hm.1 hD)
    rw [finputOf_calls, hin, xorKeystream_invol] at this
    rw [AnyTransform.run, Transform.total_eq_totalF]
    exact this
  have hput : ∀ m : Bytes, inputOf [.putString m] = m := by intro m; simp [inputOf, TOp.input]
  have hleg : ∀ m : Bytes, ∀ op ∈ [TOp.putString m], op.Legal := by
    intro m op h; simp only [List.mem_singleton] at h; subst h; trivial
  refine ⟨enc, dec, fun m hm => ?_, fun m hm => ?_⟩
  · have := enc [.putString m] (hleg m) (by rw [hput]; exact hm)
    rw [hput] at this
    rw [AnyTransform.string, transformString_observe (fun t => ⟨_, rfl⟩)]
    exact this
  · rw [AnyTransform.string, transformString_observe (fun t => ⟨_, rfl⟩)]
    exact dec _ m (hleg _) hm (hput _)

/-- C67, `Cipher.arcfour`: the direction does not matter. -/
theorem C67_arcfour (hk : 1 ≤ key.length ∧ key.length ≤ 256) (hE : maxLen ≤ env.maxLen)
    (hD : maxLen ≤ env'.maxLen) (dir dir' : Dir) :
    ∃ tE tD, Cipher.arcfour env key dir = .ok tE ∧ Cipher.arcfour env' key dir' = .ok tD
      ∧ Enciphers tE tD (StreamMessageOk maxLen) (xorKeystream (Spec.RC4.keystream key) 0) := by
  have h := arcfourInit_at hk.1 hk.2
  have hi := checkedStream_implements (arcfour_generates key) Arcfour.wipe
  refine ⟨_, _, ?_, ?_, stream_enciphers hE hD hi hi h.2 h.2⟩
  · simp only [Cipher.arcfour, h.1]; rfl
  · simp only [Cipher.arcfour, h.1]; rfl

/-- C67, `Cipher.chacha20`. -/
theorem C67_chacha20 {ctr : Option W64} (ha : Spec.ChaChaArgs key iv (ctr.getD 0))
    (hE : maxLen ≤ env.maxLen) (hD : maxLen ≤ env'.maxLen) (dir dir' : Dir) :
    ∃ tE tD, Cipher.chacha20 env iv ctr key dir = .ok tE
      ∧ Cipher.chacha20 env' iv ctr key dir' = .ok tD
      ∧ Enciphers tE tD (StreamMessageOk maxLen) (xorKeystream
          (Spec.ChaCha20.keystream key (Spec.chachaIV iv) (ctr.getD 0).toNat) 0) := by
  have hi := checkedStream_implements
    (chacha_generates ha.1 (chachaIV_length ha) (ctr.getD 0).toNat) ChaCha.wipe
  refine ⟨_, _, ?_, ?_, stream_enciphers hE hD hi hi
    (chachaInit_at env _ ha.1 (chachaIV_length ha)) (chachaInit_at env' _ ha.1 (chachaIV_length ha))⟩
  · rw [Cipher.chacha20, chacha20Init_ok env ha]; rfl
  · rw [Cipher.chacha20, chacha20Init_ok env' ha]; rfl

/-! ### C14: what the entry points accept -/

/-- The outcome of a constructor: success or exception (`none` for undefined behaviour). -/
def Cipher.built (r : Option (Except Exn AnyTransform)) : Option (Except Exn Unit) :=
  r.map fun x => x.map fun _ => ()

/-- An IV, if given, must have the size of a block. -/
def Spec.ivResult (n : Nat) : Option Bytes → Except Exn Unit
  | some v => if v.length = n then .ok () else .error (.error .wrongIVSize)
  | none => .ok ()

/-- The required outcome for a block cipher: the key is examined first, then the parameter of the
mode, then the IV (which ECB ignores). The default mode is CBC. -/
def Spec.construction (keyOk : Prop) [Decidable keyOk] (n : Nat) (mode : Option Mode)
    (iv : Option Bytes) : Except Exn Unit :=
  if ¬ keyOk then .error (.error .wrongKeySize) else
  match mode with
  | some .ECB => .ok ()
  | some (.CFB k) | some (.OFB k) | some (.CTR_N k) =>
    if 0 < k ∧ k ≤ n then Spec.ivResult n iv else .error .assertFailure
  | some .CBC | some .CTR | none => Spec.ivResult n iv

theorem modeInit_built {σ : Type} {α : Type 1} (c : BlockCipher σ) (s : σ) (g : ModeSt σ → α) :
    ((modeInit env c s iv).map g).map (fun _ => ()) = Spec.ivResult c.blocksize iv := by
  cases iv with
  | none => rfl
  | some v =>
    by_cases h : v.length = c.blocksize
    · simp [modeInit, makeInitialIV, Spec.ivResult, h, Except.map]
    · simp [modeInit, makeInitialIV, Spec.ivResult, h, Except.map]

theorem modeInitChunk_built {σ : Type} {α : Type 1} (c : BlockCipher σ) (s : σ) (g : ModeSt σ → α)
    (k : Int) :
    ((modeInitChunk env c s iv k).map g).map (fun _ => ())
      = if 0 < k ∧ k ≤ c.blocksize then Spec.ivResult c.blocksize iv else .error .assertFailure := by
  by_cases h : 0 < k ∧ k ≤ (c.blocksize : Int)
  · rw [if_pos h, modeInitChunk, if_pos h]; exact modeInit_built c s g
  · rw [if_neg h, modeInitChunk, if_neg h]; rfl

theorem ctrInit_built {σ : Type} {α : Type 1} (c : BlockCipher σ) (s : σ) (g : Nat × CtrSt σ → α) :
    ((ctrInit env c s iv none).map g).map (fun _ => ()) = Spec.ivResult c.blocksize iv := by
  refine Eq.trans ?_ (modeInit_built (env := env) c s
    (fun m => g (c.blocksize, { m := m, maxTransf := ctrMaxTransf c.blocksize })))
  simp only [ctrInit, ctrNincr]
  cases modeInit env c s iv <;> rfl

theorem ctrInitN_built {σ : Type} {α : Type 1} (c : BlockCipher σ) (s : σ) (g : Nat × CtrSt σ → α)
    (k : Int) :
    ((ctrInit env c s iv (some k)).map g).map (fun _ => ())
      = if 0 < k ∧ k ≤ c.blocksize then Spec.ivResult c.blocksize iv else .error .assertFailure := by
  by_cases h : 0 < k ∧ k ≤ (c.blocksize : Int)
  · rw [if_pos h]
    refine Eq.trans ?_ (modeInit_built (env := env) c s
      (fun m => g (k.toNat, { m := m, maxTransf := ctrMaxTransf k.toNat })))
    simp only [ctrInit, ctrNincr, if_pos h]
    cases modeInit env c s iv <;> rfl
  · rw [if_neg h]; simp only [ctrInit, ctrNincr, if_neg h]; rfl

theorem chained_built (b : AnyBlock) (dir : Dir) :
    (makeBlockCipher env mode pad iv dir b).map (fun _ => ())
      = Spec.construction True b.c.blocksize mode iv := by
  have h0 : (makeBlockCipher env mode pad iv dir b).map (fun _ => ())
      = (chained env (mode.getD .CBC) iv dir b).map (fun _ => ()) := by
    unfold makeBlockCipher
    cases chained env (mode.getD .CBC) iv dir b <;> rfl
  rw [h0, Spec.construction.eq_def, if_neg (by simp)]
  cases mode with
  | none => cases dir <;> exact modeInit_built _ _ _
  | some m =>
    cases m with
    | ECB => rfl
    | CBC => cases dir <;> exact modeInit_built _ _ _
    | CFB k => cases dir <;> exact modeInitChunk_built _ _ _ k
    | OFB k => exact modeInitChunk_built _ _ _ k
    | CTR => exact ctrInit_built _ _ _
    | CTR_N k => exact ctrInitN_built _ _ _ k

theorem make_built {n : Nat} {keyOk : Prop} [Decidable keyOk] {mk : Option (Except Exn AnyBlock)}
    (h1 : keyOk → ∃ b, mk = some (.ok b) ∧ b.c.blocksize = n)
    (h2 : ¬ keyOk → mk = some (.error (.error .wrongKeySize))) (dir : Dir) :
    Cipher.built (make env mode pad iv dir mk) = some (Spec.construction keyOk n mode iv) := by
  by_cases h : keyOk
  · obtain ⟨b, rfl, rfl⟩ := h1 h
    have := chained_built (env := env) (mode := mode) (pad := pad) (iv := iv) b dir
    simp only [Cipher.built, make, Option.map_some, Except.bind, this, Spec.construction, h]
  · rw [h2 h]
    simp [Cipher.built, make, Spec.construction, h, Except.bind, Except.map]

/-- C14, `Cipher.aes`. -/
theorem C14_cipher_aes (host : AesHost) (dir : Dir) :
    Cipher.built (Cipher.aes env host mode pad iv key dir)
      = some (Spec.construction (key.length = 16 ∨ key.length = 24 ∨ key.length = 32) 16 mode iv) := by
  refine make_built (fun hk => ?_) (fun hk => ?_) dir
  · cases normalizeDir mode dir
    · obtain ⟨b, h1, h2, _⟩ := aesBlock_enc host hk; exact ⟨b, h1, h2⟩
    · obtain ⟨b, h1, h2, _⟩ := aesBlock_dec host hk; exact ⟨b, h1, h2⟩
  · cases host <;> cases normalizeDir mode dir <;>
      simp [aesBlock, Aes.encNew, Aes.decNew, Aesni.encNew, Aesni.decNew, hk, Except.map]

/-- C14, `Cipher.des`. -/
theorem C14_cipher_des (dir : Dir) :
    Cipher.built (Cipher.des env mode pad iv key dir)
      = some (Spec.construction (key.length = 8) 8 mode iv) := by
  refine make_built (fun hk => ?_) (fun hk => ?_) dir
  · obtain ⟨ke, kd, h1, h2, _⟩ := C43_des hk
    cases normalizeDir mode dir
    · exact ⟨⟨Des.cipher, ke⟩, by simp [desBlock, h1, Except.map], rfl⟩
    · exact ⟨⟨Des.cipher, kd⟩, by simp [desBlock, h2, Except.map], rfl⟩
  · simp [desBlock, (C14_des_key_size key _).1.2 hk, Except.map]

/-- C14, `Cipher.triple_des`. -/
theorem C14_cipher_triple_des (dir : Dir) :
    Cipher.built (Cipher.tripleDes env mode pad iv key dir)
      = some (Spec.construction (key.length = 16 ∨ key.length = 24) 8 mode iv) := by
  refine make_built (fun hk => ?_) (fun hk => ?_) dir
  · obtain ⟨ke, kd, h1, h2, _⟩ := C43_triple_des hk
    cases normalizeDir mode dir
    · exact ⟨⟨Des.cipher3, ke⟩, by simp [tripleDesBlock, h1, Except.map], rfl⟩
    · exact ⟨⟨Des.cipher3, kd⟩, by simp [tripleDesBlock, h2, Except.map], rfl⟩
  · obtain ⟨_, h1, h2⟩ := C14_des_key_size key true
    cases normalizeDir mode dir
    · simp [tripleDesBlock, h1.2 hk, Except.map]
    · simp [tripleDesBlock, h2.2 hk, Except.map]

/-- C14, `Cipher.blowfish`. -/
theorem C14_cipher_blowfish (dir : Dir) :
    Cipher.built (Cipher.blowfish env mode pad iv key dir)
      = some (Spec.construction (4 ≤ key.length ∧ key.length ≤ 56) 8 mode iv) := by
  refine make_built (fun hk => ?_) (fun hk => ?_) dir
  · obtain ⟨k, h1, _⟩ := C44_blowfish hk
    cases normalizeDir mode dir
    · exact ⟨⟨Blowfish.cipherEnc, k⟩, by simp [blowfishBlock, h1, Except.map], rfl⟩
    · exact ⟨⟨Blowfish.cipherDec, k⟩, by simp [blowfishBlock, h1, Except.map], rfl⟩
  · cases normalizeDir mode dir <;>
      simp [blowfishBlock, (C14_blowfish_key_size key).2 hk, Except.map]

/-! ### Concrete cases -/

/-- CFB with one-byte segments, and counter mode with a four-byte counter and padding, satisfy the
hypotheses. -/
example (host host' : AesHost) :
    ∃ tE tD, Cipher.aes Example.env64 host (some (.CFB 1)) none none Example.aesKey .encrypt = some (.ok tE)
      ∧ Cipher.aes Example.env64 host' (some (.CFB 1)) none none Example.aesKey .decrypt = some (.ok tD)
      ∧ tD.string (cipherText (Spec.Aes.encrypt Example.aesKey) 16 (.CFB 1) id none [1, 2, 3])
        = some (.ok [1, 2, 3]) := by
  obtain ⟨tE, tD, h1, h2, h3⟩ := C67_aes (env := Example.env64) (env' := Example.env64)
    (maxLen := 1000) (mode := some (.CFB 1)) (pad := none) (padf := id) (iv := none) host host'
    (key := Example.aesKey) (.inl rfl) (by decide) (by decide) (by simp [ModeOk]) (.inr (by simp [IVOk])) .none
  exact ⟨tE, tD, h1, h2, h3.decrypt_string [1, 2, 3]
    ⟨fun _ => by simp [unitOf], trivial, by decide, by decide⟩⟩

example : MessageOk 1000 8 (.CTR_N 4) (some Padding._8000) (padMessage 8 (pad8000 8)) [1, 2, 3] :=
  ⟨fun h => by simp at h, by simp [UnitsOk, unitOf, padMessage, pad8000], by decide, by decide⟩

example := C67_des (env := Example.env64) (env' := Example.env64) (maxLen := 1000)
  (mode := some (.CTR_N 4)) (pad := some Padding._8000) (iv := some Example.desKey) (key := Example.desKey)
  rfl (by decide) (by decide) (by simp [ModeOk]) (.inr (by simp [IVOk, Example.desKey])) ._8000

/-- An IV of the wrong size. -/
example (host : AesHost) (env : Env) :
    Cipher.built (Cipher.aes env host none none (some [1, 2, 3]) Example.aesKey .decrypt)
      = some (.error (.error .wrongIVSize)) := by rw [C14_cipher_aes]; rfl

end Verif
