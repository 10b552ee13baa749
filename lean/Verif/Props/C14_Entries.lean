import Verif.Props.C67_Cipher
import Verif.Props.C15_C17_Mac
import Verif.Props.C35_ChaPoly
import Verif.Model.MacEntry
/-
C14 for the entry points of modules `MAC`, `Hash` and `AEAD`, with C15-C17 and C34 for the MACs and
authenticated transforms that they return.
-/
namespace Verif

open Spec Cipher

variable {env : Env} {iv : Option Bytes} {pad : Option PadScheme} {padf : Bytes → Bytes} {key : Bytes}

/-- What is observed of `result` after a history of calls. -/
def AnyHash.show (h : AnyHash) (ops : List HOp) : Option (Except Exn Bytes) :=
  (h.H.digest ops h.t).observe

/-- The value of a CBC-MAC: `Wrong_data_length` if the (padded) message is not made of whole
blocks. -/
def Spec.macValue (E : Bytes → Bytes) (n : Nat) (padf : Bytes → Bytes) (iv : Option Bytes)
    (m : Bytes) : Except Exn Bytes :=
  if n ∣ (padf m).length then .ok (cbcMac E n (ivOf n iv) (padf m))
  else .error (.error .wrongDataLength)

/-- The MAC constructor succeeds exactly if the key, then the IV, have the right sizes; the object
that it returns computes `f` of the data added. -/
structure Spec.MakesMac (r : Option (Except Exn AnyHash)) (keyOk : Prop) (n : Nat)
    (iv : Option Bytes) (f : Bytes → Except Exn Bytes) : Prop where
  wrong_key : ¬ keyOk → r = some (.error (.error .wrongKeySize))
  wrong_iv : keyOk → ¬ IVOk n iv → r = some (.error (.error .wrongIVSize))
  success : keyOk → IVOk n iv → ∃ h, r = some (.ok h) ∧ h.H.hashSize = n ∧
    ∀ ops : List HOp, (∀ op ∈ ops, op.Legal) → h.show ops = some (f (hinputOf ops))

theorem macInit_cases {σ : Type} (c : BlockCipher σ) (s : σ) :
    (IVOk c.blocksize iv ∧ ∃ st, macInit env c s iv = .ok st)
      ∨ (¬ IVOk c.blocksize iv ∧ macInit env c s iv = .error (.error .wrongIVSize)) := by
  rcases C14_mac_iv env c s iv with ⟨h, h'⟩ | ⟨h, v, hv, hl⟩
  · exact .inl ⟨h', h⟩
  · exact .inr ⟨fun h' => hl (h' v hv), h⟩

theorem mac_value {σ : Type} {c : BlockCipher σ} {k : σ} {E : Bytes → Bytes}
    (hc : PureCipher c k E) {st : MacSt σ} (hst : macInit env c k iv = .ok st)
    (hp : PadOk c.blocksize pad padf) (ops : List HOp) (hops : ∀ op ∈ ops, op.Legal) :
    ((mac c pad).digest ops st).observe
      = some (macValue E c.blocksize padf iv (hinputOf ops)) := by
  have hpad : ∀ (p : PadScheme) (f : Bytes → Bytes), LibraryPadding.fn f p c.blocksize →
      ((mac c (some p)).digest ops st).observe
        = some (macValue E c.blocksize (padMessage c.blocksize f) iv (hinputOf ops)) := by
    intro p f hf
    have h := C15_mac_padded hc env hf iv st hst ops hops
    rw [h, macValue, if_pos (padMessage_dvd hc.pos (fun x hx =>
      (LibraryPadding.computes hc.pos hf).pad_len hx) _)]
    rfl
  cases hp with
  | none => exact C15_mac hc env iv st hst ops hops
  | length h => exact hpad _ _ (.inl ⟨rfl, h, rfl⟩)
  | _8000 => exact hpad _ _ (.inr ⟨rfl, rfl⟩)

theorem MAC.ofBlock_makes {n : Nat} {keyOk : Prop} {E : Bytes → Bytes}
    {b : Option (Except Exn AnyBlock)}
    (h1 : keyOk → ∃ b', b = some (.ok b') ∧ b'.c.blocksize = n ∧ PureCipher b'.c b'.s E)
    (h2 : ¬ keyOk → b = some (.error (.error .wrongKeySize))) (hp : PadOk n pad padf) :
    MakesMac (MAC.ofBlock env iv pad b) keyOk n iv (macValue E n padf iv) where
  wrong_key hk := by simp [MAC.ofBlock, h2 hk, Except.bind]
  wrong_iv hk hi := by
    obtain ⟨b', rfl, rfl, hc⟩ := h1 hk
    rcases macInit_cases (env := env) (iv := iv) b'.c b'.s with ⟨h, _⟩ | ⟨_, h⟩
    · exact absurd h hi
    · simp [MAC.ofBlock, h, Except.bind, Except.map]
  success hk hi := by
    obtain ⟨b', rfl, rfl, hc⟩ := h1 hk
    rcases macInit_cases (env := env) (iv := iv) b'.c b'.s with ⟨_, st, h⟩ | ⟨h, _⟩
    · exact ⟨⟨mac b'.c pad, st⟩, by simp [MAC.ofBlock, h, Except.bind, Except.map], rfl,
        fun ops hops => mac_value hc h hp ops hops⟩
    · exact absurd hi h

theorem aesBlock_key (host : AesHost) (dir : Dir)
    (hk : ¬ (key.length = 16 ∨ key.length = 24 ∨ key.length = 32)) :
    aesBlock host dir key = some (.error (.error .wrongKeySize)) := by
  cases host <;> cases dir <;>
    simp [aesBlock, Aes.encNew, Aes.decNew, Aesni.encNew, Aesni.decNew, hk, Except.map]

theorem desBlock_key (dir : Dir) (hk : key.length ≠ 8) :
    desBlock dir key = some (.error (.error .wrongKeySize)) := by
  simp [desBlock, (C14_des_key_size key _).1.2 hk, Except.map]

/-- C14 and C15, `MAC.aes`: CBC-MAC over AES. -/
theorem C15_mac_aes (host : AesHost) (hp : PadOk 16 pad padf) :
    MakesMac (MAC.aes env host iv pad key) (key.length = 16 ∨ key.length = 24 ∨ key.length = 32) 16
      iv (macValue (Spec.Aes.encrypt key) 16 padf iv) :=
  MAC.ofBlock_makes (aesBlock_enc host) (aesBlock_key host .encrypt) hp

/-- C14 and C15, `MAC.des`: CBC-MAC over DES. -/
theorem C15_mac_des (hp : PadOk 8 pad padf) :
    MakesMac (MAC.des env iv pad key) (key.length = 8) 8
      iv (macValue (Spec.Des.encrypt key) 8 padf iv) := by
  refine MAC.ofBlock_makes (fun hk => ?_) (desBlock_key .encrypt) hp
  obtain ⟨ke, kd, h1, h2, _, h3, _⟩ := C43_des hk
  exact ⟨⟨Des.cipher, ke⟩, by simp [desBlock, h1, Except.map], rfl, h3⟩

/-- C14 and C15, `MAC.triple_des`: CBC-MAC over triple DES. -/
theorem C15_mac_triple_des (hp : PadOk 8 pad padf) :
    MakesMac (MAC.tripleDes env iv pad key) (key.length = 16 ∨ key.length = 24) 8
      iv (macValue (Spec.Des.encrypt3 key) 8 padf iv) := by
  refine MAC.ofBlock_makes (fun hk => ?_) (fun hk => ?_) hp
  · obtain ⟨ke, kd, h1, h2, _, h3, _⟩ := C43_triple_des hk
    exact ⟨⟨Des.cipher3, ke⟩, by simp [tripleDesBlock, h1, Except.map], rfl, h3⟩
  · obtain ⟨_, h1, h2⟩ := C14_des_key_size key true
    simp [tripleDesBlock, h1.2 hk, Except.map]

/-- The three DES keys of `MAC.des_final_triple_des`: the third is the first if the key has 16
bytes. -/
def Spec.desKey1 (key : Bytes) : Bytes := key.take 8
def Spec.desKey2 (key : Bytes) : Bytes := (key.drop 8).take 8
def Spec.desKey3 (key : Bytes) : Bytes := if key.length = 24 then key.drop 16 else key.take 8

/-- C14 and C16, `MAC.des_final_triple_des`: CBC-MAC over DES with the first key; the last block is
then decrypted with the second key and encrypted with the third. -/
theorem C16_des_final_triple_des (hp : PadOk 8 pad padf) :
    MakesMac (MAC.desFinalTripleDes env iv pad key) (key.length = 16 ∨ key.length = 24) 8 iv
      fun m => (macValue (Spec.Des.encrypt (desKey1 key)) 8 padf iv m).map fun r =>
        Spec.Des.encrypt (desKey3 key) (Spec.Des.decrypt (desKey2 key) r) := by
  have key1 : key.length = 16 ∨ key.length = 24 →
      ∃ k1 k2 k3, ∀ iv, MAC.desFinalTripleDes env iv pad key
        = some ((mac3Init env Des.cipher Des.cipher Des.cipher k1 k2 k3 iv).map fun st =>
            ⟨macFinalTriple Des.cipher Des.cipher Des.cipher pad, st⟩)
        ∧ PureCipher Des.cipher k1 (Spec.Des.encrypt (desKey1 key))
        ∧ PureCipher Des.cipher k2 (Spec.Des.decrypt (desKey2 key))
        ∧ PureCipher Des.cipher k3 (Spec.Des.encrypt (desKey3 key)) := by
    intro hk
    have e1 : slice key 0 8 = desKey1 key := by simp [slice, desKey1]
    have e2 : slice key 8 8 = desKey2 key := by simp [slice, desKey2]
    have e3 : (if key.length = 24 then slice key 16 8 else slice key 0 8) = desKey3 key := by
      unfold desKey3
      split
      · rw [slice, List.take_of_length_le (by rw [List.length_drop]; omega)]
      · simp [slice]
    have l1 : (desKey1 key).length = 8 := by simp [desKey1]; omega
    have l2 : (desKey2 key).length = 8 := by simp [desKey2]; omega
    have l3 : (desKey3 key).length = 8 := by unfold desKey3; split <;> simp <;> omega
    obtain ⟨k1, _, h1, _, _, p1, _⟩ := C43_des l1
    obtain ⟨_, k2, _, h2, _, _, p2⟩ := C43_des l2
    obtain ⟨k3, _, h3, _, _, p3, _⟩ := C43_des l3
    refine ⟨k1, k2, k3, fun iv => ⟨?_, p1, p2, p3⟩⟩
    unfold MAC.desFinalTripleDes
    rw [if_neg (not_not.2 hk)]
    have d1 : desBlock .encrypt (slice key 0 8) = some (.ok ⟨Des.cipher, k1⟩) := by
      simp [e1, desBlock, h1, Except.map]
    have d2 : desBlock .decrypt (slice key 8 8) = some (.ok ⟨Des.cipher, k2⟩) := by
      simp [e2, desBlock, h2, Except.map]
    have d3 : desBlock .encrypt (if key.length = 24 then slice key 16 8 else slice key 0 8)
        = some (.ok ⟨Des.cipher, k3⟩) := by
      rw [e3]; simp [desBlock, h3, Except.map]
    simp only [d1, d2, d3]
    rfl
  constructor
  · intro hk
    rw [MAC.desFinalTripleDes, if_pos hk]
  · intro hk hi
    obtain ⟨k1, k2, k3, h⟩ := key1 hk
    obtain ⟨h, p1, p2, p3⟩ := h iv
    rcases macInit_cases (env := env) (iv := iv) Des.cipher k1 with ⟨h', _⟩ | ⟨_, h'⟩
    · exact absurd h' hi
    · simp [h, mac3Init, h', Except.map]
  · intro hk hi
    obtain ⟨k1, k2, k3, h⟩ := key1 hk
    obtain ⟨h, p1, p2, p3⟩ := h iv
    rcases macInit_cases (env := env) (iv := iv) Des.cipher k1 with ⟨_, st, h'⟩ | ⟨h', _⟩
    · have hi3 : mac3Init env Des.cipher Des.cipher Des.cipher k1 k2 k3 iv = .ok ⟨st, k2, k3⟩ := by
        simp [mac3Init, h']
      refine ⟨⟨macFinalTriple Des.cipher Des.cipher Des.cipher pad, ⟨st, k2, k3⟩⟩,
        by simp [h, hi3, Except.map], rfl, fun ops hops => ?_⟩
      have hpad : ∀ (p : PadScheme) (f : Bytes → Bytes), LibraryPadding.fn f p 8 →
          ((macFinalTriple Des.cipher Des.cipher Des.cipher (some p)).digest ops
              ⟨st, k2, k3⟩).observe
            = some ((macValue (Spec.Des.encrypt (desKey1 key)) 8 (padMessage 8 f) iv
                (hinputOf ops)).map fun r =>
                  Spec.Des.encrypt (desKey3 key) (Spec.Des.decrypt (desKey2 key) r)) := by
        intro p f hf
        have h := C16_mac_final_triple_padded p1 p2 p3 env hf iv _ hi3 ops hops
        rw [h, macValue, if_pos (padMessage_dvd (n := 8) (pad := f) (by decide) (fun x hx =>
          (LibraryPadding.computes (by decide) hf).pad_len hx) _)]
        rfl
      cases hp with
      | none =>
        refine (C16_mac_final_triple p1 p2 p3 env iv _ hi3 ops hops).trans ?_
        congr 1
        show _ = Except.map _ (if 8 ∣ (hinputOf ops).length then _ else _)
        by_cases hd : 8 ∣ (hinputOf ops).length
        · rw [if_pos (show Des.cipher.blocksize ∣ _ from hd), if_pos hd]; rfl
        · rw [if_neg (show ¬ Des.cipher.blocksize ∣ _ from hd), if_neg hd]; rfl
      | length h8 => exact hpad _ _ (.inl ⟨rfl, h8, rfl⟩)
      | _8000 => exact hpad _ _ (.inr ⟨rfl, rfl⟩)
    · exact absurd hi h'

/-- C14 and C17, `MAC.aes_cmac`: AES-CMAC. -/
theorem C17_mac_aes_cmac (host : AesHost) :
    MakesMac (MAC.aesCmac env host iv key) (key.length = 16 ∨ key.length = 24 ∨ key.length = 32) 16
      iv fun m => .ok (Spec.CMAC (Spec.Aes.encrypt key) (ivOf 16 iv) m) := by
  constructor
  · intro hk
    simp [MAC.aesCmac, aesBlock_key host .encrypt hk]
  · intro hk hi
    obtain ⟨b, h1, h2, h3⟩ := aesBlock_enc host hk
    rcases macInit_cases (env := env) (iv := iv) b.c b.s with ⟨h', _⟩ | ⟨_, h'⟩
    · rw [h2] at h'; exact absurd h' hi
    · simp [MAC.aesCmac, h1, aesCmacNew_eq h3 env h2, h']
  · intro hk hi
    obtain ⟨b, h1, h2, h3⟩ := aesBlock_enc host hk
    obtain ⟨st, h4, h5⟩ := C17_cmac h3 h2 env iv hi
    exact ⟨⟨cmac b.c, st⟩, by simp [MAC.aesCmac, h1, h4], h2, fun ops hops => h5 ops hops⟩

/-- C14 and C22-C24, `Hash.sha2`: the four sizes of the standard, and no other. -/
theorem C14_sha2 (sz : Int) {buf0 : Bytes} :
    (¬ (sz = 224 ∨ sz = 256 ∨ sz = 384 ∨ sz = 512) →
      sha2New sz buf0 = .error (.error .wrongKeySize))
    ∧ sha2New 224 buf0 = .ok ⟨sha224, sha224Init buf0⟩
    ∧ sha2New 256 buf0 = .ok ⟨sha256, sha256Init buf0⟩
    ∧ sha2New 384 buf0 = .ok ⟨sha384, sha384Init buf0⟩
    ∧ sha2New 512 buf0 = .ok ⟨sha512, sha512Init buf0⟩ := by
  refine ⟨fun h => ?_, rfl, rfl, rfl, rfl⟩
  simp only [not_or] at h
  simp [sha2New, h]

/-- C14 and C34, `AEAD.aes_gcm`: 16-, 24- and 32-byte keys and any IV; other keys raise
`Wrong_key_size`. The result is AES-GCM in both directions, on every host. -/
theorem C34_aead_aes_gcm (host : AesHost) (pclmul : Bool) (header : Option Bytes) (iv : Bytes)
    (dir : Dir) (hm : 256 ≤ env.maxLen) :
    (¬ (key.length = 16 ∨ key.length = 24 ∨ key.length = 32) →
      AEAD.aesGcm env host pclmul header iv key dir = some (.error (.error .wrongKeySize)))
    ∧ ((key.length = 16 ∨ key.length = 24 ∨ key.length = 32) →
      ∃ a, AEAD.aesGcm env host pclmul header iv key dir = some (.ok a) ∧ a.T.tagSize = 16 ∧
        ∀ ops : List TOp, (∀ op ∈ ops, op.Legal) → (inputOf ops).length ≤ env.maxLen →
        (a.T.total ops a.t).observe = some (
          let out := GCM.crypt (Spec.Aes.encrypt key) iv (inputOf ops)
          let tag := GCM.tag (Spec.Aes.encrypt key) iv (header.getD [])
          match dir with
          | .encrypt =>
            if (inputOf ops).length ≤ GCM.maxPlaintext then .ok (out, tag out)
            else .error (.error .messageTooLong)
          | .decrypt => .ok (out, tag (inputOf ops)))) := by
  constructor
  · intro hk
    simp [AEAD.aesGcm, aesBlock_key host .encrypt hk]
  · intro hk
    obtain ⟨b, h1, h2, h3⟩ := aesBlock_enc host hk
    obtain ⟨t, ht, _⟩ := C34_gcm_encrypt env pclmul h3 h2 (header.getD []) iv [] (by simp) hm
      (by simp [inputOf])
    refine ⟨⟨Verif.aesGcm env b.c dir, t⟩, by simp [AEAD.aesGcm, h1, ht],
      by cases dir <;> rfl, fun ops hops hf => ?_⟩
    cases dir with
    | encrypt =>
      obtain ⟨t', ht', h⟩ := C34_gcm_encrypt env pclmul h3 h2 (header.getD []) iv ops hops hm hf
      rw [ht] at ht'
      cases ht'
      exact h
    | decrypt =>
      obtain ⟨t', ht', h⟩ := C34_gcm_decrypt env pclmul h3 h2 (header.getD []) iv ops hops hm hf
      rw [ht] at ht'
      cases ht'
      exact h

/-! ### Concrete cases -/

/-- A 16-byte key, padding `length`, on a host with AES-NI. -/
example (junk spare : Bytes) :
    ∃ h, MAC.aes Example.env64 (.aesni junk spare) none (some Padding.length) Example.aesKey
        = some (.ok h)
      ∧ h.show Example.hops = some (.ok (cbcMac (Spec.Aes.encrypt Example.aesKey) 16
          (List.replicate 16 0) (padMessage 16 (padLength 16) (ascii "abc")))) := by
  obtain ⟨h, h1, _, h2⟩ := (C15_mac_aes (env := Example.env64) (key := Example.aesKey) (iv := none)
    (.aesni junk spare) (.length (by decide))).success (.inl rfl) (by simp [IVOk])
  refine ⟨h, h1, ?_⟩
  have := h2 Example.hops Example.hops_legal
  rw [Example.hops_input] at this
  exact this

example : MAC.des env (some [1, 2]) none Example.desKey = some (.error (.error .wrongIVSize)) :=
  (C15_mac_des .none).wrong_iv rfl (by simp [IVOk])

example : ∃ h, MAC.desFinalTripleDes env none none (Example.desKey3.take 16) = some (.ok h) :=
  let ⟨h, h1, _⟩ := (C16_des_final_triple_des (env := env) (iv := none)
    (key := Example.desKey3.take 16) .none).success (.inl rfl) (by simp [IVOk])
  ⟨h, h1⟩

example (host : AesHost) : MAC.aesCmac env host none [1, 2, 3] = some (.error (.error .wrongKeySize)) :=
  (C17_mac_aes_cmac host).wrong_key (by simp)

end Verif
