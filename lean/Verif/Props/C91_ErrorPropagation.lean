import Verif.Props.C67_Cipher
/-
C91: errors in the ciphertext affect a bounded part of the decrypted text, and decryption recovers
after lost or wrong data (self-synchronisation of CBC and CFB).
-/
namespace Verif

open Spec Cipher

namespace Spec

/-- Unit `i` of a message, for units of `u` bytes. -/
def unit (u : Nat) (m : Bytes) (i : Nat) : Bytes := (m.drop (u * i)).take u

/-- How many units after the wrong one are wrong too, by SP 800-38A, appendix D: none for ECB, OFB and
CTR, one for CBC, as many as segments in a block for CFB. -/
def reach (n : Nat) : Mode → Nat
  | .CBC => 1
  | .CFB k => (n + k.toNat - 1) / k.toNat
  | _ => 0

/-- On any two histories of calls that input acceptable data of the same length, the object returns
outputs which agree on unit `j` if the inputs agree on unit `j` and on the `r` units before it. -/
def Local (t : AnyTransform) (u r : Nat) (ok : Bytes → Prop) : Prop :=
  ∀ ops ops' : List TOp, (∀ op ∈ ops, op.Legal) → (∀ op ∈ ops', op.Legal) →
    ok (inputOf ops) → ok (inputOf ops') → (inputOf ops).length = (inputOf ops').length →
    ∃ out out', t.run ops = some (.ok out) ∧ t.run ops' = some (.ok out')
      ∧ out.length = (inputOf ops).length ∧ out'.length = (inputOf ops).length
      ∧ ∀ j, (∀ i ≤ j, j ≤ i + r → unit u (inputOf ops) i = unit u (inputOf ops') i) →
        unit u out j = unit u out' j

end Spec

theorem unit_flatten {u : Nat} {bs : List Bytes} (h : ∀ b ∈ bs, b.length = u) (j : Nat) :
    unit u bs.flatten j = bs.getD j [] := by
  induction bs generalizing j with
  | nil => simp [Spec.unit]
  | cons b bs ih =>
    have hb := h b (by simp)
    cases j with
    | zero => simp [Spec.unit, List.take_append, hb, List.take_of_length_le]
    | succ j =>
      rw [List.getD_cons_succ, ← ih (fun x hx => h x (by simp [hx])), Spec.unit, Spec.unit,
        List.flatten_cons, Nat.mul_succ, Nat.add_comm, ← List.drop_drop, List.drop_left' hb]

theorem unit_chunks {u : Nat} (hu : 0 < u) {m : Bytes} (hd : u ∣ m.length) (j : Nat) :
    unit u m j = (chunks u m).getD j [] := by
  rw [← unit_flatten (chunks_length_of_dvd hu m hd), chunks_flatten hu]

theorem cbcDec_local (D : Bytes → Bytes) {iv iv' : Bytes} {cs cs' : List Bytes} (j : Nat)
    (hl : cs.length = cs'.length) (h0 : j = 0 → iv = iv')
    (h : ∀ i ≤ j, j ≤ i + 1 → cs.getD i [] = cs'.getD i []) :
    (cbcDec D iv cs).getD j [] = (cbcDec D iv' cs').getD j [] := by
  induction cs generalizing iv iv' cs' j with
  | nil => cases cs' with
    | nil => rfl
    | cons _ _ => simp at hl
  | cons c cs ih => cases cs' with
    | nil => simp at hl
    | cons c' cs' =>
      cases j with
      | zero =>
        have := h 0 (by omega) (by omega)
        simp only [List.getD_cons_zero] at this
        simp only [cbcDec, List.getD_cons_zero, this, h0 rfl]
      | succ j =>
        simp only [cbcDec, List.getD_cons_succ]
        refine ih j (by simpa using hl) (fun hj => ?_) (fun i h1 h2 => ?_)
        · have := h 0 (by omega) (by omega)
          simpa only [List.getD_cons_zero] using this
        · have := h (i + 1) (by omega) (by omega)
          simpa only [List.getD_cons_succ] using this

theorem cfbDec_local (E : Bytes → Bytes) {n k r : Nat} (hr : n ≤ r * k) {reg reg' : Bytes}
    {cs cs' : List Bytes} (j : Nat) (hl : cs.length = cs'.length) (h1 : reg.length = n)
    (h2 : reg'.length = n) (hk : k ≤ n) (hc : ∀ c ∈ cs, c.length = k) (hc' : ∀ c ∈ cs', c.length = k)
    (h0 : reg.drop (k * j) = reg'.drop (k * j))
    (h : ∀ i ≤ j, j ≤ i + r → cs.getD i [] = cs'.getD i []) :
    (cfbDec E k reg cs).getD j [] = (cfbDec E k reg' cs').getD j [] := by
  induction cs generalizing reg reg' cs' j with
  | nil => cases cs' with
    | nil => rfl
    | cons _ _ => simp at hl
  | cons c cs ih => cases cs' with
    | nil => simp at hl
    | cons c' cs' =>
      have lc := hc c (by simp)
      have lc' := hc' c' (by simp)
      cases j with
      | zero =>
        have := h 0 (by omega) (by omega)
        simp only [List.getD_cons_zero] at this
        rw [Nat.mul_zero, List.drop_zero, List.drop_zero] at h0
        simp only [cfbDec, List.getD_cons_zero, this, h0]
      | succ j =>
        simp only [cfbDec, List.getD_cons_succ]
        refine ih j (by simpa using hl) (by simp; omega) (by simp; omega)
          (fun x hx => hc x (by simp [hx])) (fun x hx => hc' x (by simp [hx])) ?_ (fun i h1 h2 => ?_)
        · by_cases hj : j + 1 ≤ r
          · have := h 0 (by omega) (by omega)
            simp only [List.getD_cons_zero] at this
            subst this
            rw [List.drop_append, List.drop_append, List.drop_drop, List.drop_drop,
              List.length_drop, List.length_drop, h1, h2]
            rw [Nat.mul_succ, Nat.add_comm] at h0
            rw [h0]
          · have : r * k ≤ k * j := by
              rw [Nat.mul_comm k j]; exact Nat.mul_le_mul_right k (by omega)
            rw [List.drop_of_length_le (by simp; omega), List.drop_of_length_le (by simp; omega)]
        · have := h (i + 1) (by omega) (by omega)
          simpa only [List.getD_cons_succ] using this

theorem xorStream_local (key : Nat → Bytes) {cs cs' : List Bytes} (i j : Nat)
    (hl : cs.length = cs'.length) (h : cs.getD j [] = cs'.getD j []) :
    (xorStream key i cs).getD j [] = (xorStream key i cs').getD j [] := by
  induction cs generalizing cs' i j with
  | nil => cases cs' with
    | nil => rfl
    | cons _ _ => simp at hl
  | cons c cs ih => cases cs' with
    | nil => simp at hl
    | cons c' cs' =>
      cases j with
      | zero => simp only [List.getD_cons_zero] at h; simp only [xorStream, List.getD_cons_zero, h]
      | succ j =>
        simp only [xorStream, List.getD_cons_succ] at h ⊢
        exact ih _ _ (by simpa using hl) h

theorem modeDec_local {E D : Bytes → Bytes} {n : Nat} {mode : Mode} (hmode : ModeOk n mode)
    {iv : Option Bytes} (hiv : ModeIVOk n mode iv) {cs cs' : List Bytes} (j : Nat)
    (hl : cs.length = cs'.length) (hc : ∀ c ∈ cs, c.length = unitOf n mode)
    (hc' : ∀ c ∈ cs', c.length = unitOf n mode)
    (h : ∀ i ≤ j, j ≤ i + reach n mode → cs.getD i [] = cs'.getD i []) :
    (modeDec E D n (ivOf n iv) mode cs).getD j [] = (modeDec E D n (ivOf n iv) mode cs').getD j [] := by
  cases mode with
  | ECB =>
    have := h j (by omega) (by omega)
    simp only [modeDec, List.getD_eq_getElem?_getD, List.getElem?_map] at this ⊢
    by_cases hj : j < cs.length
    · rw [List.getElem?_eq_getElem hj, List.getElem?_eq_getElem (hl ▸ hj)] at this ⊢
      simpa using congrArg D this
    · rw [List.getElem?_eq_none (by omega), List.getElem?_eq_none (by omega)]
  | CBC => exact cbcDec_local D j hl (fun _ => rfl) h
  | CFB k =>
    obtain ⟨k0, k1⟩ := hmode
    refine cfbDec_local E (n := n) (r := reach n (.CFB k)) ?_ j hl (ivOf_length (hiv.resolve_left (by simp)))
      (ivOf_length (hiv.resolve_left (by simp))) (by omega) hc hc' rfl h
    have hk : 0 < k.toNat := by omega
    have := Nat.div_add_mod (n + k.toNat - 1) k.toNat
    have := Nat.mod_lt (n + k.toNat - 1) hk
    rw [reach, Nat.mul_comm]
    omega
  | OFB k => exact xorStream_local _ _ j hl (h j (by omega) (by omega))
  | CTR => exact xorStream_local _ _ j hl (h j (by omega) (by omega))
  | CTR_N k => exact xorStream_local _ _ j hl (h j (by omega) (by omega))

theorem cbcDec_lengths {D : Bytes → Bytes} {n : Nat} (hD : ∀ b : Bytes, b.length = n → (D b).length = n)
    {iv : Bytes} (hiv : iv.length = n) {cs : List Bytes} (hc : ∀ c ∈ cs, c.length = n) :
    (∀ x ∈ cbcDec D iv cs, x.length = n) ∧ (cbcDec D iv cs).length = cs.length := by
  induction cs generalizing iv with
  | nil => simp [cbcDec]
  | cons c cs ih =>
    obtain ⟨h1, h2⟩ := ih (hc c (by simp)) (fun x hx => hc x (by simp [hx]))
    refine ⟨fun x hx => ?_, by simp [cbcDec, h2]⟩
    simp only [cbcDec, List.mem_cons] at hx
    rcases hx with rfl | hx
    · rw [xorb_length, hD _ (hc c (by simp)), hiv, Nat.min_self]
    · exact h1 x hx

theorem cfbDec_lengths {E : Bytes → Bytes} {n k : Nat} (hk : k ≤ n)
    (hE : ∀ b : Bytes, b.length = n → (E b).length = n)
    {reg : Bytes} (hr : reg.length = n) {cs : List Bytes} (hc : ∀ c ∈ cs, c.length = k) :
    (∀ x ∈ cfbDec E k reg cs, x.length = k) ∧ (cfbDec E k reg cs).length = cs.length := by
  induction cs generalizing reg with
  | nil => simp [cfbDec]
  | cons c cs ih =>
    have lc := hc c (by simp)
    obtain ⟨h1, h2⟩ := ih (reg := reg.drop k ++ c) (by simp; omega) (fun x hx => hc x (by simp [hx]))
    refine ⟨fun x hx => ?_, by simp [cfbDec, h2]⟩
    simp only [cfbDec, List.mem_cons] at hx
    rcases hx with rfl | hx
    · rw [xorb_length, List.length_take, hE _ hr, lc]; omega
    · exact h1 x hx

theorem modeDec_lengths {E D : Bytes → Bytes} {n : Nat}
    (hE : ∀ b : Bytes, b.length = n → (E b).length = n)
    (hD : ∀ b : Bytes, b.length = n → (D b).length = n)
    (hinv : ∀ b : Bytes, b.length = n → D (E b) = b) {mode : Mode} (hmode : ModeOk n mode)
    {iv : Option Bytes} (hiv : ModeIVOk n mode iv) {cs : List Bytes}
    (hc : ∀ c ∈ cs, c.length = unitOf n mode) :
    (∀ x ∈ modeDec E D n (ivOf n iv) mode cs, x.length = unitOf n mode)
      ∧ (modeDec E D n (ivOf n iv) mode cs).length = cs.length := by
  have hs := modeDec_modeEnc hE hinv hmode hiv hc
  cases mode with
  | ECB =>
    refine ⟨fun x hx => ?_, by simp [modeDec]⟩
    obtain ⟨c, h1, rfl⟩ := List.mem_map.1 hx
    exact hD _ (hc c h1)
  | CBC => exact cbcDec_lengths hD (ivOf_length (hiv.resolve_left (by simp))) hc
  | CFB k =>
    obtain ⟨k0, k1⟩ := hmode
    exact cfbDec_lengths (by omega) hE (ivOf_length (hiv.resolve_left (by simp))) hc
  | OFB k => exact ⟨hs.1, hs.2.1⟩
  | CTR => exact ⟨hs.1, hs.2.1⟩
  | CTR_N k => exact ⟨hs.1, hs.2.1⟩

variable {env : Env} {maxLen : Nat} {mode : Option Mode} {iv : Option Bytes} {key : Bytes}

theorem make_local {n : Nat} (hm : maxLen ≤ env.maxLen) {mk : Dir → Option (Except Exn AnyBlock)}
    {E D : Bytes → Bytes}
    (h1 : ∃ b, mk .encrypt = some (.ok b) ∧ b.c.blocksize = n ∧ PureCipher b.c b.s E)
    (h2 : ∃ b, mk .decrypt = some (.ok b) ∧ b.c.blocksize = n ∧ PureCipher b.c b.s D)
    (hinv : ∀ b : Bytes, b.length = n → D (E b) = b)
    (hmode : ModeOk n (mode.getD .CBC)) (hiv : ModeIVOk n (mode.getD .CBC) iv) :
    ∃ t, make env mode none iv .decrypt (mk (normalizeDir mode .decrypt)) = some (.ok t)
      ∧ Local t (unitOf n (mode.getD .CBC)) (reach n (mode.getD .CBC))
          (MessageOk maxLen n (mode.getD .CBC) none id) := by
  have hE : ∀ b : Bytes, b.length = n → (E b).length = n := by
    obtain ⟨b, _, rfl, h⟩ := h1; exact fun x hx => h.len hx
  have hD : ∀ b : Bytes, b.length = n → (D b).length = n := by
    obtain ⟨b, _, rfl, h⟩ := h2; exact fun x hx => h.len hx
  have : ∃ b, mk (normalizeDir mode .decrypt) = some (.ok b) ∧ b.c.blocksize = n
      ∧ PureCipher b.c b.s (match normalizeDir mode .decrypt with | .encrypt => E | .decrypt => D) := by
    cases normalizeDir mode .decrypt
    · exact h1
    · exact h2
  obtain ⟨b, d1, d2, d3⟩ := this
  have hnd : normalizeDir mode .decrypt = normalizeDir (some (mode.getD .CBC)) .decrypt := by
    cases mode <;> rfl
  rw [d1, make]
  rw [hnd] at d3
  simp only [Option.map_some, Except.bind, makeBlockCipher]
  generalize mode.getD .CBC = mode at *
  subst d2
  obtain ⟨b', c1, hr⟩ := chained_dec (env := env) (E := E) (D := D) d3 hmode hiv
  rw [c1]
  refine ⟨_, rfl, fun ops ops' hops hops' ok ok' hlen => ?_⟩
  have hu : 0 < unitOf b.c.blocksize mode := by
    obtain ⟨_, _, hi, _, hs, _⟩ := hr
    rw [← hs]; exact hi.pos
  have hd := ok.whole rfl
  have hd' := ok'.whole rfl
  have lc := chunks_length_of_dvd hu _ hd
  have lc' := chunks_length_of_dvd hu _ hd'
  obtain ⟨l1, l2⟩ := modeDec_lengths hE hD hinv hmode hiv lc
  obtain ⟨l1', l2'⟩ := modeDec_lengths hE hD hinv hmode hiv lc'
  have hcount : (chunks (unitOf b.c.blocksize mode) (inputOf ops)).length
      = (chunks (unitOf b.c.blocksize mode) (inputOf ops')).length := by
    rw [chunks_count hu hd, chunks_count hu hd', hlen]
  refine ⟨_, _, hr.plain (Nat.le_trans ok.room hm) ops hops hd ok.count (Nat.le_trans ok.fits hm),
    hr.plain (Nat.le_trans ok'.room hm) ops' hops' hd' ok'.count (Nat.le_trans ok'.fits hm),
    same_length_blocks hu hd l1 l2, (same_length_blocks hu hd' l1' l2').trans hlen.symm, fun j hj => ?_⟩
  rw [unit_flatten l1, unit_flatten l1']
  refine modeDec_local hmode hiv j hcount lc lc' fun i h1 h2 => ?_
  rw [← unit_chunks hu hd, ← unit_chunks hu hd']
  exact hj i h1 h2

/-- C91, `Cipher.aes`, whether or not the machine has the AES-NI instructions. -/
theorem C91_aes (host : AesHost) (hk : key.length = 16 ∨ key.length = 24 ∨ key.length = 32)
    (hm : maxLen ≤ env.maxLen) (hmode : ModeOk 16 (mode.getD .CBC))
    (hiv : ModeIVOk 16 (mode.getD .CBC) iv) :
    ∃ t, Cipher.aes env host mode none iv key .decrypt = some (.ok t)
      ∧ Local t (unitOf 16 (mode.getD .CBC)) (reach 16 (mode.getD .CBC))
          (MessageOk maxLen 16 (mode.getD .CBC) none id) :=
  make_local (mk := fun d => aesBlock host d key) hm (aesBlock_enc host hk) (aesBlock_dec host hk)
    (fun _ hb => (C41_aes_inverse hk hb).2.2.1) hmode hiv

/-- C91, `Cipher.des`. -/
theorem C91_des (hk : key.length = 8) (hm : maxLen ≤ env.maxLen) (hmode : ModeOk 8 (mode.getD .CBC))
    (hiv : ModeIVOk 8 (mode.getD .CBC) iv) :
    ∃ t, Cipher.des env mode none iv key .decrypt = some (.ok t)
      ∧ Local t (unitOf 8 (mode.getD .CBC)) (reach 8 (mode.getD .CBC))
          (MessageOk maxLen 8 (mode.getD .CBC) none id) := by
  obtain ⟨ke, kd, h1, h2, h3, h4, h5⟩ := C43_des hk
  exact make_local (mk := fun d => desBlock d key) hm
    ⟨⟨Des.cipher, ke⟩, by simp [desBlock, h1, Except.map], rfl, h4⟩
    ⟨⟨Des.cipher, kd⟩, by simp [desBlock, h2, Except.map], rfl, h5⟩
    (fun _ hb => (C43_inverse key hb).2.2.1) hmode hiv

/-- C91, `Cipher.triple_des`. -/
theorem C91_triple_des (hk : key.length = 16 ∨ key.length = 24) (hm : maxLen ≤ env.maxLen)
    (hmode : ModeOk 8 (mode.getD .CBC)) (hiv : ModeIVOk 8 (mode.getD .CBC) iv) :
    ∃ t, Cipher.tripleDes env mode none iv key .decrypt = some (.ok t)
      ∧ Local t (unitOf 8 (mode.getD .CBC)) (reach 8 (mode.getD .CBC))
          (MessageOk maxLen 8 (mode.getD .CBC) none id) := by
  obtain ⟨ke, kd, h1, h2, h3, h4, h5⟩ := C43_triple_des hk
  exact make_local (mk := fun d => tripleDesBlock d key) hm
    ⟨⟨Des.cipher3, ke⟩, by simp [tripleDesBlock, h1, Except.map], rfl, h4⟩
    ⟨⟨Des.cipher3, kd⟩, by simp [tripleDesBlock, h2, Except.map], rfl, h5⟩
    (fun _ hb => (C43_inverse key hb).2.2.2.2.1) hmode hiv

/-- C91, `Cipher.blowfish`. -/
theorem C91_blowfish (hk : 4 ≤ key.length ∧ key.length ≤ 56) (hm : maxLen ≤ env.maxLen)
    (hmode : ModeOk 8 (mode.getD .CBC)) (hiv : ModeIVOk 8 (mode.getD .CBC) iv) :
    ∃ t, Cipher.blowfish env mode none iv key .decrypt = some (.ok t)
      ∧ Local t (unitOf 8 (mode.getD .CBC)) (reach 8 (mode.getD .CBC))
          (MessageOk maxLen 8 (mode.getD .CBC) none id) := by
  obtain ⟨k, h1, h2, h3, h4, h5⟩ := C44_blowfish hk
  exact make_local (mk := fun d => blowfishBlock d key) hm
    ⟨⟨Blowfish.cipherEnc, k⟩, by simp [blowfishBlock, h1, Except.map], rfl, h4⟩
    ⟨⟨Blowfish.cipherDec, k⟩, by simp [blowfishBlock, h1, Except.map], rfl, h5⟩
    (fun _ hb => (C44_inverse (by omega) hb).2.2.1) hmode hiv

/-! ### Concrete cases -/

example := C91_aes (env := Example.env64) (maxLen := 1000) (mode := some (.CFB 5)) (iv := none)
  (key := List.replicate 16 3) (.table []) (.inl rfl) (by decide) ⟨by decide, by decide⟩
  (.inr (by intro v h; cases h))

/-- Messages of seven segments of 5 bytes are acceptable; a wrong segment affects the next four. -/
example : MessageOk 1000 16 (.CFB 5) none id (List.replicate 35 7) ∧ reach 16 (.CFB 5) = 4 :=
  ⟨⟨fun _ => by decide, trivial, by decide, by decide⟩, by decide⟩

/-- CBC: with a wrong block, the block itself and the next one are wrong, the third one is not. -/
example :
    let D : Bytes → Bytes := List.reverse
    cbcDec D [0, 0] [[1, 2], [3, 4], [5, 6], [7, 8]] = [[2, 1], [5, 1], [5, 1], [13, 1]]
      ∧ cbcDec D [0, 0] [[1, 2], [9, 9], [5, 6], [7, 8]] = [[2, 1], [8, 11], [15, 12], [13, 1]] := by
  decide

end Verif
