import Verif.Spec.Reuse
import Verif.Props.C91_ErrorPropagation
import Verif.Props.C34_Gcm
import Verif.Props.C35_ChaPoly
/-
C108: what two messages encrypted with the same key and the same IV reveal about each other.

The documentation of `Cipher.chacha20` and `Cipher.arcfour` says it: "the xor of two ciphertexts
obtained with the same key, IV and counter is the xor of the corresponding plaintexts". See
Spec/Reuse for the other modes.
-/
namespace Verif

open Spec Cipher

/-! ### Xor with a keystream -/

theorem xorb_of_keystream (ks : Nat → Byte) (m m' : Bytes) :
    xorb (xorKeystream ks 0 m) (xorKeystream ks 0 m') = xorb m m' := by
  apply List.ext_getElem
  · simp
  · intro i h1 h2
    simp only [xorKeystream, List.getElem_zipWith, List.getElem_mapIdx, Nat.zero_add]
    generalize ks i = z
    generalize m[i]'_ = x
    generalize m'[i]'_ = y
    rw [BitVec.xor_comm y z, ← BitVec.xor_assoc, BitVec.xor_assoc x z z, BitVec.xor_self,
      BitVec.xor_zero]

theorem xorKeystream_block {z : Bytes} {ks : Nat → Byte} {p : Nat} {m : Bytes}
    (hz : m.length ≤ z.length) (h : ∀ i (hi : i < z.length), ks (p + i) = z[i]) :
    xorKeystream ks p m = xorb m z := by
  apply List.ext_getElem
  · simp; omega
  · intro i h1 h2
    simp only [xorKeystream, List.length_mapIdx] at h1
    simp only [xorKeystream, List.getElem_zipWith, List.getElem_mapIdx]
    rw [h i (by omega)]

/-- The keystream made of the blocks `key 0`, `key 1`, ... of `u` bytes each. -/
def blockStream (u : Nat) (key : Nat → Bytes) (p : Nat) : Byte := (key (p / u)).getD (p % u) 0

theorem xorStream_keystream {u : Nat} (hu : 0 < u) {key : Nat → Bytes}
    (hk : ∀ i, (key i).length = u) (m : Bytes) : ∀ i,
    (xorStream key i (chunks u m)).flatten = xorKeystream (blockStream u key) (u * i) m := by
  induction h : m.length using Nat.strongRecOn generalizing m with
  | _ l ih =>
    intro i
    by_cases h0 : m = []
    · subst h0; simp [chunks_nil, xorStream]
    · have hpos : 0 < m.length := List.length_pos_iff.2 h0
      have hb : xorKeystream (blockStream u key) (u * i) (m.take u) = xorb (m.take u) (key i) := by
        refine xorKeystream_block (by rw [hk, List.length_take]; omega) fun j hj => ?_
        rw [hk] at hj
        simp only [blockStream]
        rw [Nat.mul_add_div hu, Nat.div_eq_of_lt hj, Nat.add_zero, Nat.mul_add_mod, Nat.mod_eq_of_lt hj]
        simp [hk, hj]
      rw [chunks_cons hu h0]
      simp only [xorStream, List.flatten_cons]
      rw [ih (m.drop u).length (by simp; omega) (m.drop u) rfl (i + 1), ← hb]
      conv => rhs; rw [← List.take_append_drop u m, xorKeystream_append]
      congr 1
      by_cases hl : u ≤ m.length
      · rw [List.length_take, Nat.min_eq_left hl, Nat.mul_succ]
      · rw [List.drop_of_length_le (by omega)]; rfl

theorem gctr_xorStream (E : Bytes → Bytes) (bs : List Bytes) : ∀ cb i,
    GCM.gctr E (iter GCM.inc32 i cb) bs
      = (xorStream (fun i => E (iter GCM.inc32 i cb)) i bs).flatten := by
  have hs : ∀ i cb, iter GCM.inc32 (i + 1) cb = GCM.inc32 (iter GCM.inc32 i cb) := by
    intro i
    induction i with
    | zero => intro cb; rfl
    | succ i ih => intro cb; rw [iter, ih]; rfl
  induction bs with
  | nil => intro cb i; rfl
  | cons b bs ih =>
    intro cb i
    simp only [GCM.gctr, xorStream, List.flatten_cons]
    rw [← ih cb (i + 1), hs]

/-! ### Chaining modes on lists of units -/

theorem modeEnc_take (E : Bytes → Bytes) (n : Nat) (mode : Mode) (iv : Bytes) (ps : List Bytes) (i : Nat) :
    modeEnc E n iv mode (ps.take i) = (modeEnc E n iv mode ps).take i := by
  have hx : ∀ (key : Nat → Bytes) (ps : List Bytes) (j i : Nat),
      xorStream key j (ps.take i) = (xorStream key j ps).take i := by
    intro key ps
    induction ps with
    | nil => intro j i; simp [xorStream]
    | cons p ps ih =>
      intro j i
      cases i with
      | zero => rfl
      | succ i => simp only [List.take_succ_cons, xorStream, ih]
  cases mode with
  | ECB => simp [modeEnc, List.map_take]
  | CBC =>
    simp only [modeEnc]
    induction ps generalizing iv i with
    | nil => simp [cbcEnc]
    | cons p ps ih =>
      cases i with
      | zero => rfl
      | succ i => simp only [List.take_succ_cons, cbcEnc, ih]
  | CFB k =>
    simp only [modeEnc]
    induction ps generalizing iv i with
    | nil => simp [cfbEnc]
    | cons p ps ih =>
      cases i with
      | zero => rfl
      | succ i => simp only [List.take_succ_cons, cfbEnc, ih]
  | OFB k => exact hx _ _ _ _
  | CTR => exact hx _ _ _ _
  | CTR_N k => exact hx _ _ _ _

theorem take_flatten {u : Nat} {bs : List Bytes} (h : ∀ b ∈ bs, b.length = u) (i : Nat) :
    bs.flatten.take (u * i) = (bs.take i).flatten := by
  induction bs generalizing i with
  | nil => simp
  | cons b bs ih =>
    have hb := h b (by simp)
    cases i with
    | zero => simp
    | succ i =>
      rw [List.take_succ_cons, List.flatten_cons, List.flatten_cons, List.take_append, hb,
        List.take_of_length_le (by rw [hb, Nat.mul_succ]; omega), Nat.mul_succ, Nat.add_sub_cancel,
        ih fun x hx => h x (by simp [hx])]

/-- The unit before unit `i`. -/
def beforeUnit (iv : Bytes) (cs : List Bytes) : Nat → Bytes
  | 0 => iv
  | j + 1 => cs.getD j []

theorem cbcEnc_at (E : Bytes → Bytes) (ps : List Bytes) (iv : Bytes) (i : Nat) (hi : i < ps.length) :
    (cbcEnc E iv ps).getD i []
      = E (xorb (ps.getD i []) (beforeUnit iv (cbcEnc E iv ps) i)) := by
  induction ps generalizing iv i with
  | nil => simp at hi
  | cons p ps ih =>
    cases i with
    | zero => rfl
    | succ i =>
      simp only [List.length_cons, Nat.add_lt_add_iff_right] at hi
      simp only [cbcEnc, List.getD_cons_succ]
      rw [ih _ _ hi]
      cases i <;> rfl

theorem xorb_same {a b z : Bytes} (ha : a.length ≤ z.length) (hb : b.length ≤ z.length) :
    xorb (xorb a z) (xorb b z) = xorb a b := by
  apply List.ext_getElem
  · simp; omega
  · intro i h1 h2
    simp only [List.getElem_zipWith]
    generalize z[i]'_ = z
    generalize a[i]'_ = x
    generalize b[i]'_ = y
    rw [BitVec.xor_comm y z, ← BitVec.xor_assoc, BitVec.xor_assoc x z z, BitVec.xor_self,
      BitVec.xor_zero]

theorem xorb_eq_iff {n : Nat} {a b x y : Bytes} (ha : a.length = n) (hb : b.length = n)
    (hx : x.length = n) (hy : y.length = n) : xorb a x = xorb b y ↔ xorb a b = xorb x y := by
  constructor
  · intro h
    have h1 : xorb (xorb a x) (xorb b x) = xorb (xorb b y) (xorb b x) := by rw [h]
    rw [xorb_same (by omega) (by omega), xorb_comm b y, xorb_comm b x, xorb_same (by omega) (by omega)]
      at h1
    rw [h1, xorb_comm]
  · intro h
    have h1 : xorb (xorb a b) (xorb x b) = xorb (xorb x y) (xorb x b) := by rw [h]
    rw [xorb_same (by omega) (by omega), xorb_comm x y, xorb_comm x b, xorb_same (by omega) (by omega)]
      at h1
    rw [h1, xorb_comm]

theorem cfbEnc_xor {E : Bytes → Bytes} {n k : Nat} (hkn : k ≤ n)
    (hE : ∀ b : Bytes, b.length = n → (E b).length = n) (ps ps' : List Bytes) (reg : Bytes)
    (hr : reg.length = n) (hps : ∀ p ∈ ps, p.length = k) (hps' : ∀ p ∈ ps', p.length = k) (i : Nat)
    (hi : i < ps.length) (hi' : i < ps'.length) (h : ps.take i = ps'.take i) :
    xorb ((cfbEnc E k reg ps).getD i []) ((cfbEnc E k reg ps').getD i [])
      = xorb (ps.getD i []) (ps'.getD i []) := by
  induction i generalizing ps ps' reg with
  | zero =>
    cases ps with
    | nil => simp at hi
    | cons p ps =>
      cases ps' with
      | nil => simp at hi'
      | cons p' ps' =>
        have h1 := hps p (by simp)
        have h2 := hps' p' (by simp)
        have h3 := hE reg hr
        simp only [cfbEnc, List.getD_cons_zero]
        exact xorb_same (by simp; omega) (by simp; omega)
  | succ i ih =>
    cases ps with
    | nil => simp at hi
    | cons p ps =>
      cases ps' with
      | nil => simp at hi'
      | cons p' ps' =>
        simp only [List.take_succ_cons, List.cons.injEq] at h
        obtain ⟨rfl, h⟩ := h
        have h1 := hps p (by simp)
        have h3 := hE reg hr
        simp only [List.length_cons, Nat.add_lt_add_iff_right] at hi hi'
        simp only [cfbEnc, List.getD_cons_succ]
        exact ih ps ps' _ (by simp; omega) (fun x hx => hps x (by simp [hx]))
          (fun x hx => hps' x (by simp [hx])) hi hi' h

/-! ### Chaining modes on byte strings -/

/-- The ciphertexts of two byte strings (already padded) reveal what they should. -/
theorem cipherText_reveals {E D : Bytes → Bytes} {n : Nat}
    (hE : ∀ b : Bytes, b.length = n → (E b).length = n)
    (hinv : ∀ b : Bytes, b.length = n → D (E b) = b) {mode : Mode} (hmode : ModeOk n mode)
    (hn : 0 < n) {iv : Option Bytes} (hiv : ModeIVOk n mode iv) {m m' : Bytes}
    (hd : unitOf n mode ∣ m.length) (hd' : unitOf n mode ∣ m'.length) :
    (cipherText E n mode id iv m).length = m.length
      ∧ SamePrefixes (unitOf n mode) m m' (cipherText E n mode id iv m) (cipherText E n mode id iv m')
      ∧ Reveals n (ivOf n iv) mode m m' (cipherText E n mode id iv m) (cipherText E n mode id iv m') := by
  have hu : 0 < unitOf n mode := by
    cases mode <;> simp only [unitOf, ModeOk] at * <;> omega
  have key : ∀ x : Bytes, unitOf n mode ∣ x.length → _ := fun x hx =>
    modeDec_modeEnc (E := E) (D := D) hE hinv hmode hiv (chunks_length_of_dvd hu x hx)
  have hlen : ∀ x : Bytes, unitOf n mode ∣ x.length → (cipherText E n mode id iv x).length = x.length :=
    fun x hx => same_length_blocks hu hx (key x hx).1 (key x hx).2.1
  have hinj : ∀ x y : Bytes, unitOf n mode ∣ x.length → unitOf n mode ∣ y.length →
      cipherText E n mode id iv x = cipherText E n mode id iv y → x = y := by
    intro x y hx hy h
    have h1 := congrArg (chunks (unitOf n mode)) h
    simp only [cipherText, id] at h1
    rw [chunks_of_flatten hu _ (key x hx).1, chunks_of_flatten hu _ (key y hy).1] at h1
    have h2 := congrArg (modeDec E D n (ivOf n iv) mode) h1
    rw [(key x hx).2.2, (key y hy).2.2] at h2
    have h3 := congrArg List.flatten h2
    rwa [chunks_flatten hu, chunks_flatten hu] at h3
  have htake : ∀ x : Bytes, unitOf n mode ∣ x.length → ∀ i,
      (cipherText E n mode id iv x).take (unitOf n mode * i)
        = cipherText E n mode id iv (x.take (unitOf n mode * i)) := by
    intro x hx i
    simp only [cipherText, id]
    rw [take_flatten (key x hx).1, ← modeEnc_take]
    congr 2
    conv => rhs; rw [← chunks_flatten hu x, take_flatten (chunks_length_of_dvd hu x hx)]
    rw [chunks_of_flatten hu _ fun b hb => chunks_length_of_dvd hu x hx b (List.mem_of_mem_take hb)]
  have hdt : ∀ x : Bytes, ∀ i, unitOf n mode * i ≤ x.length →
      unitOf n mode ∣ (x.take (unitOf n mode * i)).length := by
    intro x i hi
    rw [List.length_take, Nat.min_eq_left hi]; exact Nat.dvd_mul_right _ _
  refine ⟨hlen m hd, ?_, ?_⟩
  · intro i hi hi'
    rw [htake m hd, htake m' hd']
    exact ⟨hinj _ _ (hdt m i hi) (hdt m' i hi'), fun h => by rw [h]⟩
  · have hun : ∀ x : Bytes, unitOf n mode ∣ x.length → ∀ i,
        unitAt (unitOf n mode) x i = (chunks (unitOf n mode) x).getD i [] :=
      fun x hx i => unit_chunks hu hx i
    have huc : ∀ x : Bytes, unitOf n mode ∣ x.length → ∀ i,
        unitAt (unitOf n mode) (cipherText E n mode id iv x) i
          = (modeEnc E n (ivOf n iv) mode (chunks (unitOf n mode) x)).getD i [] :=
      fun x hx i => unit_flatten (key x hx).1 i
    have hidx : ∀ x : Bytes, unitOf n mode ∣ x.length → ∀ i, unitOf n mode * i < x.length →
        i < (chunks (unitOf n mode) x).length := by
      intro x hx i hi
      rw [chunks_count hu hx]
      obtain ⟨q, hq⟩ := hx
      rw [hq] at hi ⊢
      rw [Nat.mul_div_cancel_left _ hu]
      exact Nat.lt_of_mul_lt_mul_left hi
    have hmem : ∀ x : Bytes, unitOf n mode ∣ x.length → ∀ i, unitOf n mode * i < x.length →
        ((chunks (unitOf n mode) x).getD i []).length = unitOf n mode := by
      intro x hx i hi
      have := hidx x hx i hi
      rw [List.getD_eq_getElem?_getD, List.getElem?_eq_getElem this]
      exact chunks_length_of_dvd hu x hx _ (List.getElem_mem this)
    have hxor : ∀ key : Nat → Bytes, (∀ i, (key i).length = unitOf n mode) →
        (∀ ps, modeEnc E n (ivOf n iv) mode ps = xorStream key 0 ps) →
        xorb (cipherText E n mode id iv m) (cipherText E n mode id iv m') = xorb m m' := by
      intro k h1 h2
      simp only [cipherText, id, h2, xorStream_keystream hu h1]
      exact xorb_of_keystream _ m m'
    have hctr : ∀ k, k ≤ n → IVOk n iv → ∀ i,
        (E (counterBlock (ivOf n iv) k i)).length = n := by
      intro k hk hiv i
      have hivl := ivOf_length hiv
      exact hE _ (by rw [counterBlock_length _ _ _ (by omega), hivl])
    cases mode with
    | ECB =>
      intro i j hi hj
      have e1 := huc m hd i
      have e2 := huc m' hd' j
      have e3 := hun m hd i
      have e4 := hun m' hd' j
      simp only [unitOf] at e1 e2 e3 e4
      rw [e1, e2, e3, e4]
      have h1 := hidx m hd i hi
      have h2 := hidx m' hd' j hj
      have l1 := hmem m hd i hi
      have l2 := hmem m' hd' j hj
      simp only [unitOf] at *
      have he : ∀ (ps : List Bytes) (i : Nat), i < ps.length → (ps.map E).getD i [] = E (ps.getD i []) := by
        intro ps i hi
        simp [List.getD_eq_getElem?_getD, hi]
      simp only [modeEnc]
      rw [he _ _ h1, he _ _ h2]
      constructor
      · intro h
        rw [← hinv _ l1, ← hinv _ l2, h]
      · intro h; rw [h]
    | CBC =>
      intro i j hi hj
      have hivl := ivOf_length (hiv.resolve_left (by simp))
      have hbl : ∀ x : Bytes, unitOf n .CBC ∣ x.length → ∀ i, unitOf n .CBC * i < x.length →
          (unitBefore n (ivOf n iv) (cipherText E n .CBC id iv x) i).length = n ∧
          unitAt n (cipherText E n .CBC id iv x) i
            = E (xorb (unitAt n x i) (unitBefore n (ivOf n iv) (cipherText E n .CBC id iv x) i)) := by
        intro x hx i hi
        have hb : unitBefore n (ivOf n iv) (cipherText E n .CBC id iv x) i
            = beforeUnit (ivOf n iv) (cbcEnc E (ivOf n iv) (chunks n x)) i := by
          cases i with
          | zero => rfl
          | succ j => exact huc x hx j
        constructor
        · rw [hb]
          cases i with
          | zero => exact hivl
          | succ j =>
            have h1 := hidx x hx j (by simp only [unitOf, Nat.mul_succ] at hi ⊢; omega)
            have h2 : j < (cbcEnc E (ivOf n iv) (chunks n x)).length := by
              rw [cbcEnc_count]; exact h1
            rw [beforeUnit, List.getD_eq_getElem?_getD, List.getElem?_eq_getElem h2]
            exact (key x hx).1 _ (List.getElem_mem h2)
        · rw [hb]
          have h1 := huc x hx i
          have h2 := hun x hx i
          simp only [unitOf, modeEnc] at h1 h2
          rw [h1, h2]
          exact cbcEnc_at E _ _ i (hidx x hx i hi)
      obtain ⟨b1, e1⟩ := hbl m hd i hi
      obtain ⟨b2, e2⟩ := hbl m' hd' j hj
      have l1 := hmem m hd i hi
      have l2 := hmem m' hd' j hj
      rw [← hun m hd] at l1
      rw [← hun m' hd'] at l2
      simp only [unitOf] at l1 l2
      rw [e1, e2, ← xorb_eq_iff l1 l2 b1 b2]
      constructor
      · intro h
        rw [← hinv (xorb _ _) (by simp [l1, b1]), h, hinv _ (by simp [l2, b2])]
      · intro h; rw [h]
    | CFB k =>
      intro i hi hj h
      rw [show k.toNat = unitOf n (.CFB k) from rfl, huc m hd, huc m' hd', hun m hd, hun m' hd']
      refine cfbEnc_xor (n := n) (k := k.toNat) (by have := hmode.2; omega) hE _ _ _
        (ivOf_length (hiv.resolve_left (by simp))) (chunks_length_of_dvd hu m hd)
        (chunks_length_of_dvd hu m' hd') i (hidx m hd i hi) (hidx m' hd' i hj) ?_
      have := congrArg (chunks (unitOf n (.CFB k))) h
      have ht : ∀ x : Bytes, unitOf n (.CFB k) ∣ x.length →
          chunks (unitOf n (.CFB k)) (x.take (k.toNat * i)) = (chunks (unitOf n (.CFB k)) x).take i := by
        intro x hx
        conv => lhs; rw [← chunks_flatten hu x, show k.toNat = unitOf n (.CFB k) from rfl,
          take_flatten (chunks_length_of_dvd hu x hx)]
        rw [chunks_of_flatten hu _ fun b hb => chunks_length_of_dvd hu x hx b (List.mem_of_mem_take hb)]
      rwa [ht m hd, ht m' hd'] at this
    | OFB k =>
      refine hxor (ofbKey E k.toNat (ivOf n iv)) (fun i => ?_) fun _ => rfl
      have := hmode
      simp only [ModeOk] at this
      rw [ofbKey, List.length_take, iter_length (m := n) hE _ _ (ivOf_length (hiv.resolve_left (by simp)))]
      simp only [unitOf]; omega
    | CTR => exact hxor _ (hctr n (Nat.le_refl n) (hiv.resolve_left (by simp))) fun _ => rfl
    | CTR_N k =>
      exact hxor _ (hctr k.toNat (by have := hmode.2; omega) (hiv.resolve_left (by simp))) fun _ => rfl

/-- From C67 to C108. -/
theorem Spec.Enciphers.reveals {tE tD tE' tD' : AnyTransform} {E D : Bytes → Bytes} {n maxLen maxLen' : Nat}
    {mode : Mode} {pad : Option PadScheme} {padf : Bytes → Bytes} {iv : Option Bytes}
    (hE : ∀ b : Bytes, b.length = n → (E b).length = n)
    (hinv : ∀ b : Bytes, b.length = n → D (E b) = b) (hmode : ModeOk n mode) (hn : 0 < n)
    (hiv : ModeIVOk n mode iv) (hpad : PadOk (unitOf n mode) pad padf)
    (h : Enciphers tE tD (MessageOk maxLen n mode pad padf) (cipherText E n mode padf iv))
    (h' : Enciphers tE' tD' (MessageOk maxLen' n mode pad padf) (cipherText E n mode padf iv))
    (hle : maxLen ≤ maxLen') :
    RevealsMode tE tE' (MessageOk maxLen n mode pad padf) padf n (ivOf n iv) mode := by
  have hu : 0 < unitOf n mode := by
    cases mode <;> simp only [unitOf, ModeOk] at * <;> omega
  have hdvd : ∀ m, MessageOk maxLen n mode pad padf m → unitOf n mode ∣ (padf m).length := by
    intro m hm
    cases pad with
    | none => cases hpad; exact hm.whole rfl
    | some p =>
      obtain ⟨_, _, _, h⟩ := Cipher.padLength hu hpad
      rw [h]; exact Nat.dvd_mul_left _ _
  intro ops ops' hl hl' ho ho'
  obtain ⟨k1, k2, k3⟩ := cipherText_reveals hE hinv hmode hn hiv (hdvd _ ho) (hdvd _ ho')
  obtain ⟨k4, _, _⟩ := cipherText_reveals hE hinv hmode hn hiv (hdvd _ ho') (hdvd _ ho)
  exact ⟨_, _, h.encrypt ops hl ho, h'.encrypt ops' hl'
    ⟨ho'.whole, ho'.count, Nat.le_trans ho'.fits hle, Nat.le_trans ho'.room hle⟩, k1, k4, k2, k3⟩

/-! ### The property -/

variable {env env' : Env} {maxLen : Nat} {mode : Option Mode} {pad : Option PadScheme}
  {padf : Bytes → Bytes} {iv : Option Bytes} {key : Bytes}

/-- C108, `Cipher.aes`: for every mode, padding, IV and key, whichever instructions either processor
has. -/
theorem C108_aes (host host' : AesHost) (hk : key.length = 16 ∨ key.length = 24 ∨ key.length = 32)
    (hm : maxLen ≤ env.maxLen) (hm' : maxLen ≤ env'.maxLen)
    (hmode : ModeOk 16 (mode.getD .CBC)) (hiv : ModeIVOk 16 (mode.getD .CBC) iv)
    (hpad : PadOk (unitOf 16 (mode.getD .CBC)) pad padf) :
    ∃ t t', Cipher.aes env host mode pad iv key .encrypt = some (.ok t)
      ∧ Cipher.aes env' host' mode pad iv key .encrypt = some (.ok t')
      ∧ RevealsMode t t' (MessageOk maxLen 16 (mode.getD .CBC) pad padf) padf 16 (ivOf 16 iv)
          (mode.getD .CBC) := by
  obtain ⟨t, _, e, _, h⟩ := C67_aes (env' := env) host host hk hm hm hmode hiv hpad
  obtain ⟨t', _, e', _, h'⟩ := C67_aes (env' := env') host' host' hk hm' hm' hmode hiv hpad
  exact ⟨t, t', e, e', h.reveals (D := Spec.Aes.decrypt key) (fun _ hb => (C41_aes_inverse hk hb).1)
    (fun _ hb => (C41_aes_inverse hk hb).2.2.1) hmode (by decide) hiv hpad h' (Nat.le_refl _)⟩

/-- C108, `Cipher.des`. -/
theorem C108_des (hk : key.length = 8) (hm : maxLen ≤ env.maxLen) (hm' : maxLen ≤ env'.maxLen)
    (hmode : ModeOk 8 (mode.getD .CBC)) (hiv : ModeIVOk 8 (mode.getD .CBC) iv)
    (hpad : PadOk (unitOf 8 (mode.getD .CBC)) pad padf) :
    ∃ t t', Cipher.des env mode pad iv key .encrypt = some (.ok t)
      ∧ Cipher.des env' mode pad iv key .encrypt = some (.ok t')
      ∧ RevealsMode t t' (MessageOk maxLen 8 (mode.getD .CBC) pad padf) padf 8 (ivOf 8 iv)
          (mode.getD .CBC) := by
  obtain ⟨t, _, e, _, h⟩ := C67_des (env' := env) hk hm hm hmode hiv hpad
  obtain ⟨t', _, e', _, h'⟩ := C67_des (env' := env') hk hm' hm' hmode hiv hpad
  exact ⟨t, t', e, e', h.reveals (D := Spec.Des.decrypt key) (fun _ hb => (C43_inverse key hb).1)
    (fun _ hb => (C43_inverse key hb).2.2.1) hmode (by decide) hiv hpad h' (Nat.le_refl _)⟩

/-- C108, `Cipher.triple_des`. -/
theorem C108_triple_des (hk : key.length = 16 ∨ key.length = 24) (hm : maxLen ≤ env.maxLen)
    (hm' : maxLen ≤ env'.maxLen)
    (hmode : ModeOk 8 (mode.getD .CBC)) (hiv : ModeIVOk 8 (mode.getD .CBC) iv)
    (hpad : PadOk (unitOf 8 (mode.getD .CBC)) pad padf) :
    ∃ t t', Cipher.tripleDes env mode pad iv key .encrypt = some (.ok t)
      ∧ Cipher.tripleDes env' mode pad iv key .encrypt = some (.ok t')
      ∧ RevealsMode t t' (MessageOk maxLen 8 (mode.getD .CBC) pad padf) padf 8 (ivOf 8 iv)
          (mode.getD .CBC) := by
  obtain ⟨t, _, e, _, h⟩ := C67_triple_des (env' := env) hk hm hm hmode hiv hpad
  obtain ⟨t', _, e', _, h'⟩ := C67_triple_des (env' := env') hk hm' hm' hmode hiv hpad
  exact ⟨t, t', e, e', h.reveals (D := Spec.Des.decrypt3 key) (fun _ hb => (by unfold Spec.Des.encrypt3; exact Spec.Des.encrypt_length _ _))
    (fun _ hb => (C43_inverse key hb).2.2.2.2.1) hmode (by decide) hiv hpad h' (Nat.le_refl _)⟩

/-- C108, `Cipher.blowfish`. -/
theorem C108_blowfish (hk : 4 ≤ key.length ∧ key.length ≤ 56) (hm : maxLen ≤ env.maxLen)
    (hm' : maxLen ≤ env'.maxLen)
    (hmode : ModeOk 8 (mode.getD .CBC)) (hiv : ModeIVOk 8 (mode.getD .CBC) iv)
    (hpad : PadOk (unitOf 8 (mode.getD .CBC)) pad padf) :
    ∃ t t', Cipher.blowfish env mode pad iv key .encrypt = some (.ok t)
      ∧ Cipher.blowfish env' mode pad iv key .encrypt = some (.ok t')
      ∧ RevealsMode t t' (MessageOk maxLen 8 (mode.getD .CBC) pad padf) padf 8 (ivOf 8 iv)
          (mode.getD .CBC) := by
  obtain ⟨t, _, e, _, h⟩ := C67_blowfish (env' := env) hk hm hm hmode hiv hpad
  obtain ⟨t', _, e', _, h'⟩ := C67_blowfish (env' := env') hk hm' hm' hmode hiv hpad
  exact ⟨t, t', e, e', h.reveals (D := Spec.Blowfish.decrypt key)
    (fun _ hb => (C44_inverse (by omega) hb).1)
    (fun _ hb => (C44_inverse (by omega) hb).2.2.1) hmode (by decide) hiv hpad h' (Nat.le_refl _)⟩

theorem Spec.Enciphers.revealsXor {tE tD tE' tD' : AnyTransform} {ok : Bytes → Prop} {ks : Nat → Byte}
    (h : Enciphers tE tD ok (xorKeystream ks 0)) (h' : Enciphers tE' tD' ok (xorKeystream ks 0)) :
    RevealsXor tE tE' ok := fun ops ops' hl hl' ho ho' =>
  ⟨_, _, h.encrypt ops hl ho, h'.encrypt ops' hl' ho', xorKeystream_length _ _ _,
    xorKeystream_length _ _ _, xorb_of_keystream _ _ _⟩

/-- C108, `Cipher.arcfour`: whatever the directions. -/
theorem C108_arcfour (hk : 1 ≤ key.length ∧ key.length ≤ 256) (hm : maxLen ≤ env.maxLen)
    (hm' : maxLen ≤ env'.maxLen) (dir dir' : Dir) :
    ∃ t t', Cipher.arcfour env key dir = .ok t ∧ Cipher.arcfour env' key dir' = .ok t'
      ∧ RevealsXor t t' (StreamMessageOk maxLen) := by
  obtain ⟨t, _, e, _, h⟩ := C67_arcfour (env' := env) hk hm hm dir dir
  obtain ⟨t', _, e', _, h'⟩ := C67_arcfour (env' := env') hk hm' hm' dir' dir'
  exact ⟨t, t', e, e', h.revealsXor h'⟩

/-- C108, `Cipher.chacha20`: whatever the directions, with the same key, IV and counter. -/
theorem C108_chacha20 {ctr : Option W64} (ha : Spec.ChaChaArgs key iv (ctr.getD 0))
    (hm : maxLen ≤ env.maxLen) (hm' : maxLen ≤ env'.maxLen) (dir dir' : Dir) :
    ∃ t t', Cipher.chacha20 env iv ctr key dir = .ok t
      ∧ Cipher.chacha20 env' iv ctr key dir' = .ok t'
      ∧ RevealsXor t t' (StreamMessageOk maxLen) := by
  obtain ⟨t, _, e, _, h⟩ := C67_chacha20 (env' := env) ha hm hm dir dir
  obtain ⟨t', _, e', _, h'⟩ := C67_chacha20 (env' := env') ha hm' hm' dir' dir'
  exact ⟨t, t', e, e', h.revealsXor h'⟩

/-! ### Authenticated encryption -/

theorem gcm_crypt_keystream {E : Bytes → Bytes} (hE : ∀ x : Bytes, x.length = 16 → (E x).length = 16)
    (iv m : Bytes) : GCM.crypt E iv m
      = xorKeystream (blockStream 16 fun i => E (iter GCM.inc32 i (GCM.inc32 (GCM.J0 E iv)))) 0 m := by
  have hl : ∀ i x, x.length = 16 → (iter GCM.inc32 i x).length = 16 := by
    intro i
    induction i with
    | zero => exact fun x hx => hx
    | succ i ih => exact fun x hx => ih _ (inc32_length hx)
  exact (gctr_xorStream E (chunks 16 m) _ 0).trans
    (xorStream_keystream (by decide) (fun i => hE _ (hl i _ (inc32_length (J0_length E iv)))) m 0)

/-- C108, `AEAD.aes_gcm`: two messages encrypted with the same key and IV, whatever their headers. -/
theorem C108_aes_gcm (host host' : AesHost) (pclmul pclmul' : Bool)
    (hk : key.length = 16 ∨ key.length = 24 ∨ key.length = 32) (header header' iv : Bytes)
    (ops ops' : List TOp) (hops : ∀ op ∈ ops, op.Legal) (hops' : ∀ op ∈ ops', op.Legal)
    (hm : 256 ≤ env.maxLen) (hm' : 256 ≤ env'.maxLen)
    (hfit : (inputOf ops).length ≤ env.maxLen) (hfit' : (inputOf ops').length ≤ env'.maxLen)
    (hl : (inputOf ops).length ≤ GCM.maxPlaintext) (hl' : (inputOf ops').length ≤ GCM.maxPlaintext) :
    ∃ b b' t t' c c' tag tag', aesBlock host .encrypt key = some (.ok b)
      ∧ aesBlock host' .encrypt key = some (.ok b')
      ∧ aesGcmInit env pclmul b.c b.s header iv = .ok t b.s
      ∧ aesGcmInit env' pclmul' b'.c b'.s header' iv = .ok t' b'.s
      ∧ ((aesGcm env b.c .encrypt).total ops t).observe = some (.ok (c, tag))
      ∧ ((aesGcm env' b'.c .encrypt).total ops' t').observe = some (.ok (c', tag'))
      ∧ c.length = (inputOf ops).length ∧ c'.length = (inputOf ops').length
      ∧ xorb c c' = xorb (inputOf ops) (inputOf ops') := by
  obtain ⟨b, h1, h2, h3⟩ := aesBlock_enc host hk
  obtain ⟨b', h1', h2', h3'⟩ := aesBlock_enc host' hk
  obtain ⟨t, e1, e2⟩ := C34_gcm_encrypt env pclmul h3 h2 header iv ops hops hm hfit
  obtain ⟨t', e1', e2'⟩ := C34_gcm_encrypt env' pclmul' h3' h2' header' iv ops' hops' hm' hfit'
  rw [if_pos hl] at e2
  rw [if_pos hl'] at e2'
  refine ⟨b, b', t, t', _, _, _, _, h1, h1', e1, e1', e2, e2', crypt_length h3 h2 _ _,
    crypt_length h3' h2' _ _, ?_⟩
  rw [gcm_crypt_keystream (fun x hx => (C41_aes_inverse hk hx).1),
    gcm_crypt_keystream (fun x hx => (C41_aes_inverse hk hx).1)]
  exact xorb_of_keystream _ _ _

/-- C108, `AEAD.chacha20_poly1305`: two messages encrypted with the same key and IV, whatever their
headers. -/
theorem C108_chacha20_poly1305 {iv : Bytes} (hk : key.length = 16 ∨ key.length = 32)
    (hiv : iv.length = 8 ∨ iv.length = 12) (header header' : Bytes) (ops ops' : List TOp)
    (hops : ∀ op ∈ ops, op.Legal) (hops' : ∀ op ∈ ops', op.Legal)
    (hm : 256 ≤ env.maxLen ∧ env.maxLen ≤ 2 ^ 62) (hm' : 256 ≤ env'.maxLen ∧ env'.maxLen ≤ 2 ^ 62)
    (hfit : (inputOf ops).length ≤ env.maxLen) (hfit' : (inputOf ops').length ≤ env'.maxLen)
    (hl : ¬ ChaPoly.TooLong iv (inputOf ops).length) (hl' : ¬ ChaPoly.TooLong iv (inputOf ops').length) :
    ∃ t t' c c' tag tag', chacha20Poly1305Init env header iv key = .ok t ()
      ∧ chacha20Poly1305Init env' header' iv key = .ok t' ()
      ∧ ((chacha20Poly1305 env iv.length .encrypt).total ops t).observe = some (.ok (c, tag))
      ∧ ((chacha20Poly1305 env' iv.length .encrypt).total ops' t').observe = some (.ok (c', tag'))
      ∧ c.length = (inputOf ops).length ∧ c'.length = (inputOf ops').length
      ∧ xorb c c' = xorb (inputOf ops) (inputOf ops') := by
  obtain ⟨t, e1, e2⟩ := C35_chapoly_encrypt env hk hiv header ops hops hm.1 hm.2 hfit
  obtain ⟨t', e1', e2'⟩ := C35_chapoly_encrypt env' hk hiv header' ops' hops' hm'.1 hm'.2 hfit'
  rw [if_neg hl] at e2
  rw [if_neg hl'] at e2'
  exact ⟨t, t', _, _, _, _, e1, e1', e2, e2', chapoly_crypt_length _, chapoly_crypt_length _,
    xorb_of_keystream _ _ _⟩

/-! ### Concrete cases -/

/-- Two messages of 3 and 5 bytes in OFB mode with segments of one byte: the xor of the
ciphertexts is that of the messages. -/
example (host : AesHost) : ∃ t c c', Cipher.aes Example.env64 host (some (.OFB 1)) none none Example.aesKey .encrypt
      = some (.ok t) ∧ t.run [.putString [1, 2, 3]] = some (.ok c)
      ∧ t.run [.putString [7, 7], .putString [7, 7, 7]] = some (.ok c')
      ∧ xorb c c' = [6, 5, 4] := by
  obtain ⟨t, t', h1, h2, h3⟩ := C108_aes (env := Example.env64) (env' := Example.env64)
    (maxLen := 1000) (mode := some (.OFB 1)) (pad := none) (padf := id) (iv := none) host host
    (key := Example.aesKey) (.inl rfl) (by decide) (by decide) (by simp [ModeOk])
    (.inr (by simp [IVOk])) .none
  rw [h1] at h2
  cases h2
  obtain ⟨c, c', e1, e2, _, _, _, e3⟩ := h3 [.putString [1, 2, 3]] [.putString [7, 7], .putString [7, 7, 7]]
    (by simp [TOp.Legal]) (by simp [TOp.Legal])
    ⟨fun _ => by simp [unitOf], trivial, by decide, by decide⟩
    ⟨fun _ => by simp [unitOf], trivial, by decide, by decide⟩
  exact ⟨t, c, c', h1, e1, e2, e3⟩

/-- CBC mode: messages of two blocks that start with the same block. The ciphertexts have the same
first block, and different second blocks. -/
example (host : AesHost) : ∃ t c c', Cipher.aes Example.env64 host none none none Example.aesKey .encrypt
      = some (.ok t)
      ∧ t.run [.putString (List.replicate 16 1 ++ List.replicate 16 2)] = some (.ok c)
      ∧ t.run [.putString (List.replicate 32 1)] = some (.ok c')
      ∧ c.take 16 = c'.take 16 ∧ c ≠ c' := by
  obtain ⟨t, t', h1, h2, h3⟩ := C108_aes (env := Example.env64) (env' := Example.env64)
    (maxLen := 1000) (mode := none) (pad := none) (padf := id) (iv := none) host host
    (key := Example.aesKey) (.inl rfl) (by decide) (by decide) (by simp [ModeOk])
    (.inr (by simp [IVOk])) .none
  rw [h1] at h2
  cases h2
  obtain ⟨c, c', e1, e2, l1, l2, e3, _⟩ := h3 [.putString (List.replicate 16 1 ++ List.replicate 16 2)]
    [.putString (List.replicate 32 1)]
    (by simp [TOp.Legal]) (by simp [TOp.Legal])
    ⟨fun _ => by decide, trivial, by decide, by decide⟩
    ⟨fun _ => by decide, trivial, by decide, by decide⟩
  refine ⟨t, c, c', h1, e1, e2, (e3 1 (by decide) (by decide)).2 (by decide), fun h => ?_⟩
  exact absurd ((e3 2 (by decide) (by decide)).1 (by rw [h])) (by decide)

/-- Two messages under one ChaCha20-Poly1305 key and IV, with different headers. -/
example := C108_chacha20_poly1305 (env := Example.env64) (env' := Example.env64)
  (key := List.replicate 32 7) (iv := List.replicate 12 5) (.inr rfl) (.inr rfl) [1] [2, 3] Example.ops
  [.putString [9, 9, 9]] Example.ops_legal (by simp [TOp.Legal]) (by decide) (by decide)
  (by rw [Example.ops_input]; decide) (by decide) (by rw [Example.ops_input]; decide) (by decide)

example (host host' : AesHost) := C108_aes_gcm (env := Example.env64) (env' := Example.env64)
  (key := Example.aesKey) host host' true false (.inl rfl) [1] [2, 3] [9, 9, 9] Example.ops
  [.putString [9, 9, 9]] Example.ops_legal (by simp [TOp.Legal]) (by decide) (by decide)
  (by rw [Example.ops_input]; decide) (by decide) (by rw [Example.ops_input]; decide) (by decide)

end Verif
