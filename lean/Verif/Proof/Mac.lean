import Verif.Model.Mac
import Verif.Spec.Mac
import Verif.Spec.Cipher
import Verif.Proof.Hash
import Verif.Proof.Xor
import Verif.Proof.Padded
import Verif.Proof.MD
/-
MACs built from block ciphers: after any data has been added, the object holds the chaining value
of the complete blocks, except the last, which is in the buffer.
-/
namespace Verif

/-- The CBC chaining value. -/
def cbcFold (E : Bytes → Bytes) (iv : Bytes) (bs : List Bytes) : Bytes :=
  bs.foldl (fun x b => E (xorb b x)) iv

theorem cbcEnc_getLastD (E : Bytes → Bytes) (bs : List Bytes) (iv : Bytes) :
    (Spec.cbcEnc E iv bs).getLastD iv = cbcFold E iv bs := by
  induction bs generalizing iv with
  | nil => rfl
  | cons b bs ih =>
    simp only [Spec.cbcEnc, List.getLastD_cons]
    rw [ih]
    rfl

theorem cbcFold_append (E : Bytes → Bytes) (iv : Bytes) (bs : List Bytes) (b : Bytes) :
    cbcFold E iv (bs ++ [b]) = E (xorb b (cbcFold E iv bs)) := by simp [cbcFold]

/-- What the object holds after the data `m`. -/
structure MacRep (n : Nat) (E : Bytes → Bytes) (iv0 : Bytes) (k : σ) (m : Bytes) (st : MacSt σ) :
    Prop where
  key : st.c = k
  buf : st.buffer.length = n
  ivlen : st.iv.length = n
  split : ∃ bs : List Bytes, ∃ rest : Bytes, m = bs.flatten ++ rest ∧ (∀ b ∈ bs, b.length = n) ∧
    rest.length ≤ n ∧ (bs ≠ [] → rest ≠ []) ∧ st.iv = cbcFold E iv0 bs ∧ st.used = rest.length ∧
    st.buffer.take rest.length = rest

section
variable {c : BlockCipher σ} {k : σ} {E : Bytes → Bytes} (hc : PureCipher c k E)
include hc

theorem macCall_ok {st : MacSt σ} (hk : st.c = k) (hb : st.buffer.length = c.blocksize)
    (hi : st.iv.length = c.blocksize) :
    macCall c st = .ok () { st with iv := E st.buffer } := by
  have := hc.run (s := st.c) (src := .other st.buffer) (so := 0) (dofs := 0) (dst := st.iv) hk
    (by simp; omega) (by omega)
  unfold macCall
  rw [show (0 : Int) = ((0 : Nat) : Int) by rfl, this]
  have hl : (E st.buffer).length = c.blocksize := hc.out_len (s := k) rfl hb
  simp only [BRes.toOut, Src.read_other, slice_full' hb]
  rw [splice_full (by omega)]

omit hc in
theorem macXor_ok {st : MacSt σ} {b : Bytes} (hb : st.buffer.length = c.blocksize)
    (hi : b.length = c.blocksize) :
    macXor c b st = .ok () { st with buffer := xorb st.buffer b } := by
  have := xorC_ok (src := .other b) (so := 0) (dofs := 0) (n := c.blocksize) (dst := st.buffer)
    (by simp; omega) (by omega) trivial
  unfold macXor
  rw [M.bind_ok (M.get_def st), show (0 : Int) = ((0 : Nat) : Int) by rfl, this]
  simp only [Src.read_other, slice_full' hb, slice_full' hi]
  rw [splice_full (by simp; omega)]
  rfl

theorem macBlock_ok {st : MacSt σ} (hk : st.c = k) (hb : st.buffer.length = c.blocksize)
    (hi : st.iv.length = c.blocksize) :
    macBlock c st
      = .ok () { st with buffer := xorb st.buffer st.iv, iv := E (xorb st.buffer st.iv) } := by
  unfold macBlock
  rw [M.bind_ok (M.get_def st), M.bind_ok (macXor_ok hb hi)]
  exact macCall_ok hc (st := { st with buffer := xorb st.buffer st.iv }) hk (by simp; omega) hi

theorem macAdd_split {iv0 src : Bytes} (bs : List Bytes) (rest : Bytes) {st : MacSt σ}
    {ofs len : Nat} (hl : ofs + len ≤ src.length) (hk : st.c = k)
    (hb : st.buffer.length = c.blocksize) (hi : st.iv.length = c.blocksize)
    (hbs : ∀ b ∈ bs, b.length = c.blocksize) (hrl : rest.length ≤ c.blocksize)
    (hne : bs ≠ [] → rest ≠ [] ∨ 0 < len) (hiv : st.iv = cbcFold E iv0 bs)
    (hu : st.used = rest.length) (htk : st.buffer.take rest.length = rest) :
    ∃ st', macAddSubstring c src ofs len st = .ok () st' ∧
      MacRep c.blocksize E iv0 k (bs.flatten ++ rest ++ slice src ofs len) st' := by
  have hpos := hc.pos
  induction h : (len * 2 + (if st.used = 0 then 0 else 1)) using Nat.strongRecOn
    generalizing st ofs len bs rest with
  | _ x ih =>
    rw [macAddSubstring]
    by_cases hl0 : len = 0
    · rw [if_pos (by omega)]
      subst hl0
      exact ⟨st, rfl, hk, hb, hi, bs, rest, by simp, hbs, hrl,
        fun hn => (hne hn).resolve_right (by omega), hiv, hu, htk⟩
    · rw [if_neg (by omega)]
      by_cases hfit : st.used + len ≤ c.blocksize
      · rw [if_pos (by omega), bytesBlit_ok hl (by omega)]
        have hsl := slice_length_of_le hl
        refine ⟨_, rfl, hk, ?_, hi, bs, rest ++ slice src ofs len, by simp, hbs, ?_, ?_, hiv, ?_, ?_⟩
        · simp only; rw [splice_length (by omega)]; exact hb
        · rw [List.length_append]; omega
        · intro hbn hcon
          have := congrArg List.length hcon
          rw [List.length_append] at this
          simp only [List.length_nil] at this
          omega
        · rw [List.length_append, hsl]; simp only [Int.toNat_natCast]; omega
        · simp only
          rw [List.length_append, ← hu, take_splice (by omega), hu, htk]
      · rw [if_neg (by omega)]
        simp only
        have hn : ((c.blocksize : Int) - st.used) = ((c.blocksize - st.used : Nat) : Int) := by omega
        have hblit := bytesBlit_ok (src := src) (so := ofs) (dst := st.buffer) (dofs := st.used)
          (n := c.blocksize - st.used) (by omega) (by omega)
        have hsl := slice_length_of_le (b := src) (o := ofs) (n := c.blocksize - st.used) (by omega)
        have hbuf : splice st.buffer st.used (slice src ofs (c.blocksize - st.used))
            = rest ++ slice src ofs (c.blocksize - st.used) := by
          rw [hu] at hsl ⊢
          exact splice_prefix htk (by rw [hsl]; omega)
        rw [hn, hblit]
        simp only
        rw [hbuf]
        have hbl : (rest ++ slice src ofs (c.blocksize - st.used)).length = c.blocksize := by
          rw [List.length_append, hsl]; omega
        rw [macBlock_ok hc (st := { st with buffer := rest ++ slice src ofs (c.blocksize - st.used) })
          hk hbl hi]
        simp only
        rw [dif_neg (by omega)]
        generalize hblk : rest ++ slice src ofs (c.blocksize - st.used) = blk at *
        have hEl : (E (xorb blk st.iv)).length = c.blocksize :=
          hc.out_len (s := k) rfl (by rw [xorb_length]; omega)
        rw [show ((ofs : Int) + ((c.blocksize - st.used : Nat) : Int))
            = ((ofs + (c.blocksize - st.used) : Nat) : Int) by omega,
          show ((len : Int) - ((c.blocksize - st.used : Nat) : Int))
            = ((len - (c.blocksize - st.used) : Nat) : Int) by omega]
        have := ih ((len - (c.blocksize - st.used)) * 2 + 0) (by split at h <;> omega)
          (bs ++ [blk]) [] (st := ⟨st.c, E (xorb blk st.iv), xorb blk st.iv, 0⟩)
          (ofs := ofs + (c.blocksize - st.used)) (len := len - (c.blocksize - st.used)) (by omega) hk
          (by simp only [xorb_length]; omega) hEl
          (by
            intro b hm
            rcases List.mem_append.1 hm with hm | hm
            · exact hbs b hm
            · rw [List.mem_singleton] at hm; rw [hm]; exact hbl)
          (by simp) (fun _ => .inr (by omega)) (by rw [cbcFold_append, hiv]) rfl (by simp) (by simp)
        have e : bs.flatten ++ rest ++ slice src ofs len = (bs ++ [blk]).flatten ++ [] ++
            slice src (ofs + (c.blocksize - st.used)) (len - (c.blocksize - st.used)) := by
          rw [← hblk]
          simp only [List.flatten_append, List.flatten_cons, List.flatten_nil, List.append_nil,
            List.append_assoc]
          rw [← slice_append_right]
          congr 3; omega
        rw [e]
        exact this

theorem macAdd_rep {iv0 m src : Bytes} {st : MacSt σ} {ofs len : Nat}
    (hr : MacRep c.blocksize E iv0 k m st) (hl : ofs + len ≤ src.length) :
    ∃ st', macAddSubstring c src ofs len st = .ok () st' ∧
      MacRep c.blocksize E iv0 k (m ++ slice src ofs len) st' := by
  obtain ⟨hk, hb, hi, bs, rest, he, hbs, hrl, hne, hiv, hu, htk⟩ := hr
  rw [he]
  exact macAdd_split hc bs rest hl hk hb hi hbs hrl (fun h => .inl (hne h)) hiv hu htk

theorem macAddChar_rep {iv0 m : Bytes} {st : MacSt σ}
    (hr : MacRep c.blocksize E iv0 k m st) (ch : Byte) :
    ∃ st', macAddChar c ch st = .ok () st' ∧ MacRep c.blocksize E iv0 k (m ++ [ch]) st' := by
  have hpos := hc.pos
  obtain ⟨hk, hb, hi, bs, rest, he, hbs, hrl, hne, hiv, hu, htk⟩ := hr
  unfold macAddChar
  by_cases hlt : st.used < c.blocksize
  · rw [if_pos hlt, bytesSet_ok (by omega)]
    refine ⟨_, rfl, hk, by simpa using hb, hi, bs, rest ++ [ch], by simp [he], hbs, ?_, by simp, hiv,
      by simp [hu], ?_⟩
    · simp; omega
    · simp only
      rw [set_eq_splice (by omega), List.length_append, ← hu,
        take_splice (x := [ch]) (by simp; omega), hu, htk]
  · rw [if_neg hlt]
    have hfull : st.buffer = rest := by
      rw [← htk, List.take_of_length_le (by omega)]
    rw [M.bind_ok (macBlock_ok hc hk hb hi), M.bind_ok (M.get_def _)]
    simp only
    rw [show (0 : Int) = ((0 : Nat) : Int) by rfl, bytesSet_ok (by simp; omega)]
    have hEl : (E (xorb st.buffer st.iv)).length = c.blocksize :=
      hc.out_len (s := k) rfl (by rw [xorb_length]; omega)
    refine ⟨_, rfl, hk, by simp; omega, hEl, bs ++ [rest], [ch], by simp [he], ?_, by simp; omega,
      by simp, ?_, rfl, ?_⟩
    · intro b hm
      rcases List.mem_append.1 hm with hm | hm
      · exact hbs b hm
      · rw [List.mem_singleton] at hm; rw [hm]; omega
    · simp only
      rw [cbcFold_append, hiv, hfull]
    · simp only
      rw [set_eq_splice (by simp; omega)]
      have := take_splice (b := xorb st.buffer st.iv) (o := 0) (x := [ch]) (by simp; omega)
      simpa using this

theorem mac_call_rep {iv0 m : Bytes} {st : MacSt σ} {pad : Option PadScheme}
    (hr : MacRep c.blocksize E iv0 k m st) {op : HOp} (hop : op.Legal) :
    ∃ st', (mac c pad).call op st = .ok () st' ∧ MacRep c.blocksize E iv0 k (m ++ op.input) st' := by
  cases op with
  | addSubstring b ofs len =>
    obtain ⟨_, h1, h2, h3⟩ := hop
    obtain ⟨o, rfl⟩ : ∃ o : Nat, ofs = o := ⟨ofs.toNat, by omega⟩
    obtain ⟨l, rfl⟩ : ∃ l : Nat, len = l := ⟨len.toNat, by omega⟩
    exact macAdd_rep hc hr (by omega)
  | addString s =>
    have := macAdd_rep hc hr (src := s) (ofs := 0) (len := s.length) (by omega)
    rw [slice_full] at this
    exact this
  | addChar ch => exact macAddChar_rep hc hr ch
  | addByte b => exact macAddChar_rep hc hr _

theorem mac_calls_rep {iv0 m : Bytes} {st : MacSt σ} {pad : Option PadScheme}
    (hr : MacRep c.blocksize E iv0 k m st) (ops : List HOp) (hops : ∀ op ∈ ops, op.Legal) :
    ∃ st', (mac c pad).calls ops st = .ok () st' ∧
      MacRep c.blocksize E iv0 k (m ++ hinputOf ops) st' := by
  induction ops generalizing m st with
  | nil => exact ⟨st, rfl, by simpa [hinputOf_nil] using hr⟩
  | cons op ops ih =>
    obtain ⟨s1, h1, r1⟩ := mac_call_rep hc (pad := pad) hr (hops op List.mem_cons_self)
    obtain ⟨s2, h2, r2⟩ := ih r1 fun o ho => hops o (List.mem_cons_of_mem _ ho)
    refine ⟨s2, ?_, ?_⟩
    · rw [HashObj.calls, h1]; exact h2
    · rw [hinputOf_cons, ← List.append_assoc]; exact r2

omit hc in
theorem macRep_init {env : Env} {iv : Option Bytes} {st : MacSt σ} (h : macInit env c k iv = .ok st) :
    MacRep c.blocksize E (iv.getD (List.replicate c.blocksize 0)) k [] st := by
  unfold macInit makeInitialIV at h
  cases iv with
  | none =>
    simp only [Except.ok.injEq] at h
    subst h
    exact ⟨rfl, by simp, by simp, [], [], rfl, by simp, by simp, by simp, rfl, rfl, by simp⟩
  | some iv =>
    simp only at h
    by_cases hl : iv.length = c.blocksize
    · rw [if_neg (by omega)] at h
      simp only [Except.ok.injEq] at h
      subst h
      exact ⟨rfl, by simp, hl, [], [], rfl, by simp, by simp, by simp, rfl, rfl, by simp⟩
    · rw [if_pos hl] at h; cases h

/-- The state after the pending full block, if any, has been processed. -/
theorem mac_flush_full {iv0 m : Bytes} {st : MacSt σ} (hr : MacRep c.blocksize E iv0 k m st) :
    ∃ st' bs rest, (do
        let st ← M.get
        if st.used = c.blocksize then
          macBlock c
          M.modify fun st => { st with used := 0 } : M (MacSt σ) Unit) st = .ok () st' ∧
      m = bs.flatten ++ rest ∧ (∀ b ∈ bs, b.length = c.blocksize) ∧ rest.length < c.blocksize ∧
      st'.c = k ∧ st'.buffer.length = c.blocksize ∧ st'.iv.length = c.blocksize ∧
      st'.iv = cbcFold E iv0 bs ∧ st'.used = rest.length ∧ st'.buffer.take rest.length = rest := by
  have hpos := hc.pos
  obtain ⟨hk, hb, hi, bs, rest, he, hbs, hrl, hne, hiv, hu, htk⟩ := hr
  rw [M.bind_ok (M.get_def st)]
  by_cases hfull : st.used = c.blocksize
  · rw [if_pos hfull, M.bind_ok (macBlock_ok hc hk hb hi)]
    have hbuf : st.buffer = rest := by rw [← htk, List.take_of_length_le (by omega)]
    have hEl : (E (xorb st.buffer st.iv)).length = c.blocksize :=
      hc.out_len (s := k) rfl (by rw [xorb_length]; omega)
    refine ⟨_, bs ++ [rest], [], rfl, by simp [he], ?_, by simpa using hpos, hk, by simp; omega, hEl,
      ?_, rfl, by simp⟩
    · intro b hm
      rcases List.mem_append.1 hm with hm | hm
      · exact hbs b hm
      · rw [List.mem_singleton] at hm; rw [hm]; omega
    · simp only
      rw [cbcFold_append, hiv, hbuf]
  · rw [if_neg hfull]
    exact ⟨st, bs, rest, rfl, he, hbs, by omega, hk, hb, hi, hiv, hu, htk⟩

omit hc in
theorem macResult_eq (pad : Option PadScheme) (st : MacSt σ) :
    macResult c pad st = ((do
        let st ← M.get
        if st.used = c.blocksize then
          macBlock c
          M.modify fun st => { st with used := 0 } : M (MacSt σ) Unit) >>= fun _ => (do
        let st ← M.get
        match pad with
        | none => if st.used ≠ 0 then M.raise (.error .wrongDataLength)
        | some p =>
          let b ← ofExcept (p.pad st.buffer st.used)
          M.modify fun st => { st with buffer := b }
          macBlock c
          M.modify fun st => { st with used := 0 }
        let st ← M.get
        pure st.iv)) st := by
  unfold macResult
  rw [M.bind_def, M.bind_def, M.bind_def]
  simp only [M.get_def]
  by_cases h : st.used = c.blocksize
  · rw [if_pos h, if_pos h, M.bind_def, M.bind_def]
    cases macBlock c st <;> rfl
  · rw [if_neg h, if_neg h]
    rfl

omit hc in
theorem blocks_dvd {n : Nat} {bs : List Bytes} {rest : Bytes} (hbs : ∀ b ∈ bs, b.length = n)
    (hr : rest.length < n) : n ∣ (bs.flatten ++ rest).length ↔ rest = [] := by
  rw [List.length_append, flatten_length_of bs hbs]
  constructor
  · intro h
    have := (Nat.dvd_add_right (Nat.dvd_mul_right n bs.length)).1 h
    have := Nat.eq_zero_of_dvd_of_lt this hr
    exact List.length_eq_zero_iff.1 this
  · rintro rfl
    exact Nat.dvd_mul_right _ _

theorem macResult_none {iv0 m : Bytes} {st : MacSt σ} (hr : MacRep c.blocksize E iv0 k m st) :
    (macResult c none st).observe = some (if c.blocksize ∣ m.length then
      .ok (Spec.cbcMac E c.blocksize iv0 m) else .error (.error .wrongDataLength)) := by
  have hpos := hc.pos
  obtain ⟨st', bs, rest, hrun, he, hbs, hrl, hk, hb, hi, hiv, hu, htk⟩ := mac_flush_full hc hr
  rw [macResult_eq, M.bind_ok hrun, M.bind_ok (M.get_def st')]
  have hd := blocks_dvd hbs hrl
  rw [← he] at hd
  by_cases h0 : rest = []
  · rw [if_pos (hd.2 h0)]
    subst h0
    simp only
    rw [if_neg (by simp [hu])]
    simp only [M.bind_def, M.get_def, M.pure_def, Out.observe]
    rw [Spec.cbcMac, cbcEnc_getLastD, he, List.append_nil, chunks_of_flatten hpos bs hbs, hiv]
  · rw [if_neg (fun h => h0 (hd.1 h))]
    simp only
    rw [if_pos (by rw [hu]; exact fun h => h0 (List.length_eq_zero_iff.1 h))]
    rfl

omit hc in
theorem padMessage_split {n : Nat} (hn : 0 < n) {bs : List Bytes} {rest : Bytes} {pad : Bytes → Bytes}
    (hbs : ∀ b ∈ bs, b.length = n) (hr : rest.length < n) :
    Spec.padMessage n pad (bs.flatten ++ rest) = bs.flatten ++ pad rest := by
  have hl : (bs.flatten ++ rest).length / n * n = bs.flatten.length := by
    rw [List.length_append, flatten_length_of bs hbs, Nat.add_comm, Nat.add_mul_div_left _ _ hn,
      Nat.div_eq_of_lt hr, Nat.zero_add, Nat.mul_comm]
  rw [Spec.padMessage, hl, List.take_left, List.drop_left]

theorem macResult_some {iv0 m : Bytes} {st : MacSt σ} (hr : MacRep c.blocksize E iv0 k m st)
    {p : PadScheme} {pad : Bytes → Bytes} (hp : p.Computes c.blocksize pad) :
    (macResult c (some p) st).observe
      = some (.ok (Spec.cbcMac E c.blocksize iv0 (Spec.padMessage c.blocksize pad m))) := by
  have hpos := hc.pos
  obtain ⟨st', bs, rest, hrun, he, hbs, hrl, hk, hb, hi, hiv, hu, htk⟩ := mac_flush_full hc hr
  have hpad : p.pad st'.buffer st'.used = .ok (pad rest) := by
    rw [hp.pad_ok hb (by omega), hu, htk]
  have hpl := hp.pad_len hrl
  rw [macResult_eq, M.bind_ok hrun, M.bind_ok (M.get_def st')]
  simp only
  rw [hpad]
  have hblk := macBlock_ok hc (st := { st' with buffer := pad rest }) hk hpl hi
  simp only [M.bind_def, ofExcept, M.pure, M.modify_def, hblk, M.get_def, M.pure_def, Out.observe]
  have hchunks : chunks c.blocksize (bs.flatten ++ pad rest) = bs ++ [pad rest] := by
    have := chunks_of_flatten hpos (bs ++ [pad rest]) (by
      intro b hm
      rcases List.mem_append.1 hm with hm | hm
      · exact hbs b hm
      · rw [List.mem_singleton] at hm; rw [hm]; exact hpl)
    simpa using this
  rw [Spec.cbcMac, cbcEnc_getLastD, he, padMessage_split hpos hbs hrl, hchunks, cbcFold_append, hiv]

end

end Verif
