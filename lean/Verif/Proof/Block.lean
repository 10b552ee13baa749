import Verif.Spec.Cipher
import Verif.Proof.Xor
/-
Block-cipher objects implement functions on blocks, whatever the buffers, offsets and
aliasing.
-/
namespace Verif

theorem PureCipher.len {c : BlockCipher σ} {k : σ} {E : Bytes → Bytes} (h : PureCipher c k E)
    {b : Bytes} (hb : b.length = c.blocksize) : (E b).length = c.blocksize :=
  h.out_len rfl hb

theorem PureCipher.run' {c : BlockCipher σ} {k : σ} {E : Bytes → Bytes} (h : PureCipher c k E)
    {src : Src} {so dofs : Nat} {dst : Bytes}
    (hs : so + c.blocksize ≤ (src.read dst).length) (hd : dofs + c.blocksize ≤ dst.length) :
    c.transform src so dofs (k, dst)
      = .ok () (k, splice dst dofs (E (slice (src.read dst) so c.blocksize))) :=
  h.run rfl hs hd

/-- Invariant of the mode states. -/
def ModeInv (k : σ) (n : Nat) (st : ModeSt σ) : Prop :=
  st.c = k ∧ st.iv.length = n ∧ st.aux.length = n

variable {σ : Type} {c : BlockCipher σ} {k : σ} {E : Bytes → Bytes}

theorem xorC_into_iv {b iv : Bytes} {so n : Nat} (hs : so + n ≤ b.length) (hiv : iv.length = n) :
    xorC (.other b) so iv 0 n = some (xorb (slice b so n) iv) := by
  have := xorC_ok (src := .other b) (so := so) (dofs := 0) (n := n) (dst := iv)
    (by simpa [Src.read] using hs) (by omega) trivial
  rw [← Int.natCast_zero, this]
  simp only [Src.read]
  have hl : (xorb (slice iv 0 n) (slice b so n)).length = iv.length := by simp; omega
  rw [splice_full hl.symm, slice_full' hiv, xorb_comm]

theorem xorC_into_dst {x dst : Bytes} {dofs n : Nat} (hx : n ≤ x.length)
    (hd : dofs + n ≤ dst.length) :
    xorC (.other x) 0 dst dofs n = some (splice dst dofs (xorb (slice dst dofs n) (x.take n))) := by
  have := xorC_ok (src := .other x) (so := 0) (dofs := dofs) (n := n) (dst := dst)
    (by simpa [Src.read] using hx) hd trivial
  simpa [Src.read] using this

/-- copying the source block then xoring into the destination -/
theorem blit_xor {x dst blk : Bytes} {dofs n : Nat} (hx : n ≤ x.length) (hb : blk.length = n)
    (hd : dofs + n ≤ dst.length) :
    xorC (.other x) 0 (splice dst dofs blk) dofs n
      = some (splice dst dofs (xorb blk (x.take n))) := by
  rw [xorC_into_dst hx (by rw [splice_length (by omega)]; exact hd),
    slice_splice_same' hb hd, splice_splice_same (by simp; omega) (by omega)]

/-! ### CBC -/

def cbcEncF (E : Bytes → Bytes) (st : ModeSt σ) (b : Bytes) : BRes (ModeSt σ) :=
  let x := E (xorb b st.iv)
  ⟨x, { st with iv := x }, none⟩

theorem cbcEncrypt_implements (h : PureCipher c k E) :
    Implements (cbcEncrypt c) (ModeInv k c.blocksize) (cbcEncF E) where
  pos := h.pos
  out_len := by
    intro s blk hs hb
    change blk.length = c.blocksize at hb
    exact h.len (by simp [hs.2.1, hb])
  inv_step := by
    intro s blk hs hb
    change blk.length = c.blocksize at hb
    exact ⟨hs.1, h.len (by simp [hs.2.1, hb]), hs.2.2⟩
  run := by
    rintro ⟨c0, iv, aux⟩ src so dofs dst ⟨rfl, hiv, haux⟩ hs hd
    change so + c.blocksize ≤ _ at hs
    change dofs + c.blocksize ≤ _ at hd
    change iv.length = _ at hiv
    have hx : (xorb (slice (src.read dst) so c.blocksize) iv).length = c.blocksize := by
      simp; omega
    have hE := h.len hx
    have hrun := h.run' (src := .other (xorb (slice (src.read dst) so c.blocksize) iv)) (so := 0)
      (dofs := dofs) (dst := dst) (by simp only [Src.read_other]; omega) hd
    have hblit := bytesBlit_ok
      (src := splice dst dofs (E (xorb (slice (src.read dst) so c.blocksize) iv))) (so := dofs)
      (dst := xorb (slice (src.read dst) so c.blocksize) iv) (dofs := 0) (n := c.blocksize)
      (by rw [splice_length (by omega)]; exact hd) (by omega)
    simp only [Src.read_other, slice_full' hx] at hrun
    rw [slice_splice_same' hE hd, splice_full (by omega)] at hblit
    simp only [Int.natCast_zero] at hrun hblit
    simp only [cbcEncrypt, M.bind_def, M.get_def, xorC_into_iv hs hiv, M.orUB_some,
      ModeSt.setIv, M.modify_def, ModeSt.callDst, M.zoom, hrun, hblit, M.orRaise_some]
    rfl

def cbcDecF (D : Bytes → Bytes) (st : ModeSt σ) (b : Bytes) : BRes (ModeSt σ) :=
  ⟨xorb (D b) st.iv, { st with iv := b, aux := b }, none⟩

theorem cbcDecrypt_implements (h : PureCipher c k E) :
    Implements (cbcDecrypt c) (ModeInv k c.blocksize) (cbcDecF E) where
  pos := h.pos
  out_len := by
    intro s blk hs hb
    change blk.length = c.blocksize at hb
    change (xorb (E blk) s.iv).length = c.blocksize
    simp [h.len hb, hs.2.1]
  inv_step := by
    intro s blk hs hb
    exact ⟨hs.1, hb, hb⟩
  run := by
    rintro ⟨c0, iv, aux⟩ src so dofs dst ⟨rfl, hiv, haux⟩ hs hd
    change so + c.blocksize ≤ _ at hs
    change dofs + c.blocksize ≤ _ at hd
    change iv.length = _ at hiv
    change aux.length = _ at haux
    have hb : (slice (src.read dst) so c.blocksize).length = c.blocksize := slice_length_of_le hs
    have hE := h.len hb
    have hblit := bytesBlit_ok (src := src.read dst) (so := so) (dst := aux) (dofs := 0)
      (n := c.blocksize) hs (by omega)
    rw [splice_full (by omega)] at hblit
    have hrun := h.run' (src := src) (so := so) (dofs := dofs) (dst := dst) hs hd
    have hxor := blit_xor (x := iv) (dst := dst) (n := c.blocksize) (by omega) hE hd
    have hblit2 := bytesBlit_ok (src := slice (src.read dst) so c.blocksize) (so := 0) (dst := iv)
      (dofs := 0) (n := c.blocksize) (by omega) (by omega)
    rw [slice_full' hb, splice_full (by omega)] at hblit2
    simp only [Int.natCast_zero] at hblit hblit2
    simp only [cbcDecrypt, M.bind_def, M.get_def, hblit, M.orRaise_some,
      ModeSt.setAux, M.modify_def, ModeSt.callDst, M.zoom, hrun, hxor, M.orUB_some,
      ModeSt.setDst, hblit2, ModeSt.setIv, BRes.toOut, cbcDecF]
    rw [← hiv, List.take_length]

/-! ### CFB -/

def cfbEncF (E : Bytes → Bytes) (n : Nat) (st : ModeSt σ) (b : Bytes) : BRes (ModeSt σ) :=
  let x := xorb b ((E st.iv).take n)
  ⟨x, { st with aux := E st.iv, iv := st.iv.drop n ++ x }, none⟩

def cfbDecF (E : Bytes → Bytes) (n : Nat) (st : ModeSt σ) (b : Bytes) : BRes (ModeSt σ) :=
  ⟨xorb b ((E st.iv).take n), { st with aux := E st.iv, iv := st.iv.drop n ++ b }, none⟩

theorem callAux_ok (h : PureCipher c k E) {iv aux : Bytes} (hiv : iv.length = c.blocksize)
    (haux : aux.length = c.blocksize) (dst : Bytes) :
    ModeSt.callAux c (.other iv) 0 0 (⟨k, iv, aux⟩, dst) = .ok () (⟨k, iv, E iv⟩, dst) := by
  have hE := h.len hiv
  have hrun := h.run' (src := .other iv) (so := 0) (dofs := 0) (dst := aux)
    (by simp only [Src.read]; omega) (by omega)
  simp only [Src.read, slice_full' hiv, Int.natCast_zero] at hrun
  rw [splice_full (by omega)] at hrun
  simp only [ModeSt.callAux, M.zoom, hrun]

theorem shift_blit {iv : Bytes} {n m : Nat} (hiv : iv.length = m) (hn : n ≤ m) :
    bytesBlit iv n iv 0 ((m : Int) - n) = some (iv.drop n ++ iv.drop (m - n)) := by
  have := bytesBlit_ok (src := iv) (so := n) (dst := iv) (dofs := 0) (n := m - n)
    (by omega) (by omega)
  rw [show ((m : Int) - n) = ((m - n : Nat) : Int) by omega, ← Int.natCast_zero, this]
  congr 1
  have : slice iv n (m - n) = iv.drop n := by
    simp only [slice]; rw [List.take_of_length_le (by simp; omega)]
  rw [this]
  simp [splice, hiv]

theorem shift_in {a tail x : Bytes} {n m : Nat} (ha : a.length = m - n) (ht : tail.length = n)
    (hx : x.length = n) : splice (a ++ tail) (m - n) x = a ++ x := by
  unfold splice
  rw [List.take_append_of_le_length (by omega), List.take_of_length_le (by omega),
    List.drop_eq_nil_of_le (by simp; omega), List.append_nil]

theorem cfbEncrypt_implements (h : PureCipher c k E) {n : Nat} (hn : 0 < n)
    (hn' : n ≤ c.blocksize) :
    Implements (cfbEncrypt n c) (ModeInv k c.blocksize) (cfbEncF E n) where
  pos := hn
  out_len := by
    intro s blk hs hb
    change blk.length = n at hb
    have := h.len hs.2.1
    simp only [cfbEncF, xorb_length, List.length_take]
    change _ = n
    omega
  inv_step := by
    intro s blk hs hb
    change blk.length = n at hb
    have := h.len hs.2.1
    have := hs.2.1
    refine ⟨hs.1, ?_, by simpa [cfbEncF]⟩
    simp [cfbEncF]; omega
  run := by
    rintro ⟨c0, iv, aux⟩ src so dofs dst ⟨rfl, hiv, haux⟩ hs hd
    change so + n ≤ _ at hs
    change dofs + n ≤ _ at hd
    change iv.length = _ at hiv
    change aux.length = _ at haux
    have hb : (slice (src.read dst) so n).length = n := slice_length_of_le hs
    have hE := h.len hiv
    have hblit := bytesBlit_ok (src := src.read dst) (so := so) (dst := dst) (dofs := dofs)
      (n := n) hs hd
    have hxor := blit_xor (x := E iv) (dst := dst) (n := n) (by omega) hb hd
    have hx : (xorb (slice (src.read dst) so n) ((E iv).take n)).length = n := by simp; omega
    have hblit2 := bytesBlit_ok
      (src := splice dst dofs (xorb (slice (src.read dst) so n) ((E iv).take n))) (so := dofs)
      (dst := iv.drop n ++ iv.drop (c.blocksize - n)) (dofs := c.blocksize - n) (n := n)
      (by rw [splice_length (by omega)]; exact hd) (by simp; omega)
    rw [slice_splice_same' hx hd, shift_in (by simp; omega) (by simp; omega) hx,
      show ((c.blocksize - n : Nat) : Int) = (c.blocksize : Int) - n by omega] at hblit2
    simp only [cfbEncrypt, M.bind_def, M.get_def, callAux_ok h hiv haux, hblit, M.orRaise_some,
      ModeSt.setDst, M.modify_def, hxor, M.orUB_some, shift_blit hiv hn', hblit2, ModeSt.setIv,
      BRes.toOut, cfbEncF]

theorem cfbDecrypt_implements (h : PureCipher c k E) {n : Nat} (hn : 0 < n)
    (hn' : n ≤ c.blocksize) :
    Implements (cfbDecrypt n c) (ModeInv k c.blocksize) (cfbDecF E n) where
  pos := hn
  out_len := by
    intro s blk hs hb
    change blk.length = n at hb
    have := h.len hs.2.1
    simp only [cfbDecF, xorb_length, List.length_take]
    change _ = n
    omega
  inv_step := by
    intro s blk hs hb
    change blk.length = n at hb
    have := h.len hs.2.1
    have := hs.2.1
    refine ⟨hs.1, ?_, by simpa [cfbDecF]⟩
    simp [cfbDecF]; omega
  run := by
    rintro ⟨c0, iv, aux⟩ src so dofs dst ⟨rfl, hiv, haux⟩ hs hd
    change so + n ≤ _ at hs
    change dofs + n ≤ _ at hd
    change iv.length = _ at hiv
    change aux.length = _ at haux
    have hb : (slice (src.read dst) so n).length = n := slice_length_of_le hs
    have hE := h.len hiv
    have hblit := bytesBlit_ok (src := src.read dst) (so := so) (dst := dst) (dofs := dofs)
      (n := n) hs hd
    have hxor := blit_xor (x := E iv) (dst := dst) (n := n) (by omega) hb hd
    have hblit2 := bytesBlit_ok
      (src := src.read dst) (so := so)
      (dst := iv.drop n ++ iv.drop (c.blocksize - n)) (dofs := c.blocksize - n) (n := n)
      hs (by simp; omega)
    rw [shift_in (by simp; omega) (by simp; omega) hb,
      show ((c.blocksize - n : Nat) : Int) = (c.blocksize : Int) - n by omega] at hblit2
    simp only [cfbDecrypt, M.bind_def, M.get_def, callAux_ok h hiv haux, hblit, M.orRaise_some,
      ModeSt.setDst, M.modify_def, hxor, M.orUB_some, shift_blit hiv hn', hblit2, ModeSt.setIv,
      BRes.toOut, cfbDecF]

/-! ### OFB -/

def ofbF (E : Bytes → Bytes) (n : Nat) (st : ModeSt σ) (b : Bytes) : BRes (ModeSt σ) :=
  ⟨xorb b ((E st.iv).take n), { st with iv := E st.iv }, none⟩

theorem callIv_ok (h : PureCipher c k E) {iv aux : Bytes} (hiv : iv.length = c.blocksize)
    (dst : Bytes) :
    ModeSt.callIv c .self 0 0 (⟨k, iv, aux⟩, dst) = .ok () (⟨k, E iv, aux⟩, dst) := by
  have hE := h.len hiv
  have hrun := h.run' (src := .self) (so := 0) (dofs := 0) (dst := iv)
    (by simp only [Src.read]; omega) (by omega)
  simp only [Src.read, slice_full' hiv, Int.natCast_zero] at hrun
  rw [splice_full (by omega)] at hrun
  simp only [ModeSt.callIv, M.zoom, hrun]

theorem ofb_implements (h : PureCipher c k E) {n : Nat} (hn : 0 < n) (hn' : n ≤ c.blocksize) :
    Implements (ofb n c) (ModeInv k c.blocksize) (ofbF E n) where
  pos := hn
  out_len := by
    intro s blk hs hb
    change blk.length = n at hb
    have := h.len hs.2.1
    simp only [ofbF, xorb_length, List.length_take]
    change _ = n
    omega
  inv_step := by
    intro s blk hs hb
    exact ⟨hs.1, h.len hs.2.1, hs.2.2⟩
  run := by
    rintro ⟨c0, iv, aux⟩ src so dofs dst ⟨rfl, hiv, haux⟩ hs hd
    change so + n ≤ _ at hs
    change dofs + n ≤ _ at hd
    change iv.length = _ at hiv
    have hb : (slice (src.read dst) so n).length = n := slice_length_of_le hs
    have hE := h.len hiv
    have hblit := bytesBlit_ok (src := src.read dst) (so := so) (dst := dst) (dofs := dofs)
      (n := n) hs hd
    have hxor := blit_xor (x := E iv) (dst := dst) (n := n) (by omega) hb hd
    simp only [ofb, M.bind_def, M.get_def, callIv_ok h hiv, hblit, M.orRaise_some,
      ModeSt.setDst, M.modify_def, hxor, M.orUB_some, BRes.toOut, ofbF]

/-! ### CTR -/

/-- The increment of the last `m` bytes of a counter. -/
def incBE (iv : Bytes) (m : Nat) : Bytes :=
  iv.take (iv.length - m) ++ natToBE m ((beNat (iv.drop (iv.length - m)) + 1) % 256 ^ m)

@[simp] theorem natToBE_length (n x : Nat) : (natToBE n x).length = n := by
  induction n generalizing x with
  | zero => rfl
  | succ n ih => simp [natToBE, ih]

theorem beNat_lt (b : Bytes) : beNat b < 256 ^ b.length := by
  induction b with
  | nil => simp [beNat]
  | cons x xs ih =>
    simp only [beNat, List.length_cons, Nat.pow_succ]
    have := x.isLt
    have h2 : x.toNat * 256 ^ xs.length ≤ 255 * 256 ^ xs.length :=
      Nat.mul_le_mul_right _ (by omega)
    omega

theorem natToBE_mod (n x : Nat) : natToBE n (x % 256 ^ n) = natToBE n x := by
  suffices h : ∀ n m x, n ≤ m → natToBE n (x % 256 ^ m) = natToBE n x from h n n x (Nat.le_refl _)
  intro n
  induction n with
  | zero => intros; rfl
  | succ n ih =>
    intro m x hm
    simp only [natToBE]
    rw [ih m x (by omega)]
    congr 1
    apply BitVec.eq_of_toNat_eq
    simp only [BitVec.toNat_ofNat]
    obtain ⟨d, rfl⟩ : ∃ d, m = n + (d + 1) := ⟨m - n - 1, by omega⟩
    rw [Nat.pow_add, Nat.mod_mul_right_div_self, Nat.pow_succ, Nat.mul_comm (256 ^ d)]
    exact Nat.mod_mul_right_mod _ _ _

theorem natToBE_beNat (b : Bytes) : natToBE b.length (beNat b) = b := by
  induction b with
  | nil => rfl
  | cons x xs ih =>
    simp only [List.length_cons, natToBE, beNat]
    have hlt := beNat_lt xs
    have hpos : 0 < 256 ^ xs.length := Nat.pow_pos (by omega)
    congr 1
    · rw [Nat.mul_comm, Nat.mul_add_div hpos, Nat.div_eq_of_lt hlt]
      simp
    · rw [← natToBE_mod, Nat.mul_add_mod_self_right, Nat.mod_eq_of_lt hlt, ih]

theorem beNat_natToBE (n x : Nat) : beNat (natToBE n x) = x % 256 ^ n := by
  induction n with
  | zero => simp [natToBE, beNat, Nat.mod_one]
  | succ n ih =>
    simp only [natToBE, beNat, natToBE_length, ih, BitVec.toNat_ofNat]
    have h : x % 256 ^ (n + 1) = x % 256 ^ n + 256 ^ n * (x / 256 ^ n % 256) := by
      rw [Nat.pow_succ, Nat.mod_mul]
    rw [h, Nat.add_comm, Nat.mul_comm]

theorem beNat_append (a b : Bytes) : beNat (a ++ b) = beNat a * 256 ^ b.length + beNat b := by
  induction a with
  | nil => simp [beNat]
  | cons x xs ih =>
    simp only [List.cons_append, beNat, ih, List.length_append, Nat.pow_add, Nat.add_mul,
      Nat.mul_assoc, Nat.add_assoc]

theorem natToBE_append (m n x : Nat) :
    natToBE (m + n) x = natToBE m (x / 256 ^ n) ++ natToBE n x := by
  induction m with
  | zero => simp [natToBE]
  | succ m ih =>
    rw [show m + 1 + n = (m + n) + 1 by omega]
    simp only [natToBE, List.cons_append, ih]
    rw [Nat.div_div_eq_div_mul, ← Nat.pow_add, Nat.add_comm n m]

/-- `increment_counter c lim pos` adds one to the bytes `lim .. pos`. -/
theorem incrementCounter_spec (lim : Nat) (d : Nat) : ∀ (c : Bytes), lim + d ≤ c.length →
    incrementCounter c lim (lim + d)
      = some (c.take lim ++ natToBE d ((beNat (slice c lim d) + 1) % 256 ^ d)
          ++ c.drop (lim + d)) := by
  induction d with
  | zero =>
    intro c hc
    simp only [Nat.add_zero, natToBE, List.append_nil, List.take_append_drop]
    cases lim with
    | zero => rfl
    | succ l => rw [incrementCounter, if_neg (by omega)]
  | succ d ih =>
    intro c hc
    have hlt : lim + d < c.length := by omega
    rw [show lim + (d + 1) = (lim + d) + 1 by omega, incrementCounter]
    simp only [show lim + d ≥ lim by omega, if_true, List.getElem?_eq_getElem hlt]
    generalize hb : c[lim + d] = b
    have hsl : slice c lim (d + 1) = slice c lim d ++ [b] := by
      rw [slice_append_right, slice_one hlt, hb]
    have hl1 : (slice c lim d).length = d := slice_length_of_le (by omega)
    have htake : c.take (lim + d + 1) = c.take (lim + d) ++ [b] := by
      rw [List.take_succ_eq_append_getElem hlt, hb]
    have htake2 : c.take (lim + d) = c.take lim ++ slice c lim d := by
      rw [List.take_add]; rfl
    rw [hsl, beNat_append]
    simp only [List.length_singleton, Nat.pow_one, beNat, Nat.pow_zero,
      Nat.mul_one, List.length_nil, Nat.add_zero]
    have hset : ∀ v : Byte, c.set (lim + d) v = c.take (lim + d) ++ v :: c.drop (lim + d + 1) := by
      intro v; rw [List.set_eq_take_append_cons_drop, if_pos hlt]
    split
    · rename_i h256
      have hbv : b.toNat = 255 := by omega
      rw [ih _ (by simp; omega), hset]
      have e1 : List.take lim (c.take (lim + d) ++ BitVec.ofNat 8 (1 + b.toNat) :: c.drop (lim + d + 1))
          = c.take lim := by
        rw [List.take_append_of_le_length (by simp; omega), List.take_take]; congr 1; omega
      have e2 : slice (c.take (lim + d) ++ BitVec.ofNat 8 (1 + b.toNat) :: c.drop (lim + d + 1)) lim d
          = slice c lim d := by
        rw [htake2]
        unfold slice
        rw [List.append_assoc, List.drop_append_of_le_length (by simp; omega),
          List.drop_of_length_le (by simp; omega), List.nil_append,
          List.take_append_of_le_length (by simp; omega), List.take_take]
        congr 1; omega
      have e3 : List.drop (lim + d) (c.take (lim + d) ++ BitVec.ofNat 8 (1 + b.toNat) :: c.drop (lim + d + 1))
          = BitVec.ofNat 8 (1 + b.toNat) :: c.drop (lim + d + 1) := by
        have : (c.take (lim + d)).length = lim + d := by simp; omega
        rw [List.drop_append_of_le_length (by omega), List.drop_of_length_le (by omega)]
        rfl
      rw [e1, e2, e3, h256]
      congr 1
      rw [natToBE_mod, natToBE_mod, hbv,
        show beNat (slice c lim d) * 256 + 255 + 1 = (beNat (slice c lim d) + 1) * 256 by omega,
        natToBE_append d 1]
      simp [natToBE]
      apply BitVec.eq_of_toNat_eq
      simp
    · rename_i h256
      have hbv : b.toNat < 255 := by have := b.isLt; omega
      rw [hset, htake2]
      congr 1
      have hlt2 := beNat_lt (slice c lim d)
      rw [hl1] at hlt2
      rw [natToBE_mod, natToBE_append d 1,
        show (beNat (slice c lim d) * 256 + b.toNat + 1) / 256 ^ 1 = beNat (slice c lim d) by omega]
      have := natToBE_beNat (slice c lim d)
      rw [hl1] at this
      rw [this]
      simp [natToBE]
      apply BitVec.eq_of_toNat_eq
      simp
      omega

theorem incrementCounter_ok {iv : Bytes} {n m : Nat} (hiv : iv.length = n) (hm : m ≤ n) :
    incrementCounter iv (n - m) n = some (incBE iv m) := by
  have := incrementCounter_spec (n - m) m iv (by omega)
  rw [show n - m + m = n by omega] at this
  rw [this, incBE, hiv]
  congr 1
  rw [List.drop_of_length_le (by omega), List.append_nil]
  congr 4
  simp only [slice]
  rw [List.take_of_length_le (by simp; omega)]

theorem incBE_length {iv : Bytes} {m : Nat} (hm : m ≤ iv.length) :
    (incBE iv m).length = iv.length := by
  simp [incBE]; omega

def ctrF (E : Bytes → Bytes) (nincr : Nat) (st : CtrSt σ) (b : Bytes) : BRes (CtrSt σ) :=
  let m' : ModeSt σ := { st.m with aux := E st.m.iv, iv := incBE st.m.iv nincr }
  if st.maxTransf - 1#64 = 0#64 then
    ⟨xorb b (E st.m.iv), { st with m := m' }, some (.error .messageTooLong)⟩
  else
    ⟨xorb b (E st.m.iv), { m := m', maxTransf := st.maxTransf - 1#64 }, none⟩

theorem ctr_implements (h : PureCipher c k E) {nincr : Nat} (hn' : nincr ≤ c.blocksize) :
    Implements (ctr nincr c) (fun st => ModeInv k c.blocksize st.m) (ctrF E nincr) where
  pos := h.pos
  out_len := by
    intro s blk hs hb
    change blk.length = c.blocksize at hb
    have := h.len hs.2.1
    unfold ctrF
    change _ = c.blocksize
    split <;> simp <;> omega
  inv_step := by
    intro s blk hs hb
    have h1 := h.len hs.2.1
    have h2 := incBE_length (iv := s.m.iv) (m := nincr) (by have := hs.2.1; omega)
    unfold ctrF
    split <;> exact ⟨hs.1, h2.trans hs.2.1, h1⟩
  run := by
    rintro ⟨⟨c0, iv, aux⟩, mt⟩ src so dofs dst ⟨rfl, hiv, haux⟩ hs hd
    change so + c.blocksize ≤ _ at hs
    change dofs + c.blocksize ≤ _ at hd
    change iv.length = _ at hiv
    change aux.length = _ at haux
    have hb : (slice (src.read dst) so c.blocksize).length = c.blocksize := slice_length_of_le hs
    have hE := h.len hiv
    have hblit := bytesBlit_ok (src := src.read dst) (so := so) (dst := dst) (dofs := dofs)
      (n := c.blocksize) hs hd
    have hxor := blit_xor (x := E iv) (dst := dst) (n := c.blocksize) (by omega) hb hd
    have htake : (E iv).take c.blocksize = E iv := List.take_of_length_le (by omega)
    rw [htake] at hxor
    simp only [ctr, M.bind_def, M.get_def, M.zoom, callAux_ok h hiv haux, hblit, M.orRaise_some,
      ModeSt.setDst, M.modify_def, hxor, M.orUB_some, incrementCounter_ok hiv hn', ModeSt.setIv]
    unfold ctrF
    simp only
    split <;> simp [BRes.toOut, M.bind_def]

end Verif
