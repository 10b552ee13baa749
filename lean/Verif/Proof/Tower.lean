import Verif.Spec.Tower
import Verif.Proof.Cipher
/-
Chaining modes on top of block ciphers that have a state and may raise exceptions.
-/
namespace Verif

variable {σ : Type} {c : BlockCipher σ} {inv : σ → Prop} {f : σ → Bytes → BRes σ}

def ModeInvG (inv : σ → Prop) (n : Nat) (st : ModeSt σ) : Prop :=
  inv st.c ∧ st.iv.length = n ∧ st.aux.length = n

theorem BlockRuns.run_ok (h : BlockRuns c inv f) {s : σ} {src : Src} {so dofs : Nat} {dst blk : Bytes} (hi : inv s)
    (hs : so + c.blocksize ≤ (src.read dst).length) (hd : dofs + c.blocksize ≤ dst.length)
    (hb : slice (src.read dst) so c.blocksize = blk) (hx : (f s blk).exn = none) :
    c.transform src so dofs (s, dst) = .ok () ((f s blk).st, splice dst dofs (f s blk).out) := by
  have := h.run hi hs hd
  rw [hb, hx] at this
  exact this

theorem BlockRuns.run_exn (h : BlockRuns c inv f) {s : σ} {src : Src} {so dofs : Nat} {dst blk : Bytes} {e : Exn}
    (hi : inv s) (hs : so + c.blocksize ≤ (src.read dst).length) (hd : dofs + c.blocksize ≤ dst.length)
    (hb : slice (src.read dst) so c.blocksize = blk) (hx : (f s blk).exn = some e) :
    ∃ p, c.transform src so dofs (s, dst) = .exn e p := by
  have := h.run hi hs hd
  rw [hb, hx] at this
  exact this

/-! ### CBC -/

def cbcEncG (f : σ → Bytes → BRes σ) (st : ModeSt σ) (b : Bytes) : BRes (ModeSt σ) :=
  let r := f st.c (xorb b st.iv)
  ⟨r.out, ⟨r.st, r.out, st.aux⟩, r.exn⟩

theorem cbcEncrypt_runs (h : BlockRuns c inv f) :
    BlockRuns (cbcEncrypt c) (ModeInvG inv c.blocksize) (cbcEncG f) where
  pos := h.pos
  out_len := by
    intro s blk hs hb
    change blk.length = c.blocksize at hb
    exact h.out_len hs.1 (by simp [hs.2.1, hb])
  inv_step := by
    intro s blk hs hb
    change blk.length = c.blocksize at hb
    exact ⟨h.inv_step hs.1 (by simp [hs.2.1, hb]), h.out_len hs.1 (by simp [hs.2.1, hb]), hs.2.2⟩
  run := by
    rintro ⟨c0, iv, aux⟩ src so dofs dst ⟨hi, hiv, haux⟩ hs hd
    change so + c.blocksize ≤ _ at hs
    change dofs + c.blocksize ≤ _ at hd
    change iv.length = _ at hiv
    change inv c0 at hi
    change match (f c0 (xorb (slice (src.read dst) so c.blocksize) iv)).exn with | none => _ | some e => _
    have hx : (xorb (slice (src.read dst) so c.blocksize) iv).length = c.blocksize := by
      simp; omega
    have hE := h.out_len hi hx
    cases hexn : (f c0 (xorb (slice (src.read dst) so c.blocksize) iv)).exn with
    | none =>
      have hrun := h.run_ok (src := .other (xorb (slice (src.read dst) so c.blocksize) iv)) (so := 0)
        (blk := xorb (slice (src.read dst) so c.blocksize) iv)
        (dofs := dofs) (dst := dst) hi (by simp only [Src.read_other]; omega) hd (slice_full' hx) hexn
      have hblit := bytesBlit_ok
        (src := splice dst dofs (f c0 (xorb (slice (src.read dst) so c.blocksize) iv)).out) (so := dofs)
        (dst := xorb (slice (src.read dst) so c.blocksize) iv) (dofs := 0) (n := c.blocksize)
        (by rw [splice_length (by omega)]; exact hd) (by omega)
      rw [slice_splice_same' hE hd, splice_full (by omega)] at hblit
      simp only [Int.natCast_zero] at hrun hblit
      simp only [cbcEncrypt, M.bind_def, M.get_def, xorC_into_iv hs hiv, M.orUB_some,
        ModeSt.setIv, M.modify_def, ModeSt.callDst, M.zoom, hrun, hblit, M.orRaise_some]
      rfl
    | some e =>
      obtain ⟨p, hrun⟩ := h.run_exn (src := .other (xorb (slice (src.read dst) so c.blocksize) iv)) (so := 0)
        (blk := xorb (slice (src.read dst) so c.blocksize) iv)
        (dofs := dofs) (dst := dst) hi (by simp only [Src.read_other]; omega) hd (slice_full' hx) hexn
      simp only [Int.natCast_zero] at hrun
      simp only [cbcEncrypt, M.bind_def, M.get_def, xorC_into_iv hs hiv, M.orUB_some,
        ModeSt.setIv, M.modify_def, ModeSt.callDst, M.zoom, hrun]
      exact ⟨_, rfl⟩

def cbcDecG (f : σ → Bytes → BRes σ) (st : ModeSt σ) (b : Bytes) : BRes (ModeSt σ) :=
  let r := f st.c b
  ⟨xorb r.out st.iv, ⟨r.st, b, b⟩, r.exn⟩

theorem cbcDecrypt_runs (h : BlockRuns c inv f) :
    BlockRuns (cbcDecrypt c) (ModeInvG inv c.blocksize) (cbcDecG f) where
  pos := h.pos
  out_len := by
    intro s blk hs hb
    change blk.length = c.blocksize at hb
    change (xorb (f s.c blk).out s.iv).length = c.blocksize
    simp [h.out_len hs.1 hb, hs.2.1]
  inv_step := by
    intro s blk hs hb
    exact ⟨h.inv_step hs.1 hb, hb, hb⟩
  run := by
    rintro ⟨c0, iv, aux⟩ src so dofs dst ⟨hi, hiv, haux⟩ hs hd
    change so + c.blocksize ≤ _ at hs
    change dofs + c.blocksize ≤ _ at hd
    change iv.length = _ at hiv
    change aux.length = _ at haux
    change inv c0 at hi
    change match (f c0 (slice (src.read dst) so c.blocksize)).exn with | none => _ | some e => _
    have hb : (slice (src.read dst) so c.blocksize).length = c.blocksize := slice_length_of_le hs
    have hE := h.out_len hi hb
    have hblit := bytesBlit_ok (src := src.read dst) (so := so) (dst := aux) (dofs := 0)
      (n := c.blocksize) hs (by omega)
    rw [splice_full (by omega)] at hblit
    simp only [Int.natCast_zero] at hblit
    cases hexn : (f c0 (slice (src.read dst) so c.blocksize)).exn with
    | none =>
      have hrun := h.run_ok (src := src) (so := so) (dofs := dofs) (dst := dst) hi hs hd rfl hexn
      have hxor := blit_xor (x := iv) (dst := dst) (n := c.blocksize) (by omega) hE hd
      have hblit2 := bytesBlit_ok (src := slice (src.read dst) so c.blocksize) (so := 0) (dst := iv)
        (dofs := 0) (n := c.blocksize) (by omega) (by omega)
      rw [slice_full' hb, splice_full (by omega)] at hblit2
      simp only [Int.natCast_zero] at hblit2
      simp only [cbcDecrypt, M.bind_def, M.get_def, hblit, M.orRaise_some,
        ModeSt.setAux, M.modify_def, ModeSt.callDst, M.zoom, hrun, hxor, M.orUB_some,
        ModeSt.setDst, hblit2, ModeSt.setIv, cbcDecG]
      rw [← hiv, List.take_length]
    | some e =>
      obtain ⟨p, hrun⟩ := h.run_exn (src := src) (so := so) (dofs := dofs) (dst := dst) hi hs hd rfl hexn
      simp only [cbcDecrypt, M.bind_def, M.get_def, hblit, M.orRaise_some,
        ModeSt.setAux, M.modify_def, ModeSt.callDst, M.zoom, hrun]
      exact ⟨_, rfl⟩

/-! ### CFB -/

theorem callAux_runs (h : BlockRuns c inv f) {s : σ} (hi : inv s) {iv aux : Bytes} (hiv : iv.length = c.blocksize)
    (haux : aux.length = c.blocksize) (dst : Bytes) :
    match (f s iv).exn with
    | none => ModeSt.callAux c (.other iv) 0 0 (⟨s, iv, aux⟩, dst) = .ok () (⟨(f s iv).st, iv, (f s iv).out⟩, dst)
    | some e => ∃ p, ModeSt.callAux c (.other iv) 0 0 (⟨s, iv, aux⟩, dst) = .exn e p := by
  have hE := h.out_len hi hiv
  cases hexn : (f s iv).exn with
  | none =>
    have hrun := h.run_ok (src := .other iv) (so := 0) (blk := iv) (dofs := 0) (dst := aux) hi
      (by simp only [Src.read]; omega) (by omega) (slice_full' hiv) hexn
    simp only [Int.natCast_zero] at hrun
    rw [splice_full (by omega)] at hrun
    simp only [ModeSt.callAux, M.zoom, hrun]
  | some e =>
    obtain ⟨p, hrun⟩ := h.run_exn (src := .other iv) (so := 0) (blk := iv) (dofs := 0) (dst := aux) hi
      (by simp only [Src.read]; omega) (by omega) (slice_full' hiv) hexn
    simp only [Int.natCast_zero] at hrun
    simp only [ModeSt.callAux, M.zoom, hrun]
    exact ⟨_, rfl⟩

def cfbEncG (f : σ → Bytes → BRes σ) (n : Nat) (st : ModeSt σ) (b : Bytes) : BRes (ModeSt σ) :=
  let r := f st.c st.iv
  let x := xorb b (r.out.take n)
  ⟨x, ⟨r.st, st.iv.drop n ++ x, r.out⟩, r.exn⟩

def cfbDecG (f : σ → Bytes → BRes σ) (n : Nat) (st : ModeSt σ) (b : Bytes) : BRes (ModeSt σ) :=
  let r := f st.c st.iv
  ⟨xorb b (r.out.take n), ⟨r.st, st.iv.drop n ++ b, r.out⟩, r.exn⟩

theorem cfbEncrypt_runs (h : BlockRuns c inv f) {n : Nat} (hn : 0 < n) (hn' : n ≤ c.blocksize) :
    BlockRuns (cfbEncrypt n c) (ModeInvG inv c.blocksize) (cfbEncG f n) where
  pos := hn
  out_len := by
    intro s blk hs hb
    change blk.length = n at hb
    have := h.out_len hs.1 hs.2.1
    simp only [cfbEncG, xorb_length, List.length_take]
    change _ = n
    omega
  inv_step := by
    intro s blk hs hb
    change blk.length = n at hb
    have := h.out_len hs.1 hs.2.1
    have := hs.2.1
    refine ⟨h.inv_step hs.1 hs.2.1, ?_, by simpa [cfbEncG]⟩
    simp [cfbEncG]; omega
  run := by
    rintro ⟨c0, iv, aux⟩ src so dofs dst ⟨hi, hiv, haux⟩ hs hd
    change so + n ≤ _ at hs
    change dofs + n ≤ _ at hd
    change iv.length = _ at hiv
    change aux.length = _ at haux
    change inv c0 at hi
    change match (f c0 iv).exn with | none => _ | some e => _
    have hcall := callAux_runs h hi hiv haux dst
    cases hexn : (f c0 iv).exn with
    | none =>
      rw [hexn] at hcall
      have hb : (slice (src.read dst) so n).length = n := slice_length_of_le hs
      have hE := h.out_len hi hiv
      have hblit := bytesBlit_ok (src := src.read dst) (so := so) (dst := dst) (dofs := dofs)
        (n := n) hs hd
      have hxor := blit_xor (x := (f c0 iv).out) (dst := dst) (n := n) (by omega) hb hd
      have hx : (xorb (slice (src.read dst) so n) ((f c0 iv).out.take n)).length = n := by simp; omega
      have hblit2 := bytesBlit_ok
        (src := splice dst dofs (xorb (slice (src.read dst) so n) ((f c0 iv).out.take n))) (so := dofs)
        (dst := iv.drop n ++ iv.drop (c.blocksize - n)) (dofs := c.blocksize - n) (n := n)
        (by rw [splice_length (by omega)]; exact hd) (by simp; omega)
      rw [slice_splice_same' hx hd, shift_in (by simp; omega) (by simp; omega) hx,
        show ((c.blocksize - n : Nat) : Int) = (c.blocksize : Int) - n by omega] at hblit2
      simp only [cfbEncrypt, M.bind_def, M.get_def, hcall, hblit, M.orRaise_some,
        ModeSt.setDst, M.modify_def, hxor, M.orUB_some, shift_blit hiv hn', hblit2, ModeSt.setIv, cfbEncG]
    | some e =>
      rw [hexn] at hcall
      obtain ⟨p, hcall⟩ := hcall
      simp only [cfbEncrypt, M.bind_def, M.get_def, hcall]
      exact ⟨_, rfl⟩

theorem cfbDecrypt_runs (h : BlockRuns c inv f) {n : Nat} (hn : 0 < n) (hn' : n ≤ c.blocksize) :
    BlockRuns (cfbDecrypt n c) (ModeInvG inv c.blocksize) (cfbDecG f n) where
  pos := hn
  out_len := by
    intro s blk hs hb
    change blk.length = n at hb
    have := h.out_len hs.1 hs.2.1
    simp only [cfbDecG, xorb_length, List.length_take]
    change _ = n
    omega
  inv_step := by
    intro s blk hs hb
    change blk.length = n at hb
    have := h.out_len hs.1 hs.2.1
    have := hs.2.1
    refine ⟨h.inv_step hs.1 hs.2.1, ?_, by simpa [cfbDecG]⟩
    simp [cfbDecG]; omega
  run := by
    rintro ⟨c0, iv, aux⟩ src so dofs dst ⟨hi, hiv, haux⟩ hs hd
    change so + n ≤ _ at hs
    change dofs + n ≤ _ at hd
    change iv.length = _ at hiv
    change aux.length = _ at haux
    change inv c0 at hi
    change match (f c0 iv).exn with | none => _ | some e => _
    have hcall := callAux_runs h hi hiv haux dst
    cases hexn : (f c0 iv).exn with
    | none =>
      rw [hexn] at hcall
      have hb : (slice (src.read dst) so n).length = n := slice_length_of_le hs
      have hE := h.out_len hi hiv
      have hblit := bytesBlit_ok (src := src.read dst) (so := so) (dst := dst) (dofs := dofs)
        (n := n) hs hd
      have hxor := blit_xor (x := (f c0 iv).out) (dst := dst) (n := n) (by omega) hb hd
      have hblit2 := bytesBlit_ok
        (src := src.read dst) (so := so)
        (dst := iv.drop n ++ iv.drop (c.blocksize - n)) (dofs := c.blocksize - n) (n := n)
        hs (by simp; omega)
      rw [shift_in (by simp; omega) (by simp; omega) hb,
        show ((c.blocksize - n : Nat) : Int) = (c.blocksize : Int) - n by omega] at hblit2
      simp only [cfbDecrypt, M.bind_def, M.get_def, hcall, hblit, M.orRaise_some,
        ModeSt.setDst, M.modify_def, hxor, M.orUB_some, shift_blit hiv hn', hblit2, ModeSt.setIv, cfbDecG]
    | some e =>
      rw [hexn] at hcall
      obtain ⟨p, hcall⟩ := hcall
      simp only [cfbDecrypt, M.bind_def, M.get_def, hcall]
      exact ⟨_, rfl⟩

/-! ### OFB -/

def ofbG (f : σ → Bytes → BRes σ) (n : Nat) (st : ModeSt σ) (b : Bytes) : BRes (ModeSt σ) :=
  let r := f st.c st.iv
  ⟨xorb b (r.out.take n), ⟨r.st, r.out, st.aux⟩, r.exn⟩

theorem ofb_runs (h : BlockRuns c inv f) {n : Nat} (hn : 0 < n) (hn' : n ≤ c.blocksize) :
    BlockRuns (ofb n c) (ModeInvG inv c.blocksize) (ofbG f n) where
  pos := hn
  out_len := by
    intro s blk hs hb
    change blk.length = n at hb
    have := h.out_len hs.1 hs.2.1
    simp only [ofbG, xorb_length, List.length_take]
    change _ = n
    omega
  inv_step := by
    intro s blk hs hb
    exact ⟨h.inv_step hs.1 hs.2.1, h.out_len hs.1 hs.2.1, hs.2.2⟩
  run := by
    rintro ⟨c0, iv, aux⟩ src so dofs dst ⟨hi, hiv, haux⟩ hs hd
    change so + n ≤ _ at hs
    change dofs + n ≤ _ at hd
    change iv.length = _ at hiv
    change inv c0 at hi
    change match (f c0 iv).exn with | none => _ | some e => _
    have hb : (slice (src.read dst) so n).length = n := slice_length_of_le hs
    have hE := h.out_len hi hiv
    cases hexn : (f c0 iv).exn with
    | none =>
      have hrun := h.run_ok (src := .self) (so := 0) (blk := iv) (dofs := 0) (dst := iv) hi
        (by simp only [Src.read]; omega) (by omega) (slice_full' hiv) hexn
      simp only [Int.natCast_zero] at hrun
      rw [splice_full (by omega)] at hrun
      have hblit := bytesBlit_ok (src := src.read dst) (so := so) (dst := dst) (dofs := dofs)
        (n := n) hs hd
      have hxor := blit_xor (x := (f c0 iv).out) (dst := dst) (n := n) (by omega) hb hd
      simp only [ofb, M.bind_def, M.get_def, ModeSt.callIv, M.zoom, hrun, hblit, M.orRaise_some,
        ModeSt.setDst, M.modify_def, hxor, M.orUB_some, ofbG]
    | some e =>
      obtain ⟨p, hrun⟩ := h.run_exn (src := .self) (so := 0) (blk := iv) (dofs := 0) (dst := iv) hi
        (by simp only [Src.read]; omega) (by omega) (slice_full' hiv) hexn
      simp only [Int.natCast_zero] at hrun
      simp only [ofb, M.bind_def, ModeSt.callIv, M.zoom, hrun]
      exact ⟨_, rfl⟩

/-! ### CTR -/

def ctrG (f : σ → Bytes → BRes σ) (nincr : Nat) (st : CtrSt σ) (b : Bytes) : BRes (CtrSt σ) :=
  let r := f st.m.c st.m.iv
  ⟨xorb b r.out, ⟨⟨r.st, incBE st.m.iv nincr, r.out⟩, st.maxTransf - 1#64⟩,
    match r.exn with
    | some e => some e
    | none => if st.maxTransf - 1#64 = 0#64 then some (.error .messageTooLong) else none⟩

theorem ctr_runs (h : BlockRuns c inv f) {nincr : Nat} (hn' : nincr ≤ c.blocksize) :
    BlockRuns (ctr nincr c) (fun st => ModeInvG inv c.blocksize st.m) (ctrG f nincr) where
  pos := h.pos
  out_len := by
    intro s blk hs hb
    change blk.length = c.blocksize at hb
    have := h.out_len hs.1 hs.2.1
    simp only [ctrG, xorb_length]
    change _ = c.blocksize
    omega
  inv_step := by
    intro s blk hs hb
    have h2 := incBE_length (iv := s.m.iv) (m := nincr) (by have := hs.2.1; omega)
    exact ⟨h.inv_step hs.1 hs.2.1, h2.trans hs.2.1, h.out_len hs.1 hs.2.1⟩
  run := by
    rintro ⟨⟨c0, iv, aux⟩, mt⟩ src so dofs dst ⟨hi, hiv, haux⟩ hs hd
    change so + c.blocksize ≤ _ at hs
    change dofs + c.blocksize ≤ _ at hd
    change iv.length = _ at hiv
    change aux.length = _ at haux
    change inv c0 at hi
    have hb : (slice (src.read dst) so c.blocksize).length = c.blocksize := slice_length_of_le hs
    have hE := h.out_len hi hiv
    have hcall := callAux_runs h hi hiv haux dst
    cases hexn : (f c0 iv).exn with
    | none =>
      rw [hexn] at hcall
      have hblit := bytesBlit_ok (src := src.read dst) (so := so) (dst := dst) (dofs := dofs)
        (n := c.blocksize) hs hd
      have hxor := blit_xor (x := (f c0 iv).out) (dst := dst) (n := c.blocksize) (by omega) hb hd
      have htake : (f c0 iv).out.take c.blocksize = (f c0 iv).out := List.take_of_length_le (by omega)
      rw [htake] at hxor
      by_cases hz : mt - 1#64 = 0#64
      · simp only [ctrG, hexn, hz, if_true]
        simp only [ctr, M.bind_def, M.get_def, M.zoom, hcall, hblit, M.orRaise_some,
          ModeSt.setDst, M.modify_def, hxor, M.orUB_some, incrementCounter_ok hiv hn', ModeSt.setIv, hz, if_true]
        exact ⟨_, rfl⟩
      · simp only [ctrG, hexn, hz, if_false]
        simp only [ctr, M.bind_def, M.get_def, M.zoom, hcall, hblit, M.orRaise_some,
          ModeSt.setDst, M.modify_def, hxor, M.orUB_some, incrementCounter_ok hiv hn', ModeSt.setIv, hz, if_false]
    | some e =>
      rw [hexn] at hcall
      obtain ⟨p, hcall⟩ := hcall
      simp only [ctrG, hexn]
      simp only [ctr, M.bind_def, M.get_def, M.zoom, hcall]
      exact ⟨_, rfl⟩

/-! ### Block ciphers and machines -/

open Spec Cipher

/-- The block cipher object `b`, with blocks of `n` bytes, does what the machine `M` does as long as
the number of blocks processed meets `L`; on the first block that does not, it raises
`Message_too_long`. -/
def Tracks (b : AnyBlock) (n : Nat) (L : Nat → Prop) (M : Machine) : Prop :=
  ∃ (inv : b.σ → Prop) (f : b.σ → Bytes → BRes b.σ) (R : Nat → b.σ → M.σ → Prop),
    BlockRuns b.c inv f ∧ b.c.blocksize = n ∧ inv b.s ∧ R 0 b.s M.init ∧
    ∀ i s x blk, R i s x → inv s → blk.length = n →
      (L (i + 1) → (f s blk).exn = none ∧ (f s blk).out = (M.step x blk).1
        ∧ R (i + 1) (f s blk).st (M.step x blk).2)
      ∧ (¬ L (i + 1) → (f s blk).exn = some (.error .messageTooLong))

theorem tracks_map {b : AnyBlock} {E : Bytes → Bytes} (hb : PureCipher b.c b.s E) :
    Tracks b b.c.blocksize (fun _ => True) (.map E) :=
  ⟨_, _, fun _ _ _ => True, hb.runs, rfl, rfl, trivial,
    fun _ _ _ _ _ _ _ => ⟨fun _ => ⟨rfl, rfl, trivial⟩, fun h => absurd trivial h⟩⟩

theorem modeInvG_init {env : Env} {inv : σ → Prop} {n : Nat} {k : σ} {iv : Option Bytes}
    (hk : inv k) (hiv : Spec.IVOk n iv) : ModeInvG inv n ⟨k, Spec.ivOf n iv, env.create n⟩ :=
  ⟨hk, (modeInv_init env n k hiv).2⟩

theorem ctr_zero_iff {n i : Nat} (hi : i < Verif.ctrLimit n) :
    (BitVec.ofNat 64 (Verif.ctrLimit n - i) - 1#64 = 0#64 ↔ ¬ i + 1 < Verif.ctrLimit n)
      ∧ BitVec.ofNat 64 (Verif.ctrLimit n - i) - 1#64 = BitVec.ofNat 64 (Verif.ctrLimit n - (i + 1)) := by
  have h2 := (ctrLimit_le n).2.1
  generalize Verif.ctrLimit n = l at *
  have h : BitVec.ofNat 64 (l - i) - 1#64 = BitVec.ofNat 64 (l - (i + 1)) := by
    apply BitVec.eq_of_toNat_eq
    simp only [BitVec.toNat_sub, BitVec.toNat_ofNat]
    omega
  refine ⟨?_, h⟩
  rw [h]
  constructor
  · intro h0
    have := congrArg BitVec.toNat h0
    simp only [BitVec.toNat_ofNat] at this
    omega
  · intro h0
    rw [show l - (i + 1) = 0 by omega]

theorem tracks_ctr {env : Env} {b : AnyBlock} {L : Nat → Prop} {M : Machine}
    (hL : ∀ i j, i ≤ j → L j → L i)
    (h : Tracks b b.c.blocksize L M) {iv : Option Bytes} (hiv : IVOk b.c.blocksize iv)
    {inc : Option Nat} (hinc : IncOk b.c.blocksize inc) :
    ∃ b', (ctrInit env b.c b.s iv (inc.map Int.ofNat)).map
        (fun p => (⟨Verif.ctr p.1 b.c, p.2⟩ : AnyBlock)) = .ok b' ∧
      Tracks b' b.c.blocksize (fun i => L i ∧ i < Verif.ctrLimit (incOf b.c.blocksize inc))
        (M.ctr (incOf b.c.blocksize inc) (ivOf b.c.blocksize iv)) := by
  obtain ⟨inv, f, R, h1, -, h3, h4, h5⟩ := h
  have hle := incOf_le hinc
  have hivl := ivOf_length hiv
  rw [ctrInit_ok env b.c b.s hiv hinc]
  refine ⟨_, rfl, _, _, fun i s x => R i s.m.c x.2 ∧ x.1 = i ∧ i < Verif.ctrLimit (incOf b.c.blocksize inc)
      ∧ s.m.iv = counterBlock (ivOf b.c.blocksize iv) (incOf b.c.blocksize inc) i
      ∧ s.maxTransf = BitVec.ofNat 64 (Verif.ctrLimit (incOf b.c.blocksize inc) - i),
    ctr_runs h1 hle, rfl, modeInvG_init h3 hiv,
    ⟨h4, rfl, (ctrLimit_le _).1, (counterBlock_zero _ _ (by rw [hivl]; exact hle)).symm, rfl⟩, ?_⟩
  rintro i s ⟨j, x⟩ blk ⟨hR, hj, hlt, hiv', hmt⟩ hinv hblk
  change j = i at hj
  subst hj
  have hz := ctr_zero_iff hlt
  have hl : (counterBlock (ivOf b.c.blocksize iv) (incOf b.c.blocksize inc) j).length = b.c.blocksize := by
    rw [counterBlock_length _ _ _ (by rw [hivl]; exact hle), hivl]
  obtain ⟨k1, k2⟩ := h5 j s.m.c x _ hR hinv.1 hl
  constructor
  · rintro ⟨hl1, hl2⟩
    obtain ⟨e1, e2, e3⟩ := k1 hl1
    refine ⟨?_, ?_, e3 |> fun e3 => ?_⟩
    · simp only [ctrG, hiv', e1, hmt]
      rw [if_neg (fun hh => hz.1.1 hh hl2)]
    · simp only [ctrG, hiv', e2, Machine.ctr]
    · refine ⟨?_, rfl, hl2, ?_, ?_⟩
      · simp only [ctrG, hiv']; exact e3
      · simp only [ctrG, hiv']
        exact counterBlock_succ _ _ _ (by rw [hivl]; exact hle)
      · simp only [ctrG, hmt]; exact hz.2
  · intro hn
    by_cases hl1 : L (j + 1)
    · obtain ⟨e1, -, -⟩ := k1 hl1
      simp only [ctrG, hiv', e1, hmt]
      rw [if_pos (hz.1.2 (fun hh => hn ⟨hl1, hh⟩))]
    · simp only [ctrG, hiv', k2 hl1]

theorem chained_tracks {env : Env} {b : AnyBlock} {n : Nat} {L : Nat → Prop} {M : Machine}
    (hL : ∀ i j, i ≤ j → L j → L i) (h : Tracks b n L M) {mode : Mode} (hmode : ModeOk n mode)
    {iv : Option Bytes} (hiv : ModeIVOk n mode iv) (dir : Dir) :
    ∃ b', chained env mode iv dir b = .ok b' ∧
      Tracks b' (unitOf n mode) (fun i => L i ∧ UnitsOk n mode i) (M.mode n (ivOf n iv) dir mode) := by
  have hn : b.c.blocksize = n := h.elim fun _ ⟨_, _, _, h, _⟩ => h
  subst hn
  cases mode with
  | ECB =>
    refine ⟨b, by cases dir <;> rfl, ?_⟩
    obtain ⟨inv, f, R, h1, h2, h3, h4, h5⟩ := h
    exact ⟨inv, f, R, h1, h2, h3, h4, fun i s x blk hR hi hb =>
      ⟨fun hl => (h5 i s x blk hR hi hb).1 hl.1, fun hl => (h5 i s x blk hR hi hb).2 fun h => hl ⟨h, trivial⟩⟩⟩
  | CBC =>
    replace hiv := hiv.resolve_left (by simp)
    have hivl := ivOf_length hiv
    obtain ⟨inv, f, R, h1, -, h3, h4, h5⟩ := h
    cases dir with
    | encrypt =>
      simp only [chained, modeInit_ok env b.c b.s hiv]
      refine ⟨_, rfl, _, _, fun i s x => R i s.c x.2 ∧ s.iv = x.1, cbcEncrypt_runs h1, rfl,
        modeInvG_init h3 hiv, ⟨h4, rfl⟩, ?_⟩
      rintro i s ⟨r, x⟩ blk ⟨hR, hr⟩ hinv hblk
      change s.iv = r at hr
      subst hr
      obtain ⟨k1, k2⟩ := h5 i s.c x (xorb blk s.iv) hR hinv.1
        (by rw [xorb_length]; have := hinv.2.1; change blk.length = b.c.blocksize at hblk; omega)
      exact ⟨fun hl => ⟨(k1 hl.1).1, (k1 hl.1).2.1, (k1 hl.1).2.2, (k1 hl.1).2.1⟩,
        fun hl => k2 fun h => hl ⟨h, trivial⟩⟩
    | decrypt =>
      simp only [chained, modeInit_ok env b.c b.s hiv]
      refine ⟨_, rfl, _, _, fun i s x => R i s.c x.2 ∧ s.iv = x.1, cbcDecrypt_runs h1, rfl,
        modeInvG_init h3 hiv, ⟨h4, rfl⟩, ?_⟩
      rintro i s ⟨r, x⟩ blk ⟨hR, hr⟩ hinv hblk
      change s.iv = r at hr
      subst hr
      obtain ⟨k1, k2⟩ := h5 i s.c x blk hR hinv.1 hblk
      refine ⟨fun hl => ⟨(k1 hl.1).1, ?_, (k1 hl.1).2.2, rfl⟩, fun hl => k2 fun h => hl ⟨h, trivial⟩⟩
      simp only [cbcDecG, (k1 hl.1).2.1, Machine.mode, Machine.cbcDec]
  | CFB k =>
    replace hiv := hiv.resolve_left (by simp)
    have hivl := ivOf_length hiv
    obtain ⟨h0, h1'⟩ := hmode
    obtain ⟨k, rfl⟩ := Int.eq_ofNat_of_zero_le (Int.le_of_lt h0)
    have h0 : 0 < k := by omega
    have h1' : k ≤ b.c.blocksize := by omega
    obtain ⟨inv, f, R, h1, -, h3, h4, h5⟩ := h
    cases dir with
    | encrypt =>
      simp only [chained, modeInitChunk_ok env b.c b.s hiv h0 h1', unitOf, Int.toNat_natCast]
      refine ⟨_, rfl, _, _, fun i s x => R i s.c x.2 ∧ s.iv = x.1, cfbEncrypt_runs h1 h0 h1', rfl,
        modeInvG_init h3 hiv, ⟨h4, rfl⟩, ?_⟩
      rintro i s ⟨r, x⟩ blk ⟨hR, hr⟩ hinv hblk
      change s.iv = r at hr
      subst hr
      obtain ⟨k1, k2⟩ := h5 i s.c x s.iv hR hinv.1 hinv.2.1
      refine ⟨fun hl => ⟨(k1 hl.1).1, ?_, (k1 hl.1).2.2, ?_⟩, fun hl => k2 fun h => hl ⟨h, trivial⟩⟩
      · simp only [cfbEncG, (k1 hl.1).2.1, Machine.mode, Machine.cfbEnc, Int.toNat_natCast]
      · simp only [cfbEncG, (k1 hl.1).2.1, Machine.mode, Machine.cfbEnc, Int.toNat_natCast]
    | decrypt =>
      simp only [chained, modeInitChunk_ok env b.c b.s hiv h0 h1', unitOf, Int.toNat_natCast]
      refine ⟨_, rfl, _, _, fun i s x => R i s.c x.2 ∧ s.iv = x.1, cfbDecrypt_runs h1 h0 h1', rfl,
        modeInvG_init h3 hiv, ⟨h4, rfl⟩, ?_⟩
      rintro i s ⟨r, x⟩ blk ⟨hR, hr⟩ hinv hblk
      change s.iv = r at hr
      subst hr
      obtain ⟨k1, k2⟩ := h5 i s.c x s.iv hR hinv.1 hinv.2.1
      refine ⟨fun hl => ⟨(k1 hl.1).1, ?_, (k1 hl.1).2.2, ?_⟩, fun hl => k2 fun h => hl ⟨h, trivial⟩⟩
      · simp only [cfbDecG, (k1 hl.1).2.1, Machine.mode, Machine.cfbDec, Int.toNat_natCast]
      · simp only [cfbDecG, Machine.mode, Machine.cfbDec, Int.toNat_natCast]
  | OFB k =>
    replace hiv := hiv.resolve_left (by simp)
    have hivl := ivOf_length hiv
    obtain ⟨h0, h1'⟩ := hmode
    obtain ⟨k, rfl⟩ := Int.eq_ofNat_of_zero_le (Int.le_of_lt h0)
    have h0 : 0 < k := by omega
    have h1' : k ≤ b.c.blocksize := by omega
    obtain ⟨inv, f, R, h1, -, h3, h4, h5⟩ := h
    simp only [chained, modeInitChunk_ok env b.c b.s hiv h0 h1', unitOf, Int.toNat_natCast]
    refine ⟨_, rfl, _, _, fun i s x => R i s.c x.2 ∧ s.iv = x.1, ofb_runs h1 h0 h1', rfl,
      modeInvG_init h3 hiv, ⟨h4, rfl⟩, ?_⟩
    rintro i s ⟨r, x⟩ blk ⟨hR, hr⟩ hinv hblk
    change s.iv = r at hr
    subst hr
    obtain ⟨k1, k2⟩ := h5 i s.c x s.iv hR hinv.1 hinv.2.1
    refine ⟨fun hl => ⟨(k1 hl.1).1, ?_, (k1 hl.1).2.2, (k1 hl.1).2.1⟩, fun hl => k2 fun h => hl ⟨h, trivial⟩⟩
    simp only [ofbG, (k1 hl.1).2.1, Machine.mode, Machine.ofb, Int.toNat_natCast]
  | CTR =>
    replace hiv := hiv.resolve_left (by simp)
    obtain ⟨b', h1, h2⟩ := tracks_ctr (env := env) hL h hiv (inc := none) (by intro n h; cases h)
    refine ⟨b', ?_, h2⟩
    cases dir <;> exact h1
  | CTR_N k =>
    replace hiv := hiv.resolve_left (by simp)
    obtain ⟨h0, h1⟩ := hmode
    obtain ⟨k, rfl⟩ := Int.eq_ofNat_of_zero_le (Int.le_of_lt h0)
    obtain ⟨b', h1, h2⟩ := tracks_ctr (env := env) hL h hiv (inc := some k)
      (by intro n h; cases h; omega)
    refine ⟨b', ?_, h2⟩
    cases dir <;> exact h1

theorem countOk_mono {n : Nat} (ls : Layers) : ∀ i j, i ≤ j → Layers.CountOk n ls j → Layers.CountOk n ls i := by
  induction ls with
  | nil => intro i j _ _; trivial
  | cons l ls ih =>
    intro i j hij h
    refine ⟨ih i j hij h.1, ?_⟩
    have := h.2
    revert this
    unfold UnitsOk
    split
    · exact fun h => Nat.lt_of_le_of_lt hij h
    · exact fun h => Nat.lt_of_le_of_lt hij h
    · exact fun h => h

/-- The object built by a tower of modes tracks the machine of the tower. -/
theorem tower_tracks {env : Env} {base : Dir → AnyBlock} {n : Nat} {E D : Bytes → Bytes}
    (hE : PureCipher (base .encrypt).c (base .encrypt).s E) (hnE : (base .encrypt).c.blocksize = n)
    (hD : PureCipher (base .decrypt).c (base .decrypt).s D) (hnD : (base .decrypt).c.blocksize = n)
    (ls : Layers) : ∀ (dir : Dir), Layers.Ok n ls →
    ∃ b, Layers.build env base ls dir = .ok b ∧
      Tracks b (Layers.unit n ls) (Layers.CountOk n ls) (Layers.machine n E D ls dir) := by
  induction ls with
  | nil =>
    intro dir _
    cases dir with
    | encrypt => exact ⟨_, rfl, hnE ▸ tracks_map hE⟩
    | decrypt => exact ⟨_, rfl, hnD ▸ tracks_map hD⟩
  | cons l ls ih =>
    intro dir hok
    obtain ⟨b, h1, h2⟩ := ih (normalizeDir (some l.1) dir) hok.1
    obtain ⟨b', h3, h4⟩ := chained_tracks (env := env) (countOk_mono ls) h2 hok.2.1 hok.2.2 dir
    refine ⟨b', ?_, h4⟩
    simp only [Layers.build, h1, Except.bind, h3]

theorem tracks_runBlocks {b : AnyBlock} {n : Nat} {L : Nat → Prop} {M : Machine}
    (hL : ∀ i j, i ≤ j → L j → L i) (h : Tracks b n L M) (h0 : L 0) :
    ∃ inv f, BlockRuns b.c inv f ∧ inv b.s ∧ b.c.blocksize = n ∧
      ∀ bs : List Bytes, (∀ x ∈ bs, x.length = n) →
        (L bs.length → ∃ s', runBlocks f b.s bs = .ok (M.run M.init bs).flatten (s', []))
        ∧ (¬ L bs.length → ∃ o, runBlocks f b.s bs = .err o (.error .messageTooLong)) := by
  obtain ⟨inv, f, R, h1, h2, h3, h4, h5⟩ := h
  refine ⟨inv, f, h1, h3, h2, ?_⟩
  suffices H : ∀ (bs : List Bytes) i s x, R i s x → inv s → L i → (∀ x ∈ bs, x.length = n) →
      (L (i + bs.length) → ∃ s', runBlocks f s bs = .ok (M.run x bs).flatten (s', []))
      ∧ (¬ L (i + bs.length) → ∃ o, runBlocks f s bs = .err o (.error .messageTooLong)) by
    intro bs hbs
    have := H bs 0 b.s M.init h4 h3 h0 hbs
    rwa [Nat.zero_add] at this
  intro bs
  induction bs with
  | nil =>
    intro i s x _ _ hi _
    exact ⟨fun _ => ⟨s, rfl⟩, fun h => absurd hi h⟩
  | cons blk bs ih =>
    intro i s x hR hinv hi hbs
    have hb := hbs blk (by simp)
    obtain ⟨k1, k2⟩ := h5 i s x blk hR hinv hb
    rw [List.length_cons, show i + (bs.length + 1) = i + 1 + bs.length by omega]
    by_cases hl : L (i + 1)
    · obtain ⟨e1, e2, e3⟩ := k1 hl
      obtain ⟨m1, m2⟩ := ih (i + 1) _ _ e3 (h1.inv_step hinv (h2 ▸ hb)) hl (fun y hy => hbs y (by simp [hy]))
      constructor
      · intro h
        obtain ⟨s', hs'⟩ := m1 h
        refine ⟨s', ?_⟩
        rw [runBlocks_cons_noexn e1]
        simp only [SRes.andThen, hs', Machine.run, List.flatten_cons, e2]
      · intro h
        obtain ⟨o, ho⟩ := m2 h
        refine ⟨(f s blk).out ++ o, ?_⟩
        rw [runBlocks_cons_noexn e1]
        simp only [SRes.andThen, ho]
    · refine ⟨fun h => absurd (hL _ _ (by omega) h) hl, fun _ => ?_⟩
      refine ⟨(f s blk).out, ?_⟩
      simp only [runBlocks, oneBlock, k2 hl, SRes.andThen]

theorem countOk_zero {n : Nat} (ls : Layers) : Layers.CountOk n ls 0 := by
  induction ls with
  | nil => trivial
  | cons l ls ih =>
    refine ⟨ih, ?_⟩
    unfold UnitsOk
    split
    · exact (ctrLimit_le _).1
    · exact (ctrLimit_le _).1
    · trivial

/-! ### Inversion -/

/-- The machine maps blocks of `n` bytes to blocks of `n` bytes. -/
def KeepsSize (n : Nat) (M : Machine) : Prop :=
  ∃ P : M.σ → Prop, P M.init ∧ ∀ x b, P x → b.length = n → (M.step x b).1.length = n ∧ P (M.step x b).2

/-- The machine `N` inverts the machine `M`. -/
def Inverse (n : Nat) (M N : Machine) : Prop :=
  ∃ R : M.σ → N.σ → Prop, R M.init N.init ∧ ∀ x y b, R x y → b.length = n →
    (N.step y (M.step x b).1).1 = b ∧ R (M.step x b).2 (N.step y (M.step x b).1).2

theorem ctr_keeps_inverse {n k : Nat} {M : Machine} (hM : KeepsSize n M) {iv : Bytes} (hiv : iv.length = n)
    (hk : k ≤ n) : KeepsSize n (M.ctr k iv) ∧ Inverse n (M.ctr k iv) (M.ctr k iv) := by
  obtain ⟨P, hP0, hP⟩ := hM
  have hl : ∀ i, (counterBlock iv k i).length = n := fun i => by
    rw [counterBlock_length _ _ _ (by omega), hiv]
  constructor
  · refine ⟨fun x => P x.2, hP0, fun x b hx hb => ?_⟩
    obtain ⟨h1, h2⟩ := hP x.2 _ hx (hl x.1)
    exact ⟨by simp only [Machine.ctr, xorb_length]; omega, h2⟩
  · refine ⟨fun x y => x = y ∧ P x.2, ⟨rfl, hP0⟩, ?_⟩
    rintro x y b ⟨rfl, hx⟩ hb
    obtain ⟨h1, h2⟩ := hP x.2 _ hx (hl x.1)
    exact ⟨by simp only [Machine.ctr]; exact xorb_xorb_cancel (by omega), rfl, h2⟩

theorem mode_keeps_inverse {n : Nat} {M N : Machine} (hM : KeepsSize n M) {mode : Mode}
    (hinv : normalizeDir (some mode) .decrypt = .decrypt → Inverse n M N)
    (hsame : normalizeDir (some mode) .decrypt = .encrypt → N = M)
    (hmode : ModeOk n mode) {iv : Option Bytes} (hiv : ModeIVOk n mode iv) :
    KeepsSize (unitOf n mode) (M.mode n (ivOf n iv) .encrypt mode)
      ∧ Inverse (unitOf n mode) (M.mode n (ivOf n iv) .encrypt mode) (N.mode n (ivOf n iv) .decrypt mode) := by
  cases mode with
  | ECB => exact ⟨hM, hinv rfl⟩
  | CBC =>
    replace hiv := ivOf_length (hiv.resolve_left (by simp))
    obtain ⟨R, hR0, hR⟩ := hinv rfl
    obtain ⟨P, hP0, hP⟩ := hM
    constructor
    · refine ⟨fun x => x.1.length = n ∧ P x.2, ⟨hiv, hP0⟩, fun x b hx hb => ?_⟩
      change b.length = n at hb
      obtain ⟨h1, h2⟩ := hP x.2 (xorb b x.1) hx.2 (by rw [xorb_length]; have := hx.1; omega)
      exact ⟨h1, h1, h2⟩
    · refine ⟨fun x y => x.1 = y.1 ∧ x.1.length = n ∧ P x.2 ∧ R x.2 y.2, ⟨rfl, hiv, hP0, hR0⟩, ?_⟩
      rintro ⟨r, x⟩ ⟨r', y⟩ b ⟨hr, hl, hx, hxy⟩ hb
      change r = r' at hr
      subst hr
      change b.length = n at hb
      change r.length = n at hl
      have hbl : (xorb b r).length = n := by rw [xorb_length]; omega
      obtain ⟨h1, h2⟩ := hP x _ hx hbl
      obtain ⟨h3, h4⟩ := hR x y _ hxy hbl
      refine ⟨?_, rfl, h1, h2, h4⟩
      change xorb (N.step y (M.step x (xorb b r)).1).1 r = b
      rw [h3]
      exact xorb_xorb_cancel (by omega)
  | CFB k =>
    replace hiv := ivOf_length (hiv.resolve_left (by simp))
    obtain rfl := hsame rfl
    obtain ⟨h0, h1'⟩ := hmode
    obtain ⟨k, rfl⟩ := Int.eq_ofNat_of_zero_le (Int.le_of_lt h0)
    have h1' : k ≤ n := by omega
    obtain ⟨P, hP0, hP⟩ := hM
    simp only [unitOf, Machine.mode, Int.toNat_natCast]
    constructor
    · refine ⟨fun x => x.1.length = n ∧ P x.2, ⟨hiv, hP0⟩, fun x b hx hb => ?_⟩
      obtain ⟨h1, h2⟩ := hP x.2 x.1 hx.2 hx.1
      have hc : (xorb b ((N.step x.2 x.1).1.take k)).length = k := by
        rw [xorb_length, List.length_take]; omega
      refine ⟨hc, ?_, h2⟩
      change (x.1.drop k ++ xorb b ((N.step x.2 x.1).1.take k)).length = n
      rw [List.length_append, hc, List.length_drop]
      have := hx.1
      omega
    · refine ⟨fun x y => x = y ∧ x.1.length = n ∧ P x.2, ⟨rfl, hiv, hP0⟩, ?_⟩
      rintro x y b ⟨rfl, hl, hx⟩ hb
      obtain ⟨h1, h2⟩ := hP x.2 x.1 hx hl
      have hc : (xorb b ((N.step x.2 x.1).1.take k)).length = k := by
        rw [xorb_length, List.length_take]; omega
      refine ⟨?_, rfl, ?_, h2⟩
      · exact xorb_xorb_cancel (by rw [List.length_take]; omega)
      · change (x.1.drop k ++ xorb b ((N.step x.2 x.1).1.take k)).length = n
        rw [List.length_append, hc, List.length_drop]
        omega
  | OFB k =>
    replace hiv := ivOf_length (hiv.resolve_left (by simp))
    obtain rfl := hsame rfl
    obtain ⟨h0, h1'⟩ := hmode
    obtain ⟨k, rfl⟩ := Int.eq_ofNat_of_zero_le (Int.le_of_lt h0)
    have h1' : k ≤ n := by omega
    obtain ⟨P, hP0, hP⟩ := hM
    simp only [unitOf, Machine.mode, Int.toNat_natCast]
    constructor
    · refine ⟨fun x => x.1.length = n ∧ P x.2, ⟨hiv, hP0⟩, fun x b hx hb => ?_⟩
      obtain ⟨h1, h2⟩ := hP x.2 x.1 hx.2 hx.1
      refine ⟨?_, h1, h2⟩
      change (xorb b ((N.step x.2 x.1).1.take k)).length = k
      rw [xorb_length, List.length_take]; omega
    · refine ⟨fun x y => x = y ∧ x.1.length = n ∧ P x.2, ⟨rfl, hiv, hP0⟩, ?_⟩
      rintro x y b ⟨rfl, hl, hx⟩ hb
      obtain ⟨h1, h2⟩ := hP x.2 x.1 hx hl
      refine ⟨?_, rfl, h1, h2⟩
      exact xorb_xorb_cancel (by rw [List.length_take]; omega)
  | CTR =>
    obtain rfl := hsame rfl
    exact ctr_keeps_inverse hM (ivOf_length (hiv.resolve_left (by simp))) (Nat.le_refl n)
  | CTR_N k =>
    obtain rfl := hsame rfl
    exact ctr_keeps_inverse hM (ivOf_length (hiv.resolve_left (by simp))) (by have := hmode.2; omega)

theorem normalizeDir_encrypt (mode : Option Mode) : normalizeDir mode .encrypt = .encrypt := by
  unfold normalizeDir; split <;> rfl

theorem tower_keeps_inverse {n : Nat} {E D : Bytes → Bytes}
    (hE : ∀ b : Bytes, b.length = n → (E b).length = n)
    (hinv : ∀ b : Bytes, b.length = n → D (E b) = b) (ls : Layers) : Layers.Ok n ls →
    KeepsSize (Layers.unit n ls) (Layers.machine n E D ls .encrypt)
      ∧ Inverse (Layers.unit n ls) (Layers.machine n E D ls .encrypt) (Layers.machine n E D ls .decrypt) := by
  induction ls with
  | nil =>
    intro _
    exact ⟨⟨fun _ => True, trivial, fun _ b _ hb => ⟨hE b hb, trivial⟩⟩,
      ⟨fun _ _ => True, trivial, fun _ _ b _ hb => ⟨hinv b hb, trivial⟩⟩⟩
  | cons l ls ih =>
    intro hok
    obtain ⟨h1, h2⟩ := ih hok.1
    simp only [Layers.machine, normalizeDir_encrypt]
    exact mode_keeps_inverse h1 (fun h => by rw [h]; exact h2) (fun h => by rw [h]) hok.2.1 hok.2.2

theorem inverse_run {n : Nat} {M N : Machine} (hM : KeepsSize n M) (h : Inverse n M N) (bs : List Bytes)
    (hbs : ∀ b ∈ bs, b.length = n) :
    (∀ c ∈ M.run M.init bs, c.length = n) ∧ (M.run M.init bs).length = bs.length
      ∧ N.run N.init (M.run M.init bs) = bs := by
  obtain ⟨P, hP0, hP⟩ := hM
  obtain ⟨R, hR0, hR⟩ := h
  suffices H : ∀ (bs : List Bytes) x y, P x → R x y → (∀ b ∈ bs, b.length = n) →
      (∀ c ∈ M.run x bs, c.length = n) ∧ (M.run x bs).length = bs.length ∧ N.run y (M.run x bs) = bs from
    H bs _ _ hP0 hR0 hbs
  intro bs
  induction bs with
  | nil => intro x y _ _ _; simp [Machine.run]
  | cons b bs ih =>
    intro x y hx hxy hb
    obtain ⟨h1, h2⟩ := hP x b hx (hb b (by simp))
    obtain ⟨h3, h4⟩ := hR x y b hxy (hb b (by simp))
    obtain ⟨k1, k2, k3⟩ := ih _ _ h2 h4 (fun c hc => hb c (by simp [hc]))
    refine ⟨?_, ?_, ?_⟩
    · intro c hc
      simp only [Machine.run, List.mem_cons] at hc
      rcases hc with rfl | hc
      · exact h1
      · exact k1 c hc
    · simp only [Machine.run, List.length_cons, k2]
    · simp only [Machine.run, h3, k3]

end Verif
