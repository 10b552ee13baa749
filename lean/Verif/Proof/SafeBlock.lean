import Verif.Proof.Safe
import Verif.Proof.Block
import Verif.Proof.Padding
/-
Safety of block ciphers, chaining modes, and of the transforms made from them.
-/
namespace Verif

open Spec

variable {σ : Type}

/-- From every state satisfying `I`, on legal arguments, the cipher returns, or raises
`Message_too_long`. -/
structure SafeBlock (c : BlockCipher σ) (I : σ → Prop) : Prop where
  pos : 0 < c.blocksize
  run : ∀ {s} {src : Src} {so dofs : Nat} {dst : Bytes}, I s →
    so + c.blocksize ≤ (src.read dst).length → dofs + c.blocksize ≤ dst.length →
    (c.transform src so dofs (s, dst)).Post
      (fun _ p => I p.1 ∧ p.2.length = dst.length)
      (fun e p => e = .error .messageTooLong ∧ I p.1 ∧ p.2.length = dst.length)

theorem SafeBlock.of_implements {c : BlockCipher σ} {I : σ → Prop} {f : σ → Bytes → BRes σ}
    (h : Implements c I f) (hf : ∀ s b e, (f s b).exn = some e → e = .error .messageTooLong) :
    SafeBlock c I := by
  refine ⟨h.pos, ?_⟩
  intro s src so dofs dst hi hs hd
  rw [h.run hi hs hd, BRes.toOut]
  have hb : (slice (src.read dst) so c.blocksize).length = c.blocksize := slice_length_of_le hs
  have h1 := h.out_len hi hb
  have h2 := h.inv_step hi hb
  have h3 : (splice dst dofs (f s (slice (src.read dst) so c.blocksize)).out).length = dst.length :=
    splice_length (by omega)
  split
  · exact ⟨h2, h3⟩
  · next e he => exact ⟨hf _ _ _ he, h2, h3⟩

theorem SafeBlock.of_pure {c : BlockCipher σ} {k : σ} {E : Bytes → Bytes} (h : PureCipher c k E) :
    SafeBlock c (· = k) :=
  of_implements h (by intro _ _ _ he; cases he)

theorem SafeBlock.or {c : BlockCipher σ} {I J : σ → Prop} (h1 : SafeBlock c I) (h2 : SafeBlock c J) :
    SafeBlock c (fun s => I s ∨ J s) := by
  refine ⟨h1.pos, ?_⟩
  intro s src so dofs dst hi hs hd
  rcases hi with hi | hi
  · exact Post.mono (h1.run hi hs hd) (fun _ _ x => ⟨.inl x.1, x.2⟩) fun _ _ x => ⟨x.1, .inl x.2.1, x.2.2⟩
  · exact Post.mono (h2.run hi hs hd) (fun _ _ x => ⟨.inr x.1, x.2⟩) fun _ _ x => ⟨x.1, .inr x.2.1, x.2.2⟩

/-- `wipe` preserves `I`. -/
def BWipeSafe (c : BlockCipher σ) (I : σ → Prop) : Prop := ∀ s, I s → I (c.wipe s)

/-- Weak invariant of the mode states. -/
def ModeSafe (I : σ → Prop) (n : Nat) (st : ModeSt σ) : Prop :=
  I st.c ∧ st.iv.length = n ∧ st.aux.length = n

variable {c : BlockCipher σ} {I : σ → Prop}

theorem xorC_iv_some {b iv : Bytes} {so n : Nat} (hs : so + n ≤ b.length) (hiv : iv.length = n) :
    ∃ r, xorC (.other b) so iv 0 n = some r ∧ r.length = n :=
  ⟨_, xorC_into_iv hs hiv, by simp; omega⟩

theorem xorC_dst_some {x dst : Bytes} {dofs n : Nat} (hx : n ≤ x.length)
    (hd : dofs + n ≤ dst.length) :
    ∃ r, xorC (.other x) 0 dst dofs n = some r ∧ r.length = dst.length :=
  ⟨_, xorC_into_dst hx hd, splice_length (by simp; omega)⟩

/-- Exceptions of a mode. -/
abbrev ModeE (I : σ → Prop) (n : Nat) (d : Nat) (e : Exn) (p : ModeSt σ × Bytes) : Prop :=
  e = .error .messageTooLong ∧ ModeSafe I n p.1 ∧ p.2.length = d

theorem callDst_safe (h : SafeBlock c I) {src : Src} {so dofs : Nat} {p : ModeSt σ × Bytes} {n d : Nat}
    (hp : ModeSafe I n p.1) (hl : p.2.length = d)
    (hs : so + c.blocksize ≤ (src.read p.2).length) (hd : dofs + c.blocksize ≤ p.2.length) :
    (ModeSt.callDst c src so dofs p).Post
      (fun _ q => ModeSafe I n q.1 ∧ q.2.length = d ∧ q.1.iv = p.1.iv ∧ q.1.aux = p.1.aux)
      (ModeE I n d) :=
  Post.zoom (h.run hp.1 hs hd) (fun _ _ x => ⟨⟨x.1, hp.2⟩, x.2.trans hl, rfl, rfl⟩)
    fun _ _ x => ⟨x.1, ⟨x.2.1, hp.2⟩, x.2.2.trans hl⟩

theorem callAux_safe (h : SafeBlock c I) {p : ModeSt σ × Bytes} {d : Nat}
    (hp : ModeSafe I c.blocksize p.1) (hl : p.2.length = d) {b : Bytes} (hb : b.length = c.blocksize) :
    (ModeSt.callAux c (.other b) 0 0 p).Post
      (fun _ q => ModeSafe I c.blocksize q.1 ∧ q.2 = p.2)
      (ModeE I c.blocksize d) :=
  Post.zoom (h.run (src := .other b) (so := 0) (dofs := 0) hp.1
      (by simp only [Src.read]; omega) (by rw [hp.2.2]; omega))
    (fun _ _ x => ⟨⟨x.1, hp.2.1, x.2.trans hp.2.2⟩, rfl⟩)
    fun _ _ x => ⟨x.1, ⟨x.2.1, hp.2.1, x.2.2.trans hp.2.2⟩, hl⟩

theorem cbcEncrypt_safe (h : SafeBlock c I) : SafeBlock (cbcEncrypt c) (ModeSafe I c.blocksize) := by
  refine ⟨h.pos, ?_⟩
  intro st src so dofs dst hi hs hd
  change so + c.blocksize ≤ _ at hs
  change dofs + c.blocksize ≤ _ at hd
  obtain ⟨iv, h1, l1⟩ := xorC_iv_some hs hi.2.1
  refine Post.bind_get (s := (st, dst)) ?_
  refine Post.bind_orUB h1 ?_
  refine Post.bind_modify ?_
  refine Post.bind (callDst_safe h (src := .other iv) (so := 0) (n := c.blocksize)
    (p := ({ st with iv := iv }, dst)) ⟨hi.1, l1, hi.2.2⟩ rfl (by simp only [Src.read]; omega) hd) ?_
  rintro - ⟨st2, dst2⟩ ⟨g1, g2, g3, g4⟩
  refine Post.bind_get (s := (st2, dst2)) ?_
  have hb := bytesBlit_ok (src := dst2) (so := dofs) (dst := st2.iv) (dofs := 0) (n := c.blocksize)
    (by simp only at g2; omega) (by have := g1.2.1; simp only at this; omega)
  rw [Int.natCast_zero] at hb
  have hl := bytesBlit_length hb
  refine Post.bind_orRaise_some hb ?_
  exact ⟨⟨g1.1, hl.trans g1.2.1, g1.2.2⟩, g2⟩

theorem cbcDecrypt_safe (h : SafeBlock c I) : SafeBlock (cbcDecrypt c) (ModeSafe I c.blocksize) := by
  refine ⟨h.pos, ?_⟩
  intro st src so dofs dst hi hs hd
  change so + c.blocksize ≤ _ at hs
  change dofs + c.blocksize ≤ _ at hd
  have hb := bytesBlit_ok (src := src.read dst) (so := so) (dst := st.aux) (dofs := 0)
    (n := c.blocksize) hs (by have := hi.2.2; omega)
  rw [Int.natCast_zero] at hb
  have hl := bytesBlit_length hb
  generalize splice st.aux 0 _ = aux at hb hl
  refine Post.bind_get (s := (st, dst)) ?_
  refine Post.bind_orRaise_some hb ?_
  refine Post.bind_modify (s := (st, dst)) ?_
  refine Post.bind (callDst_safe h (src := src) (so := so) (n := c.blocksize)
    (p := ({ st with aux := aux }, dst)) ⟨hi.1, hi.2.1, hl.trans hi.2.2⟩ rfl hs hd) ?_
  rintro - ⟨st2, dst2⟩ ⟨g1, g2, g3, g4⟩
  refine Post.bind_get (s := (st2, dst2)) ?_
  obtain ⟨dst3, x1, x2⟩ := xorC_dst_some (x := st2.iv) (dst := dst2) (dofs := dofs) (n := c.blocksize)
    (by have := g1.2.1; simp only at this; omega) (by simp only at g2; omega)
  refine Post.bind_orUB x1 ?_
  refine Post.bind_modify (s := (st2, dst2)) ?_
  have hb2 := bytesBlit_ok (src := st2.aux) (so := 0) (dst := st2.iv) (dofs := 0) (n := c.blocksize)
    (by have := g1.2.2; simp only at this; omega) (by have := g1.2.1; simp only at this; omega)
  rw [Int.natCast_zero] at hb2
  have hl2 := bytesBlit_length hb2
  refine Post.bind_orRaise_some hb2 ?_
  exact ⟨⟨g1.1, hl2.trans g1.2.1, g1.2.2⟩, x2.trans g2⟩

/-- `Bytes.blit src so dst dofs n` within bounds. -/
theorem blit_some {src dst : Bytes} {so dofs n : Nat} (hs : so + n ≤ src.length)
    (hd : dofs + n ≤ dst.length) :
    ∃ r, bytesBlit src so dst dofs n = some r ∧ r.length = dst.length :=
  ⟨_, bytesBlit_ok hs hd, bytesBlit_length (bytesBlit_ok hs hd)⟩

theorem cfbEncrypt_safe (h : SafeBlock c I) {n : Nat} (hn : 0 < n) (hle : n ≤ c.blocksize) :
    SafeBlock (cfbEncrypt n c) (ModeSafe I c.blocksize) := by
  refine ⟨hn, ?_⟩
  intro st src so dofs dst hi hs hd
  change so + n ≤ _ at hs
  change dofs + n ≤ _ at hd
  refine Post.bind_get (s := (st, dst)) ?_
  refine Post.bind (callAux_safe h (p := (st, dst)) hi rfl (b := st.iv) hi.2.1) ?_
  rintro - ⟨st2, dst2⟩ ⟨g1, g2⟩
  simp only at g1 g2
  subst g2
  have gi := g1.2.1
  have ga := g1.2.2
  refine Post.bind_get (s := (st2, dst2)) ?_
  obtain ⟨d1, b1, l1⟩ := blit_some hs hd
  refine Post.bind_orRaise_some b1 ?_
  refine Post.bind_modify (s := (st2, dst2)) ?_
  obtain ⟨d2, b2, l2⟩ := xorC_dst_some (x := st2.aux) (dst := d1) (dofs := dofs) (n := n)
    (by omega) (by omega)
  refine Post.bind_orUB b2 ?_
  refine Post.bind_modify (s := (st2, d1)) ?_
  obtain ⟨i1, b3, l3⟩ := blit_some (src := st2.iv) (so := n) (dst := st2.iv) (dofs := 0)
    (n := c.blocksize - n) (by omega) (by omega)
  rw [Int.natCast_zero, Int.ofNat_sub hle] at b3
  refine Post.bind_orRaise_some b3 ?_
  refine Post.bind_modify (s := (st2, d2)) ?_
  obtain ⟨i2, b4, l4⟩ := blit_some (src := d2) (so := dofs) (dst := i1) (dofs := c.blocksize - n)
    (n := n) (by omega) (by omega)
  rw [Int.ofNat_sub hle] at b4
  refine Post.bind_orRaise_some b4 ?_
  exact ⟨⟨g1.1, by simp only; omega, g1.2.2⟩, by simp only; omega⟩

theorem cfbDecrypt_safe (h : SafeBlock c I) {n : Nat} (hn : 0 < n) (hle : n ≤ c.blocksize) :
    SafeBlock (cfbDecrypt n c) (ModeSafe I c.blocksize) := by
  refine ⟨hn, ?_⟩
  intro st src so dofs dst hi hs hd
  change so + n ≤ _ at hs
  change dofs + n ≤ _ at hd
  refine Post.bind_get (s := (st, dst)) ?_
  refine Post.bind (callAux_safe h (p := (st, dst)) hi rfl (b := st.iv) hi.2.1) ?_
  rintro - ⟨st2, dst2⟩ ⟨g1, g2⟩
  simp only at g1 g2
  subst g2
  have gi := g1.2.1
  have ga := g1.2.2
  refine Post.bind_get (s := (st2, dst2)) ?_
  obtain ⟨i1, b3, l3⟩ := blit_some (src := st2.iv) (so := n) (dst := st2.iv) (dofs := 0)
    (n := c.blocksize - n) (by omega) (by omega)
  rw [Int.natCast_zero, Int.ofNat_sub hle] at b3
  refine Post.bind_orRaise_some b3 ?_
  refine Post.bind_modify (s := (st2, dst2)) ?_
  obtain ⟨i2, b4, l4⟩ := blit_some (src := src.read dst2) (so := so) (dst := i1)
    (dofs := c.blocksize - n) (n := n) (by omega) (by omega)
  rw [Int.ofNat_sub hle] at b4
  refine Post.bind_orRaise_some b4 ?_
  refine Post.bind_modify (s := ({ st2 with iv := i1 }, dst2)) ?_
  obtain ⟨d1, b1, l1⟩ := blit_some hs hd
  refine Post.bind_orRaise_some b1 ?_
  refine Post.bind_modify (s := ({ st2 with iv := i2 }, dst2)) ?_
  obtain ⟨d2, b2, l2⟩ := xorC_dst_some (x := st2.aux) (dst := d1) (dofs := dofs) (n := n)
    (by omega) (by omega)
  refine Post.bind_orUB b2 ?_
  exact ⟨⟨g1.1, by simp only; omega, g1.2.2⟩, by simp only; omega⟩

theorem callIv_safe (h : SafeBlock c I) {p : ModeSt σ × Bytes} {d : Nat}
    (hp : ModeSafe I c.blocksize p.1) (hl : p.2.length = d) :
    (ModeSt.callIv c .self 0 0 p).Post
      (fun _ q => ModeSafe I c.blocksize q.1 ∧ q.2 = p.2)
      (ModeE I c.blocksize d) :=
  Post.zoom (h.run (src := .self) (so := 0) (dofs := 0) hp.1
      (by simp only [Src.read]; rw [hp.2.1]; omega) (by rw [hp.2.1]; omega))
    (fun _ _ x => ⟨⟨x.1, x.2.trans hp.2.1, hp.2.2⟩, rfl⟩)
    fun _ _ x => ⟨x.1, ⟨x.2.1, x.2.2.trans hp.2.1, hp.2.2⟩, hl⟩

theorem ofb_safe (h : SafeBlock c I) {n : Nat} (hn : 0 < n) (hle : n ≤ c.blocksize) :
    SafeBlock (ofb n c) (ModeSafe I c.blocksize) := by
  refine ⟨hn, ?_⟩
  intro st src so dofs dst hi hs hd
  change so + n ≤ _ at hs
  change dofs + n ≤ _ at hd
  refine Post.bind (callIv_safe h (p := (st, dst)) hi rfl) ?_
  rintro - ⟨st2, dst2⟩ ⟨g1, g2⟩
  simp only at g1 g2
  subst g2
  have gi := g1.2.1
  refine Post.bind_get (s := (st2, dst2)) ?_
  obtain ⟨d1, b1, l1⟩ := blit_some hs hd
  refine Post.bind_orRaise_some b1 ?_
  refine Post.bind_modify (s := (st2, dst2)) ?_
  obtain ⟨d2, b2, l2⟩ := xorC_dst_some (x := st2.iv) (dst := d1) (dofs := dofs) (n := n)
    (by omega) (by omega)
  refine Post.bind_orUB b2 ?_
  exact ⟨g1, by simp only; omega⟩

theorem incrementCounter_some (lim : Nat) : ∀ (pos : Nat) (b : Bytes), pos ≤ b.length →
    ∃ r, incrementCounter b lim pos = some r ∧ r.length = b.length
  | 0, b, _ => ⟨b, rfl, rfl⟩
  | pos + 1, b, h => by
    rw [incrementCounter]
    split
    · rw [List.getElem?_eq_getElem (by omega)]
      simp only []
      split
      · obtain ⟨r, h1, h2⟩ := incrementCounter_some lim pos
          (b.set pos (BitVec.ofNat 8 (1 + (b[pos]'(by omega)).toNat))) (by simp; omega)
        exact ⟨r, h1, by simpa using h2⟩
      · exact ⟨_, rfl, by simp⟩
    · exact ⟨b, rfl, rfl⟩

/-- Weak invariant of `ctr`. -/
def CtrSafe (I : σ → Prop) (n : Nat) (st : CtrSt σ) : Prop := ModeSafe I n st.m

theorem ctr_safe (h : SafeBlock c I) (nincr : Nat) :
    SafeBlock (ctr nincr c) (CtrSafe I c.blocksize) := by
  refine ⟨h.pos, ?_⟩
  intro st src so dofs dst hi hs hd
  change so + c.blocksize ≤ _ at hs
  change dofs + c.blocksize ≤ _ at hd
  have hi' : ModeSafe I c.blocksize st.m := hi
  refine Post.bind (Q := fun _ (p : CtrSt σ × Bytes) => CtrSafe I c.blocksize p.1 ∧ p.2.length = dst.length)
    (Post.zoom (Q := fun _ (p : ModeSt σ × Bytes) => ModeSafe I c.blocksize p.1 ∧ p.2.length = dst.length)
      (E := ModeE I c.blocksize dst.length) ?_ (fun _ _ x => x) (fun _ _ x => x)) ?_
  · refine Post.bind_get (s := (st.m, dst)) ?_
    refine Post.bind (callAux_safe h (p := (st.m, dst)) hi' rfl (b := st.m.iv) hi'.2.1) ?_
    rintro - ⟨st2, dst2⟩ ⟨g1, g2⟩
    simp only at g1 g2
    subst g2
    have gi := g1.2.1
    have ga := g1.2.2
    refine Post.bind_get (s := (st2, dst2)) ?_
    obtain ⟨d1, b1, l1⟩ := blit_some hs hd
    refine Post.bind_orRaise_some b1 ?_
    refine Post.bind_modify (s := (st2, dst2)) ?_
    obtain ⟨d2, b2, l2⟩ := xorC_dst_some (x := st2.aux) (dst := d1) (dofs := dofs) (n := c.blocksize)
      (by omega) (by omega)
    refine Post.bind_orUB b2 ?_
    refine Post.bind_modify (s := (st2, d1)) ?_
    obtain ⟨i1, b3, l3⟩ := incrementCounter_some (c.blocksize - nincr) c.blocksize st2.iv (by omega)
    refine Post.bind_orRaise_some b3 ?_
    exact ⟨⟨g1.1, by simp only; omega, g1.2.2⟩, by simp only; omega⟩
  · rintro - ⟨st2, dst2⟩ ⟨g1, g2⟩
    refine Post.bind_get (s := (st2, dst2)) ?_
    simp only []
    split
    · exact ⟨rfl, g1, g2⟩
    · exact ⟨g1, g2⟩

/-! `wipe` -/

theorem cbcEncrypt_wipe (h : BWipeSafe c I) (n : Nat) : BWipeSafe (cbcEncrypt c) (ModeSafe I n) :=
  fun _ hi => ⟨h _ hi.1, by simpa [cbcEncrypt] using hi.2.1, hi.2.2⟩
theorem cbcDecrypt_wipe (h : BWipeSafe c I) (n : Nat) : BWipeSafe (cbcDecrypt c) (ModeSafe I n) :=
  fun _ hi => ⟨h _ hi.1, by simpa [cbcDecrypt] using hi.2.1, by simpa [cbcDecrypt] using hi.2.2⟩
theorem cfbEncrypt_wipe (h : BWipeSafe c I) (k n : Nat) : BWipeSafe (cfbEncrypt k c) (ModeSafe I n) :=
  fun _ hi => ⟨h _ hi.1, by simpa [cfbEncrypt] using hi.2.1, by simpa [cfbEncrypt] using hi.2.2⟩
theorem cfbDecrypt_wipe (h : BWipeSafe c I) (k n : Nat) : BWipeSafe (cfbDecrypt k c) (ModeSafe I n) :=
  fun _ hi => ⟨h _ hi.1, by simpa [cfbDecrypt] using hi.2.1, by simpa [cfbDecrypt] using hi.2.2⟩
theorem ofb_wipe (h : BWipeSafe c I) (k n : Nat) : BWipeSafe (ofb k c) (ModeSafe I n) :=
  fun _ hi => ⟨h _ hi.1, by simpa [ofb] using hi.2.1, hi.2.2⟩
theorem ctr_wipe (h : BWipeSafe c I) (k n : Nat) : BWipeSafe (ctr k c) (CtrSafe I n) :=
  fun _ hi => ⟨h _ hi.1, by simpa [ctr] using hi.2.1, by simpa [ctr] using hi.2.2⟩

theorem makeInitialIV_length {n : Nat} {iv : Option Bytes} {b : Bytes}
    (h : makeInitialIV n iv = .ok b) : b.length = n := by
  unfold makeInitialIV at h
  split at h
  · cases h; simp
  · split at h
    · cases h
    · next hl => cases h; simpa using hl

theorem modeInit_safe {env : Env} {s : σ} {iv : Option Bytes} {st : ModeSt σ} (hs : I s)
    (h : modeInit env c s iv = .ok st) : ModeSafe I c.blocksize st := by
  unfold modeInit at h
  split at h
  · next hm => cases h; exact ⟨hs, makeInitialIV_length hm, by simp⟩
  · cases h

theorem modeInitChunk_safe {env : Env} {s : σ} {iv : Option Bytes} {st : ModeSt σ} {n : Int} (hs : I s)
    (h : modeInitChunk env c s iv n = .ok st) :
    ModeSafe I c.blocksize st ∧ 0 < n.toNat ∧ n.toNat ≤ c.blocksize := by
  unfold modeInitChunk at h
  split at h
  · next hn => exact ⟨modeInit_safe hs h, by omega, by omega⟩
  · cases h

theorem ctrInit_safe {env : Env} {s : σ} {iv : Option Bytes} {inc : Option Int} {p : Nat × CtrSt σ}
    (hs : I s) (h : ctrInit env c s iv inc = .ok p) : CtrSafe I c.blocksize p.2 := by
  unfold ctrInit at h
  split at h
  · cases h
  · split at h
    · cases h
    · next hm => cases h; exact modeInit_safe hs hm

/-! ### `Block.cipher` and its variants -/

/-- Weak invariant of `Block.cipher`. -/
structure CipherSafe (c : BlockCipher σ) (I : σ → Prop) (t : CipherSt σ) : Prop where
  cst : I t.c
  ibuf : t.ibuf.length = c.blocksize
  used : t.used ≤ c.blocksize
  ob : t.ob.Safe

/-- Exceptions raised by the processing of a block. -/
def BlockExn (e : Exn) : Prop := e = .error .messageTooLong ∨ e = .error .outputBufferOverflow

open CipherSt

theorem onCipherBuf_safe {t : CipherSt σ} {m : M OBuf α} {Q : α → OBuf → Prop} {E : Exn → OBuf → Prop}
    (ht : CipherSafe c I t) (hm : (m t.ob).Post Q E) (hq : ∀ a o, Q a o → o.Safe)
    (he : ∀ e o, E e o → o.Safe) :
    (onBuf m t).Post (fun _ => CipherSafe c I) (fun _ => CipherSafe c I) :=
  Post.zoom hm (fun _ _ x => ⟨ht.cst, ht.ibuf, ht.used, hq _ _ x⟩) fun _ _ x =>
    ⟨ht.cst, ht.ibuf, ht.used, he _ _ x⟩

theorem pushBlock_safe (h : SafeBlock c I) (env : Env) (t : CipherSt σ) (ht : CipherSafe c I t) :
    (pushBlock env c t).Post (fun _ t' => CipherSafe c I t' ∧ t'.used = t.used)
      (fun e t' => CipherSafe c I t' ∧ BlockExn e) := by
  unfold pushBlock
  refine Post.bind (Q := fun _ t' => (CipherSafe c I t' ∧ t'.used = t.used)
      ∧ t'.ob.oend + c.blocksize ≤ t'.ob.obuf.length)
    (Post.zoom (OBuf.ensureCapacity_safe env c.blocksize t.ob ht.ob)
      (fun _ o x => ⟨⟨⟨ht.cst, ht.ibuf, ht.used, x.1⟩, rfl⟩, by have := x.2; simp only; omega⟩)
      fun e o x => ⟨⟨ht.cst, ht.ibuf, ht.used, x.2 ▸ ht.ob⟩, .inr x.1⟩) ?_
  rintro - t1 ⟨⟨h1, hu⟩, hcap⟩
  refine Post.bind (Q := fun _ t' => (CipherSafe c I t' ∧ t'.used = t.used)
      ∧ t'.ob.oend + c.blocksize ≤ t'.ob.obuf.length) ?_ ?_
  · have hr := h.run (src := .other t1.ibuf) (so := 0) (dofs := t1.ob.oend) (dst := t1.ob.obuf) h1.cst
      (by simp only [Src.read]; have := h1.ibuf; omega) hcap
    unfold callOut
    rw [Int.natCast_zero] at hr
    cases hc : c.transform (.other t1.ibuf) 0 t1.ob.oend (t1.c, t1.ob.obuf) with
    | ok a p =>
      rw [hc] at hr
      refine ⟨⟨⟨hr.1, h1.ibuf, h1.used, ?_⟩, hu⟩, ?_⟩
      · exact h1.ob.set hr.2 (Nat.le_refl _) h1.ob.le
      · show t1.ob.oend + c.blocksize ≤ p.2.length
        rw [hr.2]; exact hcap
    | exn e p =>
      rw [hc] at hr
      exact ⟨⟨hr.2.1, h1.ibuf, h1.used, h1.ob.set hr.2.2 (Nat.le_refl _) h1.ob.le⟩, .inl hr.1⟩
    | ub => rw [hc] at hr; exact hr.elim
    | loop => rw [hc] at hr; exact hr.elim
  · rintro - t2 ⟨⟨h2, hu2⟩, hcap2⟩
    exact ⟨⟨h2.cst, h2.ibuf, h2.used, h2.ob.set rfl (Nat.le_add_right _ _) hcap2⟩, hu2⟩

theorem cipherPutSubstring_safe (h : SafeBlock c I) (env : Env) (src : Bytes) (ofs len : Int)
    (t : CipherSt σ) (ht : CipherSafe c I t) :
    (cipherPutSubstring env c src ofs len t).Post
      (fun _ t' => CipherSafe c I t' ∧ (InRange src ofs len ∨ (len ≤ 0 ∧ t' = t)))
      (fun e t' => CipherSafe c I t' ∧ (e = .invalidArg ∨ BlockExn e)) := by
  induction hk : len.toNat * 2 + (if t.used = 0 then 0 else 1) using Nat.strongRecOn
    generalizing ofs len t with
  | _ k ih =>
    have hbs := h.pos
    have hu := ht.used
    rw [cipherPutSubstring]
    split
    · next hl => exact ⟨ht, .inr ⟨hl, rfl⟩⟩
    · next hl =>
      split
      · next hfit =>
        split
        · exact ⟨ht, .inl rfl⟩
        · next ib hb =>
          have hr : InRange src ofs len := by
            unfold bytesBlit at hb
            split at hb
            · next hc => exact hc.1
            · cases hb
          exact ⟨⟨ht.cst, (bytesBlit_length hb).trans ht.ibuf, by simp only; omega, ht.ob⟩, .inl hr⟩
      · next hfit =>
        simp only []
        split
        · exact ⟨ht, .inl rfl⟩
        · next ib hb =>
          have hr : InRange src ofs ((c.blocksize : Int) - t.used) := by
            unfold bytesBlit at hb
            split at hb
            · next hc => exact hc.1
            · cases hb
          have hp := pushBlock_safe h env { t with ibuf := ib }
            ⟨ht.cst, (bytesBlit_length hb).trans ht.ibuf, ht.used, ht.ob⟩
          cases hc : pushBlock env c { t with ibuf := ib } with
          | ok a t' =>
            rw [hc] at hp
            simp only []
            rw [dif_neg (by omega)]
            have h0 := hp.1.used
            refine Post.mono (ih _ ?_ (ofs + ((c.blocksize : Int) - t.used))
              (len - ((c.blocksize : Int) - t.used)) { t' with used := 0 }
              ⟨hp.1.cst, hp.1.ibuf, Nat.zero_le _, hp.1.ob⟩ rfl) ?_ fun _ _ x => x
            · simp only [if_true, Nat.add_zero]; subst hk; split <;> omega
            · rintro - t2 ⟨g1, g2⟩
              refine ⟨g1, .inl ?_⟩
              obtain ⟨r1, r2, r3⟩ := hr
              rcases g2 with ⟨q1, q2, q3⟩ | ⟨q1, -⟩
              · exact ⟨by omega, by omega, by omega⟩
              · omega
          | exn e t' => rw [hc] at hp; exact ⟨hp.1, .inr hp.2⟩
          | ub => rw [hc] at hp; exact hp.elim
          | loop => rw [hc] at hp; exact hp.elim

theorem cipherPutChar_safe (h : SafeBlock c I) (env : Env) (ch : Byte) (t : CipherSt σ)
    (ht : CipherSafe c I t) :
    (cipherPutChar env c ch t).Post (fun _ => CipherSafe c I) (fun _ => CipherSafe c I) := by
  have hbs := h.pos
  unfold cipherPutChar
  split
  · split
    · exact ht
    · next hb => exact ⟨ht.cst, (bytesSet_length hb).trans ht.ibuf, by simp only; omega, ht.ob⟩
  · refine Post.bind (Post.mono (pushBlock_safe h env t ht) (fun _ _ x => x.1) fun _ _ x => x.1) ?_
    rintro - t1 h1
    refine Post.bind_get ?_
    refine Post.bind_orRaise h1 ?_
    intro ib hb
    exact ⟨h1.cst, (bytesSet_length hb).trans h1.ibuf, by simp only; omega, h1.ob⟩

theorem cipherFlush_safe (h : SafeBlock c I) (env : Env) (t : CipherSt σ) (ht : CipherSafe c I t) :
    (cipherFlush env c t).Post (fun _ => CipherSafe c I) (fun _ => CipherSafe c I) := by
  unfold cipherFlush
  split
  · exact ht
  · split
    · refine Post.bind (Post.mono (pushBlock_safe h env t ht) (fun _ _ x => x.1) fun _ _ x => x.1) ?_
      rintro - t1 h1
      exact ⟨h1.cst, h1.ibuf, Nat.zero_le _, h1.ob⟩
    · exact ht

theorem cipherWipe_safe (hw : BWipeSafe c I) (t : CipherSt σ) (ht : CipherSafe c I t) :
    (cipherWipe c t).Post (fun _ => CipherSafe c I) (fun _ => CipherSafe c I) :=
  ⟨hw _ ht.cst, by simpa using ht.ibuf, ht.used, OBuf.wipe_safe _ ht.ob⟩

theorem blockTransform_safe (h : SafeBlock c I) (env : Env) :
    TSafe (blockTransform env c) (CipherSafe c I) where
  putSubstring b ofs len t ht :=
    Post.mono (cipherPutSubstring_safe h env b ofs len t ht) (fun _ _ x => x.1) fun _ _ x => x.1
  putString s t ht :=
    Post.mono (cipherPutSubstring_safe h env s 0 s.length t ht) (fun _ _ x => x.1) fun _ _ x => x.1
  putChar ch t ht := cipherPutChar_safe h env ch t ht
  putByte b t ht := cipherPutChar_safe h env _ t ht
  availableOutput t ht := onCipherBuf_safe ht (OBuf.availableOutput_safe _ ht.ob) (fun _ _ x => x) fun _ _ x => x
  getString t ht := onCipherBuf_safe ht (OBuf.getString_safe _ ht.ob) (fun _ _ x => x) fun _ _ x => x
  getSubstring t ht := onCipherBuf_safe ht (OBuf.getSubstring_safe _ ht.ob) (fun _ _ x => x.1) fun _ _ x => x
  getChar t ht := onCipherBuf_safe ht (OBuf.getChar_safe _ ht.ob) (fun _ _ x => x) fun _ _ x => x
  getByte t ht := onCipherBuf_safe ht (OBuf.getByte_safe _ ht.ob) (fun _ _ x => x) fun _ _ x => x

theorem blockTransform_fin (h : SafeBlock c I) (env : Env) :
    TFinSafe (blockTransform env c) (CipherSafe c I) :=
  ⟨cipherFlush_safe h env, cipherFlush_safe h env⟩

theorem paddedEncrypt_fin (h : SafeBlock c I) (env : Env) {p : PadScheme} (hp : PadKeeps p) :
    TFinSafe (paddedEncrypt env p c) (CipherSafe c I) := by
  refine ⟨cipherFlush_safe h env, ?_⟩
  intro t ht
  have key : ∀ t, CipherSafe c I t →
      ((do
        let st ← M.get
        let ib ← ofExcept (p.pad st.ibuf st.used)
        M.modify fun st => { st with ibuf := ib }
        pushBlock env c : M (CipherSt σ) Unit) t).Post (fun _ => CipherSafe c I) (fun _ => CipherSafe c I) := by
    intro t ht
    refine Post.bind_get ?_
    refine Post.bind_ofExcept (fun _ _ => ht) ?_
    intro ib hb
    refine Post.bind_modify ?_
    exact Post.mono (pushBlock_safe h env _ ⟨ht.cst, (hp _ _ _ hb).trans ht.ibuf, ht.used, ht.ob⟩)
      (fun _ _ x => x.1) fun _ _ x => x.1
  refine Post.bind_get (s := t) ?_
  by_cases hu : t.used ≥ c.blocksize
  · simp only [hu, if_true, bind_assoc]
    refine Post.bind (Post.mono (pushBlock_safe h env t ht) (fun _ _ x => x.1) fun _ _ x => x.1) ?_
    rintro - t1 h1
    exact key _ ⟨h1.cst, h1.ibuf, Nat.zero_le _, h1.ob⟩
  · simp only [hu, if_false]
    exact key t ht

theorem paddedDecrypt_fin (h : SafeBlock c I) (env : Env) (p : PadScheme) :
    TFinSafe (paddedDecrypt env p c) (CipherSafe c I) := by
  refine ⟨cipherFlush_safe h env, ?_⟩
  intro t ht
  refine Post.bind_get (s := t) ?_
  by_cases hu : t.used ≠ c.blocksize
  · rw [if_pos hu]
    exact ht
  · rw [if_neg hu]
    refine Post.bind (Q := fun _ => CipherSafe c I) ?_ ?_
    · refine Post.zoom (h.run (src := .self) (so := 0) (dofs := 0) (dst := t.ibuf) ht.cst
        (by simp only [Src.read]; have := ht.ibuf; omega) (by have := ht.ibuf; omega))
        (fun _ _ x => ⟨x.1, x.2.trans ht.ibuf, ht.used, ht.ob⟩)
        fun _ _ x => ⟨x.2.1, x.2.2.trans ht.ibuf, ht.used, ht.ob⟩
    · rintro - t1 h1
      refine Post.bind_get ?_
      refine Post.bind_ofExcept (fun _ _ => h1) ?_
      intro v hv
      refine Post.bind (Q := fun _ t' => CipherSafe c I t' ∧ t'.ob.oend + v ≤ t'.ob.obuf.length)
        (Post.zoom (OBuf.ensureCapacity_safe env v t1.ob h1.ob)
          (fun _ o x => ⟨⟨h1.cst, h1.ibuf, h1.used, x.1⟩, by have := x.2; simp only; omega⟩)
          fun e o x => ⟨h1.cst, h1.ibuf, h1.used, x.2 ▸ h1.ob⟩) ?_
      rintro - t2 ⟨h2, hcap⟩
      refine Post.bind_get ?_
      refine Post.bind_orRaise h2 ?_
      intro b hb
      exact ⟨h2.cst, h2.ibuf, h2.used, h2.ob.set (bytesBlit_length hb) (Nat.le_add_right _ _) hcap⟩

theorem cipherInit_safe (h : SafeBlock c I) {s : σ} (hs : I s) (env : Env) :
    CipherSafe c I (cipherInit env c s) :=
  ⟨hs, by simp [cipherInit], Nat.zero_le _, OBuf.safe_init env (by have := h.pos; omega)⟩

end Verif
