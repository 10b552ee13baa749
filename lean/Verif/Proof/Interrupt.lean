import Verif.Proof.SafeStream
import Verif.Proof.SafeCipher
import Verif.Model.Interrupt
/-
Safety of the interruptible transforms.
-/
namespace Verif

open Spec

/-- Interruption points keep `I`. -/
def TickStable [Ticking σ] (I : σ → Prop) : Prop := ∀ s, I s → I (Ticking.tick s).2

namespace Post

variable {σ : Type} [Ticking σ] {E : Exn → σ → Prop}

theorem bind_poll {k : Unit → M σ β} {s : σ} {R : β → σ → Prop} {P : σ → Prop}
    (hP : P (Ticking.tick s).2) (he : ∀ e t, P t → E e t) (hk : ∀ t, P t → (k () t).Post R E) :
    ((poll >>= k) s).Post R E := by
  rw [M.bind_def, poll]
  cases (Ticking.tick s).1 with
  | none => exact hk _ hP
  | some e => exact he _ _ hP

theorem poll {s : σ} {R : Unit → σ → Prop} {P : σ → Prop}
    (hP : P (Ticking.tick s).2) (he : ∀ e t, P t → E e t) (hk : ∀ t, P t → R () t) :
    ((Verif.poll : M σ Unit) s).Post R E := by
  rw [Verif.poll]
  cases (Ticking.tick s).1 with
  | none => exact hk _ hP
  | some e => exact he _ _ hP

end Post

/-! ### The output buffer -/

/-- What remains of `OBuf.Safe` when assignments may be left undone. -/
structure OBuf.Weak (o : OBuf) : Prop where
  pos : 0 < o.obuf.length
  le : o.oend ≤ o.obuf.length

namespace OBuf

variable {κ : Type} [Ticking κ] {J : κ → Prop}

/-- Invariant of the pair. -/
def WeakI (J : κ → Prop) (p : κ × OBuf) : Prop := J p.1 ∧ p.2.Weak

/-- A point at which the buffer is `o`. -/
theorem bind_poll {k : Unit → M (κ × OBuf) β} {s : κ} {o : OBuf} {R : β → κ × OBuf → Prop}
    (hJ : TickStable J) (hs : J s) (ho : o.Weak)
    (hk : ∀ s', J s' → (k () (s', o)).Post R (fun _ => WeakI J)) :
    ((poll >>= k) (s, o)).Post R (fun _ => WeakI J) :=
  Post.bind_poll (P := fun t => J t.1 ∧ t.2 = o) ⟨hJ _ hs, rfl⟩ (fun _ _ x => ⟨x.1, x.2 ▸ ho⟩)
    (by rintro ⟨s', o'⟩ ⟨h1, rfl⟩; exact hk _ h1)

theorem end_poll {s : κ} {o : OBuf} {R : Unit → κ × OBuf → Prop}
    (hJ : TickStable J) (hs : J s) (ho : o.Weak) (hk : ∀ s', J s' → R () (s', o)) :
    ((poll : M (κ × OBuf) Unit) (s, o)).Post R (fun _ => WeakI J) :=
  Post.poll (P := fun t => J t.1 ∧ t.2 = o) ⟨hJ _ hs, rfl⟩ (fun _ _ x => ⟨x.1, x.2 ▸ ho⟩)
    (by rintro ⟨s', o'⟩ ⟨h1, rfl⟩; exact hk _ h1)

theorem blit_le {src dst b : Bytes} {so dofs n : Int} (h : bytesBlit src so dst dofs n = some b) :
    0 ≤ n ∧ dofs + n ≤ dst.length := by
  unfold bytesBlit at h
  split at h
  · next hc => obtain ⟨⟨_, _, _⟩, _, _, _⟩ := hc; exact ⟨by omega, by omega⟩
  · cases h

theorem compactI_safe (hJ : TickStable J) {s : κ} (hs : J s) {o : OBuf} (ho : o.Weak) (n : Int)
    (hn : (o.oend : Int) - o.obeg + n < o.obuf.length) :
    ((compactI : M (κ × OBuf) Unit) (s, o)).Post
      (fun _ p => WeakI J p ∧ (p.2.oend : Int) + n ≤ p.2.obuf.length) (fun _ => WeakI J) := by
  refine Post.bind_get (s := (s, o)) ?_
  refine Post.bind_orRaise ⟨hs, ho⟩ ?_
  intro b hb
  have hl := bytesBlit_length hb
  have hp := ho.pos
  have hle := ho.le
  obtain ⟨h0, -⟩ := blit_le hb
  refine Post.bind_modify (s := (s, o)) ?_
  refine bind_poll hJ hs ⟨by simp only; omega, by simp only; omega⟩ ?_
  intro s1 h1
  refine Post.bind_modify ?_
  refine bind_poll hJ h1 ⟨by simp only; omega, by simp only; omega⟩ ?_
  intro s2 h2
  refine Post.bind_modify ?_
  refine end_poll hJ h2 ⟨by simp only; omega, by simp only; omega⟩ ?_
  intro s3 h3
  exact ⟨⟨h3, by simp only; omega, by simp only; omega⟩, by simp only; omega⟩

theorem growI_safe (hJ : TickStable J) (env : Env) {s : κ} (hs : J s) {o : OBuf} (ho : o.Weak) (n : Int)
    {N : Nat} (hN : (o.oend : Int) - o.obeg + n ≤ N) (hN2 : o.obuf.length ≤ N) :
    ((growI env N : M (κ × OBuf) Unit) (s, o)).Post
      (fun _ p => WeakI J p ∧ (p.2.oend : Int) + n ≤ p.2.obuf.length) (fun _ => WeakI J) := by
  have hp := ho.pos
  have hle := ho.le
  refine bind_poll hJ hs ho ?_
  intro s0 h0
  refine Post.bind_get (s := (s0, o)) ?_
  refine Post.bind_orRaise ⟨h0, ho⟩ ?_
  intro b hb
  have hl := bytesBlit_length hb
  rw [Env.create_length] at hl
  obtain ⟨hnn, -⟩ := blit_le hb
  refine bind_poll hJ h0 ho ?_
  intro s1 h1
  refine Post.bind_modify ?_
  refine bind_poll hJ h1 ⟨by simp only; omega, by simp only; omega⟩ ?_
  intro s2 h2
  refine Post.bind_modify ?_
  refine bind_poll hJ h2 ⟨by simp only; omega, by simp only; omega⟩ ?_
  intro s3 h3
  refine Post.bind_modify ?_
  refine end_poll hJ h3 ⟨by simp only; omega, by simp only; omega⟩ ?_
  intro s4 h4
  exact ⟨⟨h4, by simp only; omega, by simp only; omega⟩, by simp only; omega⟩

theorem ensureCapacityI_safe (hJ : TickStable J) (env : Env) (n : Int) (p : κ × OBuf) (h : WeakI J p) :
    ((ensureCapacityI env n : M (κ × OBuf) Unit) p).Post
      (fun _ p => WeakI J p ∧ (p.2.oend : Int) + n ≤ p.2.obuf.length) (fun _ => WeakI J) := by
  obtain ⟨s, o⟩ := p
  obtain ⟨hs, ho⟩ := h
  simp only at hs ho
  refine bind_poll hJ hs ho ?_
  intro s0 h0
  refine Post.bind_get (s := (s0, o)) ?_
  have hp := ho.pos
  simp only []
  split
  · split
    · next hc => exact compactI_safe hJ h0 ho n hc
    · next hc =>
      obtain ⟨r, hr, h1, h2⟩ := growLoop_spec ((o.oend : Int) - o.obeg + n) (2 * o.obuf.length) (by omega)
      refine Post.bind (Q := fun a p => a = r ∧ p = (s0, o)) ?_ ?_
      · unfold growLoopI; rw [hr]; exact ⟨rfl, rfl⟩
      · rintro a p ⟨rfl, rfl⟩
        refine bind_poll hJ h0 ho ?_
        intro s1 h1'
        split
        · exact ⟨h1', ho⟩
        · next hov =>
          refine growI_safe hJ env h1' ho n ?_ ?_ <;> split <;> omega
  · next hc => exact ⟨⟨h0, ho⟩, by simp only; omega⟩

theorem availableOutputI_safe (hJ : TickStable J) (p : κ × OBuf) (h : WeakI J p) :
    ((availableOutputI : M (κ × OBuf) Int) p).Post (fun _ => WeakI J) (fun _ => WeakI J) := by
  obtain ⟨s, o⟩ := p
  obtain ⟨hs, ho⟩ := h
  refine bind_poll hJ hs ho ?_
  intro s0 h0
  refine Post.bind_get (s := (s0, o)) ?_
  exact bind_poll hJ h0 ho fun s1 h1 => ⟨h1, ho⟩

theorem reset_safe (hJ : TickStable J) {s : κ} (hs : J s) {o : OBuf} (ho : o.Weak) (r : α) :
    ((do
      assign fun o => { o with obeg := 0 }
      poll
      assign fun o => { o with oend := 0 }
      poll
      pure r : M (κ × OBuf) α) (s, o)).Post (fun _ => WeakI J) (fun _ => WeakI J) := by
  refine Post.bind_modify (s := (s, o)) ?_
  refine bind_poll hJ hs ⟨ho.pos, ho.le⟩ ?_
  intro s1 h1
  refine Post.bind_modify ?_
  refine bind_poll hJ h1 ⟨ho.pos, Nat.zero_le _⟩ ?_
  intro s2 h2
  exact ⟨h2, ho.pos, Nat.zero_le _⟩

theorem getSubstringI_safe (hJ : TickStable J) (p : κ × OBuf) (h : WeakI J p) :
    ((getSubstringI : M (κ × OBuf) _) p).Post (fun _ => WeakI J) (fun _ => WeakI J) := by
  obtain ⟨s, o⟩ := p
  obtain ⟨hs, ho⟩ := h
  refine bind_poll hJ hs ho ?_
  intro s0 h0
  refine Post.bind_get (s := (s0, o)) ?_
  refine bind_poll hJ h0 ho ?_
  intro s1 h1
  exact reset_safe hJ h1 ho _

theorem getStringI_safe (hJ : TickStable J) (p : κ × OBuf) (h : WeakI J p) :
    ((getStringI : M (κ × OBuf) _) p).Post (fun _ => WeakI J) (fun _ => WeakI J) := by
  obtain ⟨s, o⟩ := p
  obtain ⟨hs, ho⟩ := h
  refine bind_poll hJ hs ho ?_
  intro s0 h0
  refine Post.bind_get (s := (s0, o)) ?_
  refine Post.bind_orRaise ⟨h0, ho⟩ ?_
  intro r _
  refine bind_poll hJ h0 ho ?_
  intro s1 h1
  exact reset_safe hJ h1 ho _

theorem getCharI_safe (hJ : TickStable J) (p : κ × OBuf) (h : WeakI J p) :
    ((getCharI : M (κ × OBuf) _) p).Post (fun _ => WeakI J) (fun _ => WeakI J) := by
  obtain ⟨s, o⟩ := p
  obtain ⟨hs, ho⟩ := h
  refine bind_poll hJ hs ho ?_
  intro s0 h0
  refine Post.bind_get (s := (s0, o)) ?_
  simp only []
  split
  · exact ⟨h0, ho⟩
  · refine Post.bind_orRaise ⟨h0, ho⟩ ?_
    intro r _
    refine bind_poll hJ h0 ho ?_
    intro s1 h1
    refine Post.bind_modify ?_
    refine bind_poll hJ h1 ⟨ho.pos, ho.le⟩ ?_
    intro s2 h2
    exact ⟨h2, ho.pos, ho.le⟩

theorem getByteI_safe (hJ : TickStable J) (p : κ × OBuf) (h : WeakI J p) :
    ((getByteI : M (κ × OBuf) _) p).Post (fun _ => WeakI J) (fun _ => WeakI J) := by
  refine Post.bind (getCharI_safe hJ p h) ?_
  rintro r ⟨s, o⟩ ⟨hs, ho⟩
  exact bind_poll hJ hs ho fun s1 h1 => ⟨h1, ho⟩

theorem wipeI_safe (hJ : TickStable J) (p : κ × OBuf) (h : WeakI J p) :
    ((wipeI : M (κ × OBuf) _) p).Post (fun _ => WeakI J) (fun _ => WeakI J) := by
  obtain ⟨s, o⟩ := p
  obtain ⟨hs, ho⟩ := h
  refine bind_poll hJ hs ho ?_
  intro s0 h0
  refine Post.bind_modify ?_
  have hw : OBuf.Weak { o with obuf := wipeBytes o.obuf } := ⟨by simpa using ho.pos, by simpa using ho.le⟩
  exact end_poll hJ h0 hw fun s1 h1 => ⟨h1, hw⟩

end OBuf

/-! ### Block ciphers and chaining modes -/

variable {σ : Type} [Ticking σ]

/-- From every state satisfying `I`, on legal arguments, the cipher returns or raises an exception. -/
structure ISafeBlock (c : BlockCipher σ) (I : σ → Prop) : Prop where
  pos : 0 < c.blocksize
  stable : TickStable I
  run : ∀ {s} {src : Src} {so dofs : Nat} {dst : Bytes}, I s →
    so + c.blocksize ≤ (src.read dst).length → dofs + c.blocksize ≤ dst.length →
    (c.transform src so dofs (s, dst)).Post
      (fun _ p => I p.1 ∧ p.2.length = dst.length) (fun _ p => I p.1 ∧ p.2.length = dst.length)

theorem SafeBlock.atomic {τ : Type} {c : BlockCipher τ} {I : τ → Prop} (h : SafeBlock c I) :
    ISafeBlock c.atomic (fun p => I p.2) where
  pos := h.pos
  stable _ hi := hi
  run {s src so dofs dst} hi hs hd :=
    Post.zoom (get := fun p : (Sched × τ) × Bytes => (p.1.2, p.2)) (set := fun r p => ((p.1.1, r.1), r.2))
      (t := (s, dst)) (h.run (s := s.2) (dst := dst) hi hs hd) (fun _ _ x => x) fun _ _ x => x.2

theorem ModeSafe.stable {I : σ → Prop} (h : TickStable I) (n : Nat) : TickStable (ModeSafe I n) :=
  fun _ hi => ⟨h _ hi.1, hi.2⟩

/-- Exceptions of a mode. -/
abbrev IModeE (I : σ → Prop) (n : Nat) (d : Nat) (_ : Exn) (p : ModeSt σ × Bytes) : Prop :=
  ModeSafe I n p.1 ∧ p.2.length = d

section modes

variable {c : BlockCipher σ} {I : σ → Prop}

/-- A point inside of a mode: only the state of the cipher changes. -/
theorem mode_poll (hI : TickStable I) {st : ModeSt σ} {dst : Bytes} {n d : Nat}
    {k : Unit → M (ModeSt σ × Bytes) β} {R : β → ModeSt σ × Bytes → Prop}
    (hi : ModeSafe I n st) (hl : dst.length = d)
    (hk : ∀ s', I s' → ModeSafe I n { st with c := s' } →
      (k () ({ st with c := s' }, dst)).Post R (IModeE I n d)) :
    ((poll >>= k) (st, dst)).Post R (IModeE I n d) :=
  Post.bind_poll (P := fun t => I t.1.c ∧ t = ({ st with c := t.1.c }, dst)) ⟨hI _ hi.1, rfl⟩
    (by rintro e ⟨⟨s', iv, aux⟩, d'⟩ ⟨h1, h2⟩; cases h2; exact ⟨⟨h1, hi.2⟩, hl⟩)
    (by rintro ⟨⟨s', iv, aux⟩, d'⟩ ⟨h1, h2⟩; cases h2; exact hk _ h1 ⟨h1, hi.2⟩)

theorem mode_end (hI : TickStable I) {st : ModeSt σ} {dst : Bytes} {n d : Nat}
    (hi : ModeSafe I n st) (hl : dst.length = d) :
    ((poll : M (ModeSt σ × Bytes) Unit) (st, dst)).Post
      (fun _ p => ModeSafe I n p.1 ∧ p.2.length = d) (IModeE I n d) :=
  Post.poll (P := fun t => ModeSafe I n t.1 ∧ t.2.length = d) ⟨⟨hI _ hi.1, hi.2⟩, hl⟩
    (fun _ _ x => x) fun _ x => x

theorem callDstI_safe (h : ISafeBlock c I) {src : Src} {so dofs : Nat} {p : ModeSt σ × Bytes} {n d : Nat}
    (hp : ModeSafe I n p.1) (hl : p.2.length = d)
    (hs : so + c.blocksize ≤ (src.read p.2).length) (hd : dofs + c.blocksize ≤ p.2.length) :
    (ModeSt.callDst c src so dofs p).Post
      (fun _ q => ModeSafe I n q.1 ∧ q.2.length = d) (IModeE I n d) :=
  Post.zoom (h.run hp.1 hs hd) (fun _ _ x => ⟨⟨x.1, hp.2⟩, x.2.trans hl⟩)
    fun _ _ x => ⟨⟨x.1, hp.2⟩, x.2.trans hl⟩

theorem callAuxI_safe (h : ISafeBlock c I) {p : ModeSt σ × Bytes} {d : Nat}
    (hp : ModeSafe I c.blocksize p.1) (hl : p.2.length = d) {b : Bytes} (hb : b.length = c.blocksize) :
    (ModeSt.callAux c (.other b) 0 0 p).Post
      (fun _ q => ModeSafe I c.blocksize q.1 ∧ q.2 = p.2) (IModeE I c.blocksize d) :=
  Post.zoom (h.run (src := .other b) (so := 0) (dofs := 0) hp.1
      (by simp only [Src.read]; omega) (by rw [hp.2.2]; omega))
    (fun _ _ x => ⟨⟨x.1, hp.2.1, x.2.trans hp.2.2⟩, rfl⟩)
    fun _ _ x => ⟨⟨x.1, hp.2.1, x.2.trans hp.2.2⟩, hl⟩

theorem callIvI_safe (h : ISafeBlock c I) {p : ModeSt σ × Bytes} {d : Nat}
    (hp : ModeSafe I c.blocksize p.1) (hl : p.2.length = d) :
    (ModeSt.callIv c .self 0 0 p).Post
      (fun _ q => ModeSafe I c.blocksize q.1 ∧ q.2 = p.2) (IModeE I c.blocksize d) :=
  Post.zoom (h.run (src := .self) (so := 0) (dofs := 0) hp.1
      (by simp only [Src.read]; rw [hp.2.1]; omega) (by rw [hp.2.1]; omega))
    (fun _ _ x => ⟨⟨x.1, x.2.trans hp.2.1, hp.2.2⟩, rfl⟩)
    fun _ _ x => ⟨⟨x.1, x.2.trans hp.2.1, hp.2.2⟩, hl⟩

theorem cbcEncryptI_safe (h : ISafeBlock c I) :
    ISafeBlock (cbcEncryptI c) (ModeSafe I c.blocksize) := by
  refine ⟨h.pos, ModeSafe.stable h.stable _, ?_⟩
  intro st src so dofs dst hi hs hd
  change so + c.blocksize ≤ _ at hs
  change dofs + c.blocksize ≤ _ at hd
  refine mode_poll (d := dst.length) h.stable hi rfl ?_
  intro s0 _ hi
  refine Post.bind_get (s := ({ st with c := s0 }, dst)) ?_
  obtain ⟨iv, h1, l1⟩ := xorC_iv_some hs hi.2.1
  refine Post.bind_orUB h1 ?_
  refine Post.bind_modify ?_
  refine mode_poll h.stable ⟨hi.1, l1, hi.2.2⟩ rfl ?_
  intro s1 _ hi
  refine Post.bind (callDstI_safe h (src := .other iv) (so := 0) (n := c.blocksize) hi rfl
    (by simp only [Src.read]; omega) hd) ?_
  rintro - ⟨st2, dst2⟩ ⟨g1, g2⟩
  refine mode_poll h.stable g1 g2 ?_
  intro s2 _ g1
  refine Post.bind_get ?_
  obtain ⟨r, hb, hl⟩ := blit_some (src := dst2) (so := dofs) (dst := st2.iv) (dofs := 0) (n := c.blocksize)
    (by simp only at g2; omega) (by have := g1.2.1; simp only at this; omega)
  rw [Int.natCast_zero] at hb
  refine Post.bind_orRaise_some hb ?_
  refine Post.bind_modify ?_
  exact mode_end h.stable ⟨g1.1, hl.trans g1.2.1, g1.2.2⟩ g2

theorem cbcDecryptI_safe (h : ISafeBlock c I) :
    ISafeBlock (cbcDecryptI c) (ModeSafe I c.blocksize) := by
  refine ⟨h.pos, ModeSafe.stable h.stable _, ?_⟩
  intro st src so dofs dst hi hs hd
  change so + c.blocksize ≤ _ at hs
  change dofs + c.blocksize ≤ _ at hd
  refine mode_poll (d := dst.length) h.stable hi rfl ?_
  intro s0 _ hi
  refine Post.bind_get (s := ({ st with c := s0 }, dst)) ?_
  obtain ⟨aux, hb, hl⟩ := blit_some (src := src.read dst) (so := so) (dst := st.aux) (dofs := 0)
    (n := c.blocksize) hs (by have := hi.2.2; simp only at this; omega)
  rw [Int.natCast_zero] at hb
  refine Post.bind_orRaise_some hb ?_
  refine Post.bind_modify ?_
  refine mode_poll h.stable ⟨hi.1, hi.2.1, hl.trans hi.2.2⟩ rfl ?_
  intro s1 _ hi
  refine Post.bind (callDstI_safe h (src := src) (so := so) (n := c.blocksize) hi rfl hs hd) ?_
  rintro - ⟨st2, dst2⟩ ⟨g1, g2⟩
  refine mode_poll h.stable g1 g2 ?_
  intro s2 _ g1
  refine Post.bind_get ?_
  obtain ⟨dst3, x1, x2⟩ := xorC_dst_some (x := st2.iv) (dst := dst2) (dofs := dofs) (n := c.blocksize)
    (by have := g1.2.1; simp only at this; omega) (by simp only at g2; omega)
  refine Post.bind_orUB x1 ?_
  refine Post.bind_modify ?_
  refine mode_poll h.stable g1 (x2.trans g2) ?_
  intro s3 _ g1
  refine Post.bind_get ?_
  obtain ⟨r, hb2, hl2⟩ := blit_some (src := st2.aux) (so := 0) (dst := st2.iv) (dofs := 0) (n := c.blocksize)
    (by have := g1.2.2; simp only at this; omega) (by have := g1.2.1; simp only at this; omega)
  rw [Int.natCast_zero] at hb2
  refine Post.bind_orRaise_some hb2 ?_
  refine Post.bind_modify ?_
  exact mode_end h.stable ⟨g1.1, hl2.trans g1.2.1, g1.2.2⟩ (x2.trans g2)

theorem cfbEncryptI_safe (h : ISafeBlock c I) {n : Nat} (hn : 0 < n) (hle : n ≤ c.blocksize) :
    ISafeBlock (cfbEncryptI n c) (ModeSafe I c.blocksize) := by
  refine ⟨hn, ModeSafe.stable h.stable _, ?_⟩
  intro st src so dofs dst hi hs hd
  change so + n ≤ _ at hs
  change dofs + n ≤ _ at hd
  refine mode_poll (d := dst.length) h.stable hi rfl ?_
  intro s0 _ hi
  refine Post.bind_get (s := ({ st with c := s0 }, dst)) ?_
  refine Post.bind (callAuxI_safe h (p := ({ st with c := s0 }, dst)) hi rfl (b := st.iv) hi.2.1) ?_
  rintro - ⟨st2, dst2⟩ ⟨g1, g2⟩
  simp only at g1 g2
  subst g2
  refine mode_poll h.stable g1 rfl ?_
  intro s1 _ g1
  refine Post.bind_get ?_
  obtain ⟨d1, b1, l1⟩ := blit_some hs hd
  refine Post.bind_orRaise_some b1 ?_
  refine Post.bind_modify ?_
  refine mode_poll h.stable g1 l1 ?_
  intro s2 _ g1
  have gi := g1.2.1
  have ga := g1.2.2
  simp only at gi ga
  refine Post.bind_get ?_
  obtain ⟨d2, b2, l2⟩ := xorC_dst_some (x := st2.aux) (dst := d1) (dofs := dofs) (n := n)
    (by omega) (by omega)
  refine Post.bind_orUB b2 ?_
  refine Post.bind_modify ?_
  refine mode_poll h.stable g1 (l2.trans l1) ?_
  intro s3 _ g1
  refine Post.bind_get ?_
  obtain ⟨i1, b3, l3⟩ := blit_some (src := st2.iv) (so := n) (dst := st2.iv) (dofs := 0)
    (n := c.blocksize - n) (by omega) (by omega)
  rw [Int.natCast_zero, Int.ofNat_sub hle] at b3
  refine Post.bind_orRaise_some b3 ?_
  refine Post.bind_modify ?_
  refine mode_poll h.stable ⟨g1.1, l3.trans gi, ga⟩ (l2.trans l1) ?_
  intro s4 _ g1
  refine Post.bind_get ?_
  obtain ⟨i2, b4, l4⟩ := blit_some (src := d2) (so := dofs) (dst := i1) (dofs := c.blocksize - n)
    (n := n) (by omega) (by omega)
  rw [Int.ofNat_sub hle] at b4
  refine Post.bind_orRaise_some b4 ?_
  refine Post.bind_modify ?_
  exact mode_end h.stable ⟨g1.1, (l4.trans l3).trans gi, ga⟩ (l2.trans l1)

theorem cfbDecryptI_safe (h : ISafeBlock c I) {n : Nat} (hn : 0 < n) (hle : n ≤ c.blocksize) :
    ISafeBlock (cfbDecryptI n c) (ModeSafe I c.blocksize) := by
  refine ⟨hn, ModeSafe.stable h.stable _, ?_⟩
  intro st src so dofs dst hi hs hd
  change so + n ≤ _ at hs
  change dofs + n ≤ _ at hd
  refine mode_poll (d := dst.length) h.stable hi rfl ?_
  intro s0 _ hi
  refine Post.bind_get (s := ({ st with c := s0 }, dst)) ?_
  refine Post.bind (callAuxI_safe h (p := ({ st with c := s0 }, dst)) hi rfl (b := st.iv) hi.2.1) ?_
  rintro - ⟨st2, dst2⟩ ⟨g1, g2⟩
  simp only at g1 g2
  subst g2
  refine mode_poll h.stable g1 rfl ?_
  intro s1 _ g1
  have gi := g1.2.1
  have ga := g1.2.2
  simp only at gi ga
  refine Post.bind_get ?_
  obtain ⟨i1, b3, l3⟩ := blit_some (src := st2.iv) (so := n) (dst := st2.iv) (dofs := 0)
    (n := c.blocksize - n) (by omega) (by omega)
  rw [Int.natCast_zero, Int.ofNat_sub hle] at b3
  refine Post.bind_orRaise_some b3 ?_
  refine Post.bind_modify ?_
  refine mode_poll h.stable ⟨g1.1, l3.trans gi, ga⟩ rfl ?_
  intro s2 _ g1
  refine Post.bind_get ?_
  obtain ⟨i2, b4, l4⟩ := blit_some (src := src.read dst2) (so := so) (dst := i1)
    (dofs := c.blocksize - n) (n := n) (by omega) (by omega)
  rw [Int.ofNat_sub hle] at b4
  refine Post.bind_orRaise_some b4 ?_
  refine Post.bind_modify ?_
  refine mode_poll h.stable ⟨g1.1, (l4.trans l3).trans gi, ga⟩ rfl ?_
  intro s3 _ g1
  refine Post.bind_get ?_
  obtain ⟨d1, b1, l1⟩ := blit_some hs hd
  refine Post.bind_orRaise_some b1 ?_
  refine Post.bind_modify ?_
  refine mode_poll h.stable g1 l1 ?_
  intro s4 _ g1
  refine Post.bind_get ?_
  obtain ⟨d2, b2, l2⟩ := xorC_dst_some (x := st2.aux) (dst := d1) (dofs := dofs) (n := n)
    (by omega) (by omega)
  refine Post.bind_orUB b2 ?_
  refine Post.bind_modify ?_
  exact mode_end h.stable g1 (l2.trans l1)

theorem ofbI_safe (h : ISafeBlock c I) {n : Nat} (hn : 0 < n) (hle : n ≤ c.blocksize) :
    ISafeBlock (ofbI n c) (ModeSafe I c.blocksize) := by
  refine ⟨hn, ModeSafe.stable h.stable _, ?_⟩
  intro st src so dofs dst hi hs hd
  change so + n ≤ _ at hs
  change dofs + n ≤ _ at hd
  refine mode_poll (d := dst.length) h.stable hi rfl ?_
  intro s0 _ hi
  refine Post.bind (callIvI_safe h (p := ({ st with c := s0 }, dst)) hi rfl) ?_
  rintro - ⟨st2, dst2⟩ ⟨g1, g2⟩
  simp only at g1 g2
  subst g2
  refine mode_poll h.stable g1 rfl ?_
  intro s1 _ g1
  refine Post.bind_get ?_
  obtain ⟨d1, b1, l1⟩ := blit_some hs hd
  refine Post.bind_orRaise_some b1 ?_
  refine Post.bind_modify ?_
  refine mode_poll h.stable g1 l1 ?_
  intro s2 _ g1
  have gi := g1.2.1
  simp only at gi
  refine Post.bind_get ?_
  obtain ⟨d2, b2, l2⟩ := xorC_dst_some (x := st2.iv) (dst := d1) (dofs := dofs) (n := n)
    (by omega) (by omega)
  refine Post.bind_orUB b2 ?_
  refine Post.bind_modify ?_
  exact mode_end h.stable g1 (l2.trans l1)

theorem incrementCounterI_safe (hI : TickStable I) (lim : Nat) {n d : Nat} :
    ∀ (pos : Nat) (st : ModeSt σ) (dst : Bytes), pos ≤ n → ModeSafe I n st → dst.length = d →
      (incrementCounterI lim pos (st, dst)).Post (fun _ p => ModeSafe I n p.1 ∧ p.2.length = d)
        (IModeE I n d)
  | 0, _, _, _, h, hl => ⟨h, hl⟩
  | pos + 1, st, dst, hp, h, hl => by
    unfold incrementCounterI
    split
    · refine Post.bind_get (s := (st, dst)) ?_
      have hg : st.iv[pos]? = some (st.iv[pos]'(by have := h.2.1; omega)) :=
        List.getElem?_eq_getElem (by have := h.2.1; omega)
      refine Post.bind_orRaise_some hg ?_
      refine Post.bind_modify ?_
      have h' : ModeSafe I n { st with iv := st.iv.set pos (BitVec.ofNat 8
          (1 + (st.iv[pos]'(by have := h.2.1; omega)).toNat)) } :=
        ⟨h.1, by simpa using h.2.1, h.2.2⟩
      split
      · refine mode_poll hI h' hl ?_
        intro s' _ g
        exact incrementCounterI_safe hI lim pos _ dst (by omega) g hl
      · exact ⟨h', hl⟩
    · exact ⟨h, hl⟩

theorem ctrI_safe (h : ISafeBlock c I) (nincr : Nat) :
    ISafeBlock (ctrI nincr c) (CtrSafe I c.blocksize) := by
  have hst : TickStable (CtrSafe I c.blocksize) := fun _ hi => ⟨h.stable _ hi.1, hi.2⟩
  refine ⟨h.pos, hst, ?_⟩
  intro st src so dofs dst hi hs hd
  change so + c.blocksize ≤ _ at hs
  change dofs + c.blocksize ≤ _ at hd
  have hi' : ModeSafe I c.blocksize st.m := hi
  refine Post.bind (Q := fun _ (p : CtrSt σ × Bytes) => CtrSafe I c.blocksize p.1 ∧ p.2.length = dst.length)
    (Post.zoom (Q := fun _ (p : ModeSt σ × Bytes) => ModeSafe I c.blocksize p.1 ∧ p.2.length = dst.length)
      (E := IModeE I c.blocksize dst.length) ?_ (fun _ _ x => x) (fun _ _ x => x)) ?_
  · refine mode_poll (d := dst.length) h.stable hi' rfl ?_
    intro s0 _ hi
    refine Post.bind_get (s := ({ st.m with c := s0 }, dst)) ?_
    refine Post.bind (callAuxI_safe h (p := ({ st.m with c := s0 }, dst)) hi rfl (b := st.m.iv) hi.2.1) ?_
    rintro - ⟨st2, dst2⟩ ⟨g1, g2⟩
    simp only at g1 g2
    subst g2
    refine mode_poll h.stable g1 rfl ?_
    intro s1 _ g1
    refine Post.bind_get ?_
    obtain ⟨d1, b1, l1⟩ := blit_some hs hd
    refine Post.bind_orRaise_some b1 ?_
    refine Post.bind_modify ?_
    refine mode_poll h.stable g1 l1 ?_
    intro s2 _ g1
    have gi := g1.2.1
    have ga := g1.2.2
    simp only at gi ga
    refine Post.bind_get ?_
    obtain ⟨d2, b2, l2⟩ := xorC_dst_some (x := st2.aux) (dst := d1) (dofs := dofs) (n := c.blocksize)
      (by omega) (by omega)
    refine Post.bind_orUB b2 ?_
    refine Post.bind_modify ?_
    refine mode_poll h.stable g1 (l2.trans l1) ?_
    intro s3 _ g1
    refine Post.bind (incrementCounterI_safe h.stable (c.blocksize - nincr) c.blocksize _ _ (Nat.le_refl _) g1
      (l2.trans l1)) ?_
    rintro - ⟨st3, dst3⟩ ⟨g2, g3⟩
    exact mode_end h.stable g2 g3
  · rintro - ⟨st2, dst2⟩ ⟨g1, g2⟩
    refine Post.bind_get (s := (st2, dst2)) ?_
    simp only []
    split
    · exact ⟨g1, g2⟩
    · refine Post.bind_modify ?_
      exact Post.poll (P := fun t => CtrSafe I c.blocksize t.1 ∧ t.2.length = dst.length)
        ⟨hst _ g1, g2⟩ (fun _ _ x => x) fun _ x => x

end modes

/-! ### `Block.cipher` and its variants -/

section cipher

open CipherSt

variable {c : BlockCipher σ} {I : σ → Prop}

/-- Invariant of an interrupted `Block.cipher`. -/
structure ICipherSafe (c : BlockCipher σ) (I : σ → Prop) (t : CipherSt σ) : Prop where
  cst : I t.c
  ibuf : t.ibuf.length = c.blocksize
  used : t.used ≤ c.blocksize
  ob : t.ob.Weak

abbrev ICipherE (c : BlockCipher σ) (I : σ → Prop) : Exn → CipherSt σ → Prop := fun _ => ICipherSafe c I

/-- A point inside of a method. -/
theorem cipher_poll (hI : TickStable I) {t : CipherSt σ} {k : Unit → M (CipherSt σ) β}
    {R : β → CipherSt σ → Prop} (ht : ICipherSafe c I t)
    (hk : ∀ s', ICipherSafe c I { t with c := s' } → (k () { t with c := s' }).Post R (ICipherE c I)) :
    ((poll >>= k) t).Post R (ICipherE c I) :=
  Post.bind_poll (P := fun u => I u.c ∧ u = { t with c := u.c }) ⟨hI _ ht.cst, rfl⟩
    (by rintro e ⟨a, b, u, o⟩ ⟨h1, h2⟩; cases h2; exact ⟨h1, ht.ibuf, ht.used, ht.ob⟩)
    (by rintro ⟨a, b, u, o⟩ ⟨h1, h2⟩; cases h2; exact hk _ ⟨h1, ht.ibuf, ht.used, ht.ob⟩)

theorem cipher_end (hI : TickStable I) {t : CipherSt σ} (ht : ICipherSafe c I t) :
    ((poll : M (CipherSt σ) Unit) t).Post (fun _ t' => ICipherSafe c I t' ∧ t'.used = t.used)
      (ICipherE c I) :=
  Post.poll (P := fun u => ICipherSafe c I u ∧ u.used = t.used)
    ⟨⟨hI _ ht.cst, ht.ibuf, ht.used, ht.ob⟩, rfl⟩ (fun _ _ x => x.1) fun _ x => x

theorem onBufI_safe {t : CipherSt σ} {m : M (σ × OBuf) α} {Q : α → σ × OBuf → Prop}
    (ht : ICipherSafe c I t) (hm : (m (t.c, t.ob)).Post Q (fun _ => OBuf.WeakI I)) :
    (onBufI m t).Post (fun a t' => t'.ibuf = t.ibuf ∧ t'.used = t.used ∧ Q a (t'.c, t'.ob)) (ICipherE c I) :=
  Post.zoom hm (fun _ _ x => ⟨rfl, rfl, x⟩) fun _ _ x => ⟨x.1, ht.ibuf, ht.used, x.2⟩

theorem onBufI_safe' {t : CipherSt σ} {m : M (σ × OBuf) α}
    (ht : ICipherSafe c I t) (hm : (m (t.c, t.ob)).Post (fun _ => OBuf.WeakI I) (fun _ => OBuf.WeakI I)) :
    (onBufI m t).Post (fun _ => ICipherSafe c I) (ICipherE c I) :=
  Post.zoom hm (fun _ _ x => ⟨x.1, ht.ibuf, ht.used, x.2⟩) fun _ _ x => ⟨x.1, ht.ibuf, ht.used, x.2⟩

/-- There is room for one block. -/
abbrev Room (c : BlockCipher σ) (t : CipherSt σ) : Prop := t.ob.oend + c.blocksize ≤ t.ob.obuf.length

theorem callOutI_safe (h : ISafeBlock c I) (t : CipherSt σ) (ht : ICipherSafe c I t) (hr : Room c t) :
    (callOut c t).Post (fun _ t' => ICipherSafe c I t' ∧ t'.used = t.used ∧ Room c t') (ICipherE c I) := by
  have hx := h.run (src := .other t.ibuf) (so := 0) (dofs := t.ob.oend) (dst := t.ob.obuf) ht.cst
    (by simp only [Src.read]; have := ht.ibuf; omega) hr
  unfold callOut
  rw [Int.natCast_zero] at hx
  have hp := ht.ob.pos
  have hle := ht.ob.le
  cases hc : c.transform (.other t.ibuf) 0 t.ob.oend (t.c, t.ob.obuf) with
  | ok a p =>
    rw [hc] at hx
    have hl := hx.2
    exact ⟨⟨hx.1, ht.ibuf, ht.used, by simp only; omega, by simp only; omega⟩, rfl, by
      simp only [Room] at hr ⊢; omega⟩
  | exn e p =>
    rw [hc] at hx
    have hl := hx.2
    exact ⟨hx.1, ht.ibuf, ht.used, by simp only; omega, by simp only; omega⟩
  | ub => rw [hc] at hx; exact hx.elim
  | loop => rw [hc] at hx; exact hx.elim

theorem ensureI_safe (h : ISafeBlock c I) (env : Env) (t : CipherSt σ) (ht : ICipherSafe c I t) (n : Nat) :
    (onBufI (OBuf.ensureCapacityI env n) t).Post (fun _ t' => ICipherSafe c I t' ∧ t'.used = t.used
      ∧ t'.ob.oend + n ≤ t'.ob.obuf.length) (ICipherE c I) :=
  Post.mono (onBufI_safe ht (OBuf.ensureCapacityI_safe h.stable env n (t.c, t.ob) ⟨ht.cst, ht.ob⟩))
    (fun _ t' x => ⟨⟨x.2.2.1.1, x.1 ▸ ht.ibuf, x.2.1 ▸ ht.used, x.2.2.1.2⟩, x.2.1, by
      have := x.2.2.2; simp only at this; omega⟩) fun _ _ x => x

theorem pushBlockI_safe (h : ISafeBlock c I) (env : Env) (t : CipherSt σ) (ht : ICipherSafe c I t) :
    (pushBlockI env c t).Post (fun _ t' => ICipherSafe c I t' ∧ t'.used = t.used) (ICipherE c I) := by
  refine Post.bind (ensureI_safe h env t ht _) ?_
  rintro - t1 ⟨h1, hu, hcap⟩
  refine cipher_poll h.stable h1 ?_
  intro s1 h1
  refine Post.bind (callOutI_safe h _ h1 hcap) ?_
  rintro - t2 ⟨h2, hu2, hcap2⟩
  refine cipher_poll h.stable h2 ?_
  intro s2 h2
  refine Post.bind_modify ?_
  exact Post.mono (cipher_end h.stable ⟨h2.cst, h2.ibuf, h2.used, h2.ob.pos, hcap2⟩)
    (fun _ _ x => ⟨x.1, x.2.trans (hu2.trans hu)⟩) fun _ _ x => x

theorem pushResetI_safe (h : ISafeBlock c I) (env : Env) (t : CipherSt σ) (ht : ICipherSafe c I t) :
    (pushResetI env c t).Post (fun _ t' => ICipherSafe c I t' ∧ t'.used = 0) (ICipherE c I) := by
  refine Post.bind (pushBlockI_safe h env t ht) ?_
  rintro - t1 ⟨h1, -⟩
  refine Post.bind_modify ?_
  exact cipher_end h.stable ⟨h1.cst, h1.ibuf, Nat.zero_le _, h1.ob⟩

theorem cipherPutSubstringI_safe (h : ISafeBlock c I) (env : Env) (src : Bytes) (ofs len : Int)
    (t : CipherSt σ) (ht : ICipherSafe c I t) :
    (cipherPutSubstringI env c src ofs len t).Post (fun _ => ICipherSafe c I) (ICipherE c I) := by
  induction hk : len.toNat * 2 + (if t.used = 0 then 0 else 1) using Nat.strongRecOn
    generalizing ofs len t with
  | _ k ih =>
    have hbs := h.pos
    have hu := ht.used
    rw [cipherPutSubstringI]
    split
    · exact Post.mono (cipher_end h.stable ht) (fun _ _ x => x.1) fun _ _ x => x
    · next hl =>
      split
      · next hfit =>
        refine cipher_poll h.stable ht ?_
        intro s1 h1
        refine Post.bind_get ?_
        refine Post.bind_orRaise h1 ?_
        intro ib hb
        refine Post.bind_modify ?_
        refine cipher_poll h.stable ⟨h1.cst, (bytesBlit_length hb).trans h1.ibuf, h1.used, h1.ob⟩ ?_
        intro s2 h2
        refine Post.bind_modify ?_
        exact Post.mono (cipher_end h.stable ⟨h2.cst, h2.ibuf, by simp only; omega, h2.ob⟩)
          (fun _ _ x => x.1) fun _ _ x => x
      · next hfit =>
        simp only []
        split
        · exact cipher_poll h.stable ht fun s1 h1 => h1
        · next ib hb =>
          have hp : ((do
              poll
              M.modify fun st => { st with ibuf := ib }
              poll
              pushResetI env c : M (CipherSt σ) Unit) t).Post
              (fun _ t' => ICipherSafe c I t' ∧ t'.used = 0) (ICipherE c I) := by
            refine cipher_poll h.stable ht ?_
            intro s1 h1
            refine Post.bind_modify ?_
            refine cipher_poll h.stable ⟨h1.cst, (bytesBlit_length hb).trans h1.ibuf, h1.used, h1.ob⟩ ?_
            intro s2 h2
            exact pushResetI_safe h env _ h2
          split
          · next t' hc =>
            rw [hc] at hp
            rw [dif_neg (by have := hp.2; omega)]
            refine ih _ ?_ _ _ t' hp.1 rfl
            have := bytesBlit_len_nonneg hb
            rw [if_pos hp.2, Nat.add_zero]; subst hk; split <;> omega
          · next hc => rw [hc] at hp; exact hp
          · next hc => rw [hc] at hp; exact hp.elim
          · next hc => rw [hc] at hp; exact hp.elim

theorem cipherPutCharI_safe (h : ISafeBlock c I) (env : Env) (ch : Byte) (t : CipherSt σ)
    (ht : ICipherSafe c I t) :
    (cipherPutCharI env c ch t).Post (fun _ => ICipherSafe c I) (ICipherE c I) := by
  have hbs := h.pos
  refine cipher_poll h.stable ht ?_
  intro s0 h0
  refine Post.bind_get ?_
  simp only []
  split
  · next hlt =>
    refine Post.bind_orRaise h0 ?_
    intro ib hb
    refine Post.bind_modify ?_
    refine cipher_poll h.stable ⟨h0.cst, (bytesSet_length hb).trans h0.ibuf, h0.used, h0.ob⟩ ?_
    intro s1 h1
    refine Post.bind_modify ?_
    exact Post.mono (cipher_end h.stable ⟨h1.cst, h1.ibuf, by simp only; omega, h1.ob⟩)
      (fun _ _ x => x.1) fun _ _ x => x
  · refine Post.bind (pushBlockI_safe h env _ h0) ?_
    rintro - t1 ⟨h1, -⟩
    refine Post.bind_get ?_
    refine Post.bind_orRaise h1 ?_
    intro ib hb
    refine Post.bind_modify ?_
    refine cipher_poll h.stable ⟨h1.cst, (bytesSet_length hb).trans h1.ibuf, h1.used, h1.ob⟩ ?_
    intro s1 h1
    refine Post.bind_modify ?_
    exact Post.mono (cipher_end h.stable ⟨h1.cst, h1.ibuf, by simp only; omega, h1.ob⟩)
      (fun _ _ x => x.1) fun _ _ x => x

theorem cipherFlushI_safe (h : ISafeBlock c I) (env : Env) (t : CipherSt σ) (ht : ICipherSafe c I t) :
    (cipherFlushI env c t).Post (fun _ => ICipherSafe c I) (ICipherE c I) := by
  refine cipher_poll h.stable ht ?_
  intro s0 h0
  refine Post.bind_get ?_
  simp only []
  split
  · exact h0
  · split
    · refine Post.bind (ensureI_safe h env _ h0 _) ?_
      rintro - t1 ⟨h1, -, hcap⟩
      refine cipher_poll h.stable h1 ?_
      intro s1 h1
      refine Post.bind (callOutI_safe h _ h1 hcap) ?_
      rintro - t2 ⟨h2, -, hcap2⟩
      refine cipher_poll h.stable h2 ?_
      intro s2 h2
      refine Post.bind_modify ?_
      refine cipher_poll h.stable ⟨h2.cst, h2.ibuf, Nat.zero_le _, h2.ob⟩ ?_
      intro s3 h3
      refine Post.bind_modify ?_
      exact Post.mono (cipher_end h.stable ⟨h3.cst, h3.ibuf, h3.used, h3.ob.pos, hcap2⟩)
        (fun _ _ x => x.1) fun _ _ x => x
    · exact h0

theorem cipherWipeI_safe (hI : TickStable I) (hw : BWipeSafe c I) (t : CipherSt σ)
    (ht : ICipherSafe c I t) :
    (cipherWipeI c t).Post (fun _ => ICipherSafe c I) (ICipherE c I) := by
  refine cipher_poll hI ht ?_
  intro s0 h0
  refine Post.bind_modify ?_
  refine cipher_poll hI ⟨hw _ h0.cst, h0.ibuf, h0.used, h0.ob⟩ ?_
  intro s1 h1
  refine Post.bind (onBufI_safe' h1 (OBuf.wipeI_safe hI _ ⟨h1.cst, h1.ob⟩)) ?_
  rintro - t2 h2
  refine cipher_poll hI h2 ?_
  intro s3 h3
  refine Post.bind_modify ?_
  exact Post.mono (cipher_end hI ⟨h3.cst, by simpa using h3.ibuf, h3.used, h3.ob⟩)
    (fun _ _ x => x.1) fun _ _ x => x

theorem blockTransformI_safe (h : ISafeBlock c I) (env : Env) :
    TSafe (blockTransformI env c) (ICipherSafe c I) where
  putSubstring b ofs len t ht := cipherPutSubstringI_safe h env b ofs len t ht
  putString s t ht := cipherPutSubstringI_safe h env s 0 s.length t ht
  putChar ch t ht := cipherPutCharI_safe h env ch t ht
  putByte b t ht := cipherPutCharI_safe h env _ t ht
  availableOutput t ht := onBufI_safe' ht (OBuf.availableOutputI_safe h.stable _ ⟨ht.cst, ht.ob⟩)
  getString t ht := onBufI_safe' ht (OBuf.getStringI_safe h.stable _ ⟨ht.cst, ht.ob⟩)
  getSubstring t ht := onBufI_safe' ht (OBuf.getSubstringI_safe h.stable _ ⟨ht.cst, ht.ob⟩)
  getChar t ht := onBufI_safe' ht (OBuf.getCharI_safe h.stable _ ⟨ht.cst, ht.ob⟩)
  getByte t ht := onBufI_safe' ht (OBuf.getByteI_safe h.stable _ ⟨ht.cst, ht.ob⟩)

theorem padPushI_safe (h : ISafeBlock c I) (env : Env) {p : PadScheme} (hp : PadKeeps p) (t : CipherSt σ)
    (ht : ICipherSafe c I t) : (padPushI env p c t).Post (fun _ => ICipherSafe c I) (ICipherE c I) := by
  refine Post.bind_get ?_
  refine Post.bind_ofExcept (fun _ _ => ht) ?_
  intro ib hb
  refine Post.bind_modify ?_
  refine cipher_poll h.stable ⟨ht.cst, (hp _ _ _ hb).trans ht.ibuf, ht.used, ht.ob⟩ ?_
  intro s1 h1
  exact Post.mono (pushBlockI_safe h env _ h1) (fun _ _ x => x.1) fun _ _ x => x

theorem paddedEncryptI_fin (h : ISafeBlock c I) (env : Env) {p : PadScheme} (hp : PadKeeps p) :
    TFinSafe (paddedEncryptI env p c) (ICipherSafe c I) := by
  refine ⟨cipherFlushI_safe h env, ?_⟩
  intro t ht
  refine cipher_poll h.stable ht ?_
  intro s0 h0
  refine Post.bind_get ?_
  simp only []
  split
  · refine Post.bind (pushResetI_safe h env _ h0) ?_
    rintro - t1 ⟨h1, -⟩
    exact padPushI_safe h env hp _ h1
  · exact padPushI_safe h env hp _ h0

theorem paddedDecryptI_fin (h : ISafeBlock c I) (env : Env) (p : PadScheme) :
    TFinSafe (paddedDecryptI env p c) (ICipherSafe c I) := by
  refine ⟨cipherFlushI_safe h env, ?_⟩
  intro t ht
  refine cipher_poll h.stable ht ?_
  intro s0 h0
  refine Post.bind_get ?_
  by_cases hu : t.used ≠ c.blocksize
  · rw [if_pos hu]
    exact h0
  · rw [if_neg hu]
    refine Post.bind (Q := fun _ => ICipherSafe c I) ?_ ?_
    · refine Post.zoom (h.run (src := .self) (so := 0) (dofs := 0) (dst := t.ibuf) h0.cst
        (by simp only [Src.read]; have := ht.ibuf; omega) (by have := ht.ibuf; omega))
        (fun _ _ x => ⟨x.1, x.2.trans ht.ibuf, ht.used, ht.ob⟩)
        fun _ _ x => ⟨x.1, x.2.trans ht.ibuf, ht.used, ht.ob⟩
    · rintro - t1 h1
      refine cipher_poll h.stable h1 ?_
      intro s1 h1
      refine Post.bind_get ?_
      refine Post.bind_ofExcept (fun _ _ => h1) ?_
      intro v hv
      refine cipher_poll h.stable h1 ?_
      intro s2 h2
      refine Post.bind (ensureI_safe h env _ h2 v) ?_
      rintro - t3 ⟨h3, -, hcap⟩
      refine cipher_poll h.stable h3 ?_
      intro s4 h4
      refine Post.bind_get ?_
      refine Post.bind_orRaise h4 ?_
      intro b hb
      have hl := bytesBlit_length hb
      have hpos := h4.ob.pos
      have hle := h4.ob.le
      simp only at hpos hle hl
      refine Post.bind_modify ?_
      refine cipher_poll h.stable ⟨h4.cst, h4.ibuf, h4.used, by simp only; omega, by simp only; omega⟩ ?_
      intro s5 h5
      refine Post.bind_modify ?_
      exact Post.mono (cipher_end h.stable ⟨h5.cst, h5.ibuf, h5.used, by simp only; omega, by simp only; omega⟩)
        (fun _ _ x => x.1) fun _ _ x => x

theorem cipherInitI_safe (h : ISafeBlock c I) {s : σ} (hs : I s) (env : Env) :
    ICipherSafe c I (cipherInit env c s) :=
  ⟨hs, by simp [cipherInit], Nat.zero_le _,
    (OBuf.safe_init env (by have := h.pos; omega)).pos, Nat.zero_le _⟩

end cipher

/-! ### `Stream.cipher` -/

section stream

variable {c : StreamCipher σ} {I : σ → Prop}

/-- The contract of a stream cipher, whatever the exceptions. -/
structure ISafeStream (c : StreamCipher σ) (I : σ → Prop) : Prop where
  stable : TickStable I
  run : ∀ {s} {src : Src} {so dofs len : Int} {dst : Bytes}, I s →
    (c.transform src so dofs len (s, dst)).Post
      (fun _ p => I p.1 ∧ p.2.length = dst.length ∧ StreamArgs src dst so dofs len)
      (fun _ p => I p.1 ∧ p.2.length = dst.length)

theorem SafeStream.atomic {τ : Type} {c : StreamCipher τ} {I : τ → Prop} (h : SafeStream c I anyArgs) :
    ISafeStream c.atomic (fun p => I p.2) where
  stable _ hi := hi
  run {s src so dofs len dst} hi :=
    Post.zoom (get := fun p : (Sched × τ) × Bytes => (p.1.2, p.2)) (set := fun r p => ((p.1.1, r.1), r.2))
      (t := (s, dst)) (h.run (s := s.2) (dst := dst) hi trivial) (fun _ _ x => x) fun _ _ x => x.2

/-- Invariant of an interrupted `Stream.cipher`. -/
structure IStreamSafe (I : σ → Prop) (t : StreamSt σ) : Prop where
  cst : I t.c
  ob : t.ob.Weak

abbrev IStreamE (I : σ → Prop) : Exn → StreamSt σ → Prop := fun _ => IStreamSafe I

theorem stream_poll (hI : TickStable I) {t : StreamSt σ} {k : Unit → M (StreamSt σ) β}
    {R : β → StreamSt σ → Prop} (ht : IStreamSafe I t)
    (hk : ∀ s', IStreamSafe I { t with c := s' } → (k () { t with c := s' }).Post R (IStreamE I)) :
    ((poll >>= k) t).Post R (IStreamE I) :=
  Post.bind_poll (P := fun u => I u.c ∧ u = { t with c := u.c }) ⟨hI _ ht.cst, rfl⟩
    (by rintro e ⟨a, b, o⟩ ⟨h1, h2⟩; cases h2; exact ⟨h1, ht.ob⟩)
    (by rintro ⟨a, b, o⟩ ⟨h1, h2⟩; cases h2; exact hk _ ⟨h1, ht.ob⟩)

theorem stream_end (hI : TickStable I) {t : StreamSt σ} (ht : IStreamSafe I t) :
    ((poll : M (StreamSt σ) Unit) t).Post (fun _ => IStreamSafe I) (IStreamE I) :=
  Post.poll (P := IStreamSafe I) ⟨hI _ ht.cst, ht.ob⟩ (fun _ _ x => x) fun _ x => x

theorem onStreamBufI_safe {t : StreamSt σ} {m : M (σ × OBuf) α} 
    (hm : (m (t.c, t.ob)).Post (fun _ => OBuf.WeakI I) (fun _ => OBuf.WeakI I)) :
    (onStreamBufI m t).Post (fun _ => IStreamSafe I) (IStreamE I) :=
  Post.zoom hm (fun _ _ x => ⟨x.1, x.2⟩) fun _ _ x => ⟨x.1, x.2⟩

theorem streamPutI_safe' (hI : TickStable I) (env : Env) (src : Bytes) (ofs len : Int) (t : StreamSt σ)
    (hrun : ∀ (s : σ) (dofs : Int) (dst : Bytes), I s → (c.transform (.other src) ofs dofs len (s, dst)).Post
      (fun _ p => I p.1 ∧ p.2.length = dst.length ∧ StreamArgs (.other src) dst ofs dofs len)
      (fun _ p => I p.1 ∧ p.2.length = dst.length)) (ht : IStreamSafe I t) :
    (streamPutI env c src ofs len t).Post (fun _ => IStreamSafe I) (IStreamE I) := by
  refine Post.bind (Q := fun _ t' => IStreamSafe I t')
    (Post.zoom (OBuf.ensureCapacityI_safe hI env len (t.c, t.ob) ⟨ht.cst, ht.ob⟩)
      (fun _ _ x => ⟨x.1.1, x.1.2⟩) fun _ _ x => ⟨x.1, x.2⟩) ?_
  rintro - t1 h1
  refine stream_poll hI h1 ?_
  intro s1 h1
  refine Post.bind (Q := fun _ t' => IStreamSafe I t' ∧ t'.ob.oend + len.toNat ≤ t'.ob.obuf.length) ?_ ?_
  · have hx := hrun s1 t1.ob.oend t1.ob.obuf h1.cst
    have hpos := h1.ob.pos
    have hle := h1.ob.le
    unfold streamOut
    simp only at hx hpos hle ⊢
    cases hc : c.transform (.other src) ofs t1.ob.oend len (s1, t1.ob.obuf) with
    | ok a p =>
      rw [hc] at hx
      obtain ⟨x1, x2, x3⟩ := hx
      obtain ⟨_, _, _, _, _⟩ := x3
      exact ⟨⟨x1, by simp only; omega, by simp only; omega⟩, by simp only; omega⟩
    | exn e p =>
      rw [hc] at hx
      obtain ⟨x1, x2⟩ := hx
      exact ⟨x1, by simp only; omega, by simp only; omega⟩
    | ub => rw [hc] at hx; exact hx.elim
    | loop => rw [hc] at hx; exact hx.elim
  · rintro - t2 ⟨h2, hcap⟩
    refine stream_poll hI h2 ?_
    intro s2 h2
    refine Post.bind_modify ?_
    exact stream_end hI ⟨h2.cst, h2.ob.pos, hcap⟩

theorem streamPutI_safe (h : ISafeStream c I) (env : Env) (src : Bytes) (ofs len : Int) (t : StreamSt σ)
    (ht : IStreamSafe I t) :
    (streamPutI env c src ofs len t).Post (fun _ => IStreamSafe I) (IStreamE I) :=
  streamPutI_safe' h.stable env src ofs len t (fun _ _ _ hs => h.run hs) ht

theorem streamPutCharI_safe (h : ISafeStream c I) (env : Env) (ch : Byte) (t : StreamSt σ)
    (ht : IStreamSafe I t) :
    (streamPutCharI env c ch t).Post (fun _ => IStreamSafe I) (IStreamE I) := by
  refine stream_poll h.stable ht ?_
  intro s0 h0
  refine Post.bind_get ?_
  refine Post.bind_orRaise h0 ?_
  intro cb _
  refine Post.bind_modify ?_
  refine stream_poll h.stable ⟨h0.cst, h0.ob⟩ ?_
  intro s1 h1
  exact streamPutI_safe h env _ _ _ _ h1

theorem streamWipeI_safe (hI : TickStable I) (hw : SWipeSafe c I) (t : StreamSt σ)
    (ht : IStreamSafe I t) : (streamWipeI c t).Post (fun _ => IStreamSafe I) (IStreamE I) := by
  refine stream_poll hI ht ?_
  intro s0 h0
  refine Post.bind_modify ?_
  refine stream_poll hI ⟨hw _ h0.cst, h0.ob⟩ ?_
  intro s1 h1
  refine Post.bind (onStreamBufI_safe (OBuf.wipeI_safe hI _ ⟨h1.cst, h1.ob⟩)) ?_
  rintro - t2 h2
  refine stream_poll hI h2 ?_
  intro s3 h3
  refine Post.bind_modify ?_
  exact stream_end hI ⟨h3.cst, h3.ob⟩

theorem streamTransformI_safe (h : ISafeStream c I) (env : Env) :
    TSafe (streamTransformI env c) (IStreamSafe I) where
  putSubstring b ofs len t ht := streamPutI_safe h env b ofs len t ht
  putString s t ht := streamPutI_safe h env s 0 s.length t ht
  putChar ch t ht := streamPutCharI_safe h env ch t ht
  putByte b t ht := streamPutCharI_safe h env _ t ht
  availableOutput t ht := onStreamBufI_safe (OBuf.availableOutputI_safe h.stable _ ⟨ht.cst, ht.ob⟩)
  getString t ht := onStreamBufI_safe (OBuf.getStringI_safe h.stable _ ⟨ht.cst, ht.ob⟩)
  getSubstring t ht := onStreamBufI_safe (OBuf.getSubstringI_safe h.stable _ ⟨ht.cst, ht.ob⟩)
  getChar t ht := onStreamBufI_safe (OBuf.getCharI_safe h.stable _ ⟨ht.cst, ht.ob⟩)
  getByte t ht := onStreamBufI_safe (OBuf.getByteI_safe h.stable _ ⟨ht.cst, ht.ob⟩)

theorem streamTransformI_fin (h : ISafeStream c I) (env : Env) :
    TFinSafe (streamTransformI env c) (IStreamSafe I) :=
  ⟨fun _ ht => stream_end h.stable ht, fun _ ht => stream_end h.stable ht⟩

theorem streamInitI_safe {s : σ} (hs : I s) (env : Env) : IStreamSafe I (streamInit env s) :=
  ⟨hs, (OBuf.safe_init env (by decide)).pos, Nat.zero_le _⟩

end stream

/-! ### Entry points -/

namespace Cipher

/-- An interruptible block cipher safe to use, after `wipe` too if `w`. -/
def BlockOkI (w : Prop) (b : AnyBlockI) : Prop :=
  ∃ I : b.σ → Prop, ISafeBlock b.c I ∧ I b.s ∧ (w → BWipeSafe b.c I)

theorem chainedI_ok {env : Env} {mode : Mode} {iv : Option Bytes} {dir : Dir} {sched : Sched} {b : AnyBlock}
    {m : AnyBlockI} {w : Prop}
    (hb : BlockOk w b) (h : chainedI env mode iv dir sched b = .ok m) : BlockOkI w m := by
  obtain ⟨I, g1, g2, g3⟩ := hb
  have h1 := g1.atomic
  have h2 : (fun p : Sched × b.σ => I p.2) (sched, b.s) := g2
  have h3 : w → BWipeSafe b.c.atomic (fun p : Sched × b.σ => I p.2) := fun x p hp => g3 x p.2 hp
  unfold chainedI at h
  split at h
  · cases h; exact ⟨_, h1, h2, h3⟩
  · obtain ⟨st, hs, rfl⟩ := Except.eq_ok_of_map h
    exact ⟨_, cbcEncryptI_safe h1, modeInit_safe h2 hs, fun x => cbcEncrypt_wipe (h3 x) _⟩
  · obtain ⟨st, hs, rfl⟩ := Except.eq_ok_of_map h
    exact ⟨_, cbcDecryptI_safe h1, modeInit_safe h2 hs, fun x => cbcDecrypt_wipe (h3 x) _⟩
  · obtain ⟨st, hs, rfl⟩ := Except.eq_ok_of_map h
    obtain ⟨i1, i2, i3⟩ := modeInitChunk_safe (I := fun p : Sched × b.σ => I p.2) h2 hs
    exact ⟨_, cfbEncryptI_safe h1 i2 i3, i1, fun x => cfbEncrypt_wipe (h3 x) 0 _⟩
  · obtain ⟨st, hs, rfl⟩ := Except.eq_ok_of_map h
    obtain ⟨i1, i2, i3⟩ := modeInitChunk_safe (I := fun p : Sched × b.σ => I p.2) h2 hs
    exact ⟨_, cfbDecryptI_safe h1 i2 i3, i1, fun x => cfbDecrypt_wipe (h3 x) 0 _⟩
  · obtain ⟨st, hs, rfl⟩ := Except.eq_ok_of_map h
    obtain ⟨i1, i2, i3⟩ := modeInitChunk_safe (I := fun p : Sched × b.σ => I p.2) h2 hs
    exact ⟨_, ofbI_safe h1 i2 i3, i1, fun x => ofb_wipe (h3 x) 0 _⟩
  · obtain ⟨st, hs, rfl⟩ := Except.eq_ok_of_map h
    exact ⟨_, ctrI_safe h1 _, ctrInit_safe h2 hs, fun x => ctr_wipe (h3 x) 0 _⟩
  · obtain ⟨st, hs, rfl⟩ := Except.eq_ok_of_map h
    exact ⟨_, ctrI_safe h1 _, ctrInit_safe h2 hs, fun x => ctr_wipe (h3 x) 0 _⟩

/-- An interruptible transform safe to use, after `wipe` too if `w`. -/
def TransformOkI (w : Prop) (A : AnyTransform) : Prop :=
  ∃ I : A.τ → Prop, TSafe A.T I ∧ TFinSafe A.T I ∧ I A.t ∧ (w → TWipeSafe A.T I)

theorem TransformOkI.any {A : AnyTransform} (h : TransformOkI True A) :
    MemorySafe (invoke A.T) anyCall A.t := by
  obtain ⟨I, h1, h2, h3, h4⟩ := h
  exact (h1.any h2 (h4 trivial)).safe h3

theorem TransformOkI.notWipe {A : AnyTransform} (h : TransformOkI False A) :
    MemorySafe (invoke A.T) notWipe A.t := by
  obtain ⟨I, h1, h2, h3, -⟩ := h
  exact (h1.notWipe h2).safe h3

theorem makeI_ok {env : Env} {mode : Option Mode} {pad : Option PadScheme} {iv : Option Bytes} {dir : Dir}
    {sched : Sched} {ob : Option (Except Exn AnyBlock)} {A : AnyTransform} {w : Prop}
    (hp : ∀ p, pad = some p → PadKeeps p) (hb : ∀ b, ob = some (.ok b) → BlockOk w b)
    (h : makeI env mode pad iv dir sched ob = some (.ok A)) : TransformOkI w A := by
  unfold makeI at h
  cases ob with
  | none => cases h
  | some r =>
    cases r with
    | error e => cases h
    | ok b =>
      simp only [Option.map_some, Except.bind, Option.some.injEq, makeBlockCipherI] at h
      cases hm : chainedI env (mode.getD .CBC) iv dir sched b with
      | error e => rw [hm] at h; cases h
      | ok m =>
        rw [hm] at h
        simp only [Except.map, Except.ok.injEq] at h
        subst h
        obtain ⟨I, h1, h2, h3⟩ := chainedI_ok (hb b rfl) hm
        have hs := blockTransformI_safe h1 env
        cases pad with
        | none =>
          exact ⟨_, hs, ⟨cipherFlushI_safe h1 env, cipherFlushI_safe h1 env⟩, cipherInitI_safe h1 h2 env,
            fun x t ht => cipherWipeI_safe h1.stable (h3 x) t ht⟩
        | some p =>
          cases dir with
          | encrypt =>
            exact ⟨_, ⟨hs.putSubstring, hs.putString, hs.putChar, hs.putByte, hs.availableOutput,
              hs.getString, hs.getSubstring, hs.getChar, hs.getByte⟩,
              paddedEncryptI_fin h1 env (hp p rfl), cipherInitI_safe h1 h2 env,
              fun x t ht => cipherWipeI_safe h1.stable (h3 x) t ht⟩
          | decrypt =>
            exact ⟨_, ⟨hs.putSubstring, hs.putString, hs.putChar, hs.putByte, hs.availableOutput,
              hs.getString, hs.getSubstring, hs.getChar, hs.getByte⟩,
              paddedDecryptI_fin h1 env p, cipherInitI_safe h1 h2 env,
              fun x t ht => cipherWipeI_safe h1.stable (h3 x) t ht⟩

theorem streamI_ok {σ : Type} {c : StreamCipher σ} {I : σ → Prop} (h : SafeStream c I anyArgs)
    (hw : SWipeSafe c I) {s : σ} (hs : I s) (env : Env) (sched : Sched) :
    TransformOkI True ⟨streamTransformI env c.atomic, streamInit env ((sched, s) : Sched × σ)⟩ :=
  ⟨_, streamTransformI_safe h.atomic env, streamTransformI_fin h.atomic env,
    streamInitI_safe (I := fun p : Sched × σ => I p.2) hs env,
    fun _ t ht => streamWipeI_safe h.atomic.stable (fun p hp => hw p.2 hp) t ht⟩

theorem arcfourI_ok {env : Env} {key : Bytes} {dir : Dir} {sched : Sched} {A : AnyTransform}
    (h : Cipher.arcfourI env key dir sched = .ok A) : TransformOkI True A := by
  obtain ⟨s, hs, rfl⟩ := Except.eq_ok_of_map h
  exact streamI_ok arcfour_safe arcfour_wipeSafe (arcfourInit_safe hs) env sched

theorem chacha20I_ok {env : Env} {iv : Option Bytes} {ctr : Option W64} {key : Bytes} {dir : Dir}
    {sched : Sched} {A : AnyTransform} (h : Cipher.chacha20I env iv ctr key dir sched = .ok A) :
    TransformOkI True A := by
  obtain ⟨s, hs, rfl⟩ := Except.eq_ok_of_map h
  exact streamI_ok chacha20_safe chacha20_wipeSafe (chacha20Init_safe hs) env sched

end Cipher
end Verif
