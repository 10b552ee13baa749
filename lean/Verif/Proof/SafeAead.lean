import Verif.Proof.SafeStream
import Verif.Proof.MD
/-
Safety of the authenticated ciphers.
-/
namespace Verif

open Spec

variable {κ : Type}

/-! ### AES-GCM -/

theorem ghashMult_length (ctx : GhashCtx) (x : Bytes) : (ghashMult ctx x).length = 16 := by
  simp [ghashMult, toBE64]

theorem pclmulMult_length (k x : Bytes) : (pclmulMult k x).length = 16 := by
  simp [pclmulMult, storeReverse16]

theorem cGhashMult_some (h : GhashKey) {x : Bytes} (hx : x.length = 16) :
    ∃ r, cGhashMult h x = some r ∧ r.length = 16 := by
  unfold cGhashMult
  rw [if_neg (by omega)]
  cases h with
  | hw key => exact ⟨_, rfl, pclmulMult_length _ _⟩
  | sw ctx => exact ⟨_, rfl, ghashMult_length _ _⟩

theorem xorC_at_some {x dst : Bytes} {so dofs n : Nat} (hx : so + n ≤ x.length)
    (hd : dofs + n ≤ dst.length) :
    ∃ r, xorC (.other x) so dst dofs n = some r ∧ r.length = dst.length :=
  ⟨_, xorC_ok (src := .other x) (by simpa [Src.read] using hx) hd trivial,
    splice_length (by simp; omega)⟩

theorem ghashBlock_some (h : GhashKey) {mac b : Bytes} (hm : mac.length = 16) {ofs len : Nat}
    (hb : ofs + len ≤ b.length) (hl : len ≤ 16) :
    ∃ r, ghashBlock h mac b ofs len = some r ∧ r.length = 16 := by
  unfold ghashBlock
  obtain ⟨x, h1, h2⟩ := xorC_at_some (x := b) (dst := mac) (so := ofs) (dofs := 0) (n := len) hb (by omega)
  rw [Int.natCast_zero] at h1
  obtain ⟨r, h3, h4⟩ := cGhashMult_some h (h2.trans hm)
  exact ⟨r, by simp [h1, h3], h4⟩

theorem ghashStringLoop_some (h : GhashKey) (msg : Bytes) : ∀ (i : Nat) (mac : Bytes), mac.length = 16 →
    ∃ r, ghashStringLoop h msg i mac = some r ∧ r.length = 16 := by
  intro i
  induction hk : msg.length - i using Nat.strongRecOn generalizing i with
  | _ k ih =>
    intro mac hm
    rw [ghashStringLoop]
    split
    · next hi =>
      obtain ⟨r, h1, h2⟩ := ghashBlock_some h hm (b := msg) (ofs := i) (len := 16) (by omega) (by omega)
      change ghashBlock h mac msg i 16 = some r at h1
      rw [h1]
      exact ih (msg.length - (i + 16)) (by omega) (i + 16) rfl r h2
    · split
      · next h1 h2 =>
        have := ghashBlock_some h hm (b := msg) (ofs := i) (len := msg.length - i) (by omega) (by omega)
        rw [Int.ofNat_sub (by omega)] at this
        exact this
      · exact ⟨_, rfl, hm⟩

/-- Weak invariant of the variables of `aes_gcm_encrypt` and `aes_gcm_decrypt`. -/
structure GcmSafe (I : κ → Prop) (st : GcmSt κ) : Prop where
  aes : I st.aes
  ctr : st.ctr.length = 16
  e0 : st.e0.length = 16
  mac : st.mac.length = 16
  buf : st.buf.length = 16

variable {aes : BlockCipher κ} {I : κ → Prop}

/-- The exceptions of the wrapped ciphers. -/
abbrev GcmE (I : κ → Prop) (d : Nat) (e : Exn) (p : GcmSt κ × Bytes) : Prop :=
  e = .error .messageTooLong ∧ GcmSafe I p.1 ∧ p.2.length = d

theorem ctrEncDec_safe (h : SafeBlock aes I) (hn : aes.blocksize = 16) {src : Src} {so dofs len : Nat}
    {st : GcmSt κ} {dst : Bytes} (hs : GcmSafe I st) (h1 : so + len ≤ (src.read dst).length)
    (h2 : dofs + len ≤ dst.length) (hl : len ≤ 16) :
    (ctrEncDec aes src so dofs len (st, dst)).Post
      (fun _ p => GcmSafe I p.1 ∧ p.2.length = dst.length) (GcmE I dst.length) := by
  unfold ctrEncDec
  refine Post.bind_get (s := (st, dst)) ?_
  obtain ⟨ctr, e1, e2⟩ := incrementCounter_some 12 16 st.ctr (by have := hs.ctr; omega)
  refine Post.bind_orRaise_some e1 ?_
  refine Post.bind_modify (s := (st, dst)) ?_
  have hc := e2.trans hs.ctr
  refine Post.bind (Q := fun _ p => GcmSafe I p.1 ∧ p.2 = dst)
    (Post.zoom (h.run (src := .other ctr) (so := 0) (dofs := 0) (dst := st.buf) hs.aes
      (by simp only [Src.read]; omega) (by have := hs.buf; omega))
      (fun _ p x => ⟨⟨x.1, hc, hs.e0, hs.mac, x.2.trans hs.buf⟩, rfl⟩)
      fun _ p x => ⟨x.1, ⟨x.2.1, hc, hs.e0, hs.mac, x.2.2.trans hs.buf⟩, rfl⟩) ?_
  rintro - ⟨st1, d1⟩ ⟨g1, g2⟩
  simp only at g1 g2
  subst g2
  refine Post.bind_get (s := (st1, d1)) ?_
  obtain ⟨b, b1, b2⟩ := xorC_at_some (x := src.read d1) (dst := st1.buf) (so := so) (dofs := 0) (n := len)
    h1 (by have := g1.buf; omega)
  rw [Int.natCast_zero] at b1
  refine Post.bind_orUB b1 ?_
  refine Post.bind_modify (s := (st1, d1)) ?_
  have hb := b2.trans g1.buf
  obtain ⟨d, b3, b4⟩ := blit_some (src := b) (so := 0) (dst := d1) (dofs := dofs) (n := len)
    (by omega) (by omega)
  rw [Int.natCast_zero] at b3
  refine Post.bind_orRaise_some b3 ?_
  exact ⟨⟨g1.aes, g1.ctr, g1.e0, g1.mac, hb⟩, b4⟩

theorem gcmHash_safe {b : Bytes} {ofs len : Nat} {p : GcmSt κ × Bytes} (hs : GcmSafe I p.1)
    (hb : ofs + len ≤ b.length) (hl : len ≤ 16) {E : Exn → GcmSt κ × Bytes → Prop} :
    (gcmHash b ofs len p).Post (fun _ q => GcmSafe I q.1 ∧ q.2 = p.2) E := by
  unfold gcmHash
  obtain ⟨st, dst⟩ := p
  refine Post.bind_get (s := (st, dst)) ?_
  obtain ⟨r, h1, h2⟩ := ghashBlock_some st.h hs.mac hb hl
  refine Post.bind_orUB h1 ?_
  exact ⟨⟨hs.aes, hs.ctr, hs.e0, h2, hs.buf⟩, rfl⟩

theorem gcmCheck_safe {p : GcmSt κ × Bytes} (hs : GcmSafe I p.1) :
    (gcmCheck p).Post (fun _ q => q = p) (fun e q => e = .error .messageTooLong ∧ q = p) := by
  unfold gcmCheck
  refine Post.bind_get (s := p) ?_
  simp only []
  split
  · exact ⟨rfl, rfl⟩
  · exact rfl

theorem gcmEncWrapped_safe (h : SafeBlock aes I) (hn : aes.blocksize = 16) :
    SafeBlock (gcmEncWrapped aes) (GcmSafe I) := by
  refine ⟨by show 0 < 16; decide, ?_⟩
  intro st src so dofs dst hs h1 h2
  change so + 16 ≤ _ at h1
  change dofs + 16 ≤ _ at h2
  refine Post.bind (ctrEncDec_safe h hn (len := 16) hs h1 h2 (Nat.le_refl _)) ?_
  rintro - ⟨st1, d1⟩ ⟨g1, g2⟩
  simp only at g1 g2
  refine Post.bind_get (s := (st1, d1)) ?_
  refine Post.bind (gcmHash_safe (p := (st1, d1)) (b := d1) (ofs := dofs) (len := 16) g1 (by omega)
    (Nat.le_refl _)) ?_
  rintro - ⟨st2, d2⟩ ⟨g3, g4⟩
  simp only at g3 g4
  subst g4
  refine Post.bind_modify (s := (st2, d2)) ?_
  have g5 : GcmSafe I { st2 with cipherlen := st2.cipherlen + 16 } := ⟨g3.aes, g3.ctr, g3.e0, g3.mac, g3.buf⟩
  exact Post.mono (gcmCheck_safe (p := (_, d2)) g5) (fun _ _ x => x ▸ ⟨g5, g2⟩)
    fun _ _ x => ⟨x.1, x.2 ▸ ⟨g5, g2⟩⟩

theorem gcmDecWrapped_safe (h : SafeBlock aes I) (hn : aes.blocksize = 16) :
    SafeBlock (gcmDecWrapped aes) (GcmSafe I) := by
  refine ⟨by show 0 < 16; decide, ?_⟩
  intro st src so dofs dst hs h1 h2
  change so + 16 ≤ _ at h1
  change dofs + 16 ≤ _ at h2
  refine Post.bind_get (s := (st, dst)) ?_
  refine Post.bind (gcmHash_safe (p := (st, dst)) (b := src.read dst) (ofs := so) (len := 16) hs h1
    (Nat.le_refl _)) ?_
  rintro - ⟨st2, d2⟩ ⟨g3, g4⟩
  simp only at g3 g4
  subst g4
  refine Post.bind (ctrEncDec_safe h hn (len := 16) g3 h1 h2 (Nat.le_refl _)) ?_
  rintro - ⟨st1, d1⟩ ⟨g1, g2⟩
  simp only at g1 g2
  exact ⟨⟨g1.aes, g1.ctr, g1.e0, g1.mac, g1.buf⟩, g2⟩

theorem gcmOnOut_safe {c : BlockCipher (GcmSt κ)} {m : M (GcmSt κ × Bytes) Unit} {t : CipherSt (GcmSt κ)}
    (ht : CipherSafe c (GcmSafe I) t)
    (hm : (m (t.c, t.ob.obuf)).Post (fun _ p => GcmSafe I p.1 ∧ p.2.length = t.ob.obuf.length)
      (GcmE I t.ob.obuf.length)) :
    (gcmOnOut m t).Post
      (fun _ t' => CipherSafe c (GcmSafe I) t' ∧ t'.used = t.used ∧ t'.ibuf = t.ibuf ∧ t'.ob.oend = t.ob.oend
        ∧ t'.ob.obuf.length = t.ob.obuf.length)
      (fun _ => CipherSafe c (GcmSafe I)) :=
  Post.zoom hm
    (fun _ _ x => ⟨⟨x.1, ht.ibuf, ht.used, ht.ob.set x.2 (Nat.le_refl _) ht.ob.le⟩, rfl, rfl, rfl, x.2⟩)
    fun _ _ x => ⟨x.2.1, ht.ibuf, ht.used, ht.ob.set x.2.2 (Nat.le_refl _) ht.ob.le⟩

theorem gcmTag_safe {c : BlockCipher (GcmSt κ)} (env : Env) {t : CipherSt (GcmSt κ)}
    (ht : CipherSafe c (GcmSafe I) t) :
    (gcmTag env t).Post (fun _ => CipherSafe c (GcmSafe I)) (fun _ => CipherSafe c (GcmSafe I)) := by
  have hb : ∀ x : W64, (toBE64 x).length = 8 := fun _ => rfl
  unfold gcmTag
  refine Post.bind_get ?_
  refine Post.bind (Q := fun r t' => r.1.length = 16 ∧ t' = t) ?_ ?_
  · unfold ghashFinal
    refine Post.bind_orRaise ht ?_
    intro b1 h1
    have l1 := (bytesBlit_length h1).trans (Env.create_length env 16)
    refine Post.bind_orRaise ht ?_
    intro b2 h2
    have l2 := (bytesBlit_length h2).trans l1
    obtain ⟨r, h3, h4⟩ := ghashBlock_some t.c.h ht.cst.mac (b := b2) (ofs := 0) (len := 16) (by omega)
      (Nat.le_refl _)
    refine Post.bind_orUB h3 ?_
    refine Post.bind_orRaise ht ?_
    intro b4 h4'
    have l4 := (bytesBlit_length h4').trans l2
    obtain ⟨x, h5, h6⟩ := xorC_at_some (x := t.c.e0) (dst := b4) (so := 0) (dofs := 0) (n := 16)
      (by have := ht.cst.e0; omega) (by omega)
    refine Post.bind_orUB h5 ?_
    exact ⟨h4, rfl⟩
  · rintro ⟨mac, tag⟩ t' ⟨h1, rfl⟩
    exact ⟨⟨ht.cst.aes, ht.cst.ctr, ht.cst.e0, h1, ht.cst.buf⟩, ht.ibuf, ht.used, ht.ob⟩

theorem gcmEncFinish_safe (h : SafeBlock aes I) (hn : aes.blocksize = 16) (env : Env)
    (t : CipherSt (GcmSt κ)) (ht : CipherSafe (gcmEncWrapped aes) (GcmSafe I) t) :
    (gcmEncFinish env aes t).Post (fun _ => CipherSafe (gcmEncWrapped aes) (GcmSafe I))
      (fun _ => CipherSafe (gcmEncWrapped aes) (GcmSafe I)) := by
  unfold gcmEncFinish
  refine Post.bind ?_ (fun _ t1 (h1 : CipherSafe (gcmEncWrapped aes) (GcmSafe I) t1) => gcmTag_safe env h1)
  unfold gcmEncLast
  refine Post.bind_get ?_
  split
  · have hu := ht.used
    change t.used ≤ 16 at hu
    have hib : t.ibuf.length = 16 := ht.ibuf
    refine Post.bind (Q := fun _ t' => CipherSafe (gcmEncWrapped aes) (GcmSafe I) t' ∧ t'.used = t.used
        ∧ t'.ibuf = t.ibuf ∧ t'.ob.oend + t.used ≤ t'.ob.obuf.length)
      (Post.zoom (OBuf.ensureCapacity_safe env t.used t.ob ht.ob)
        (fun _ o x => ⟨⟨ht.cst, ht.ibuf, ht.used, x.1⟩, rfl, rfl, by have := x.2; simp only; omega⟩)
        fun e o x => ⟨ht.cst, ht.ibuf, ht.used, x.2 ▸ ht.ob⟩) ?_
    rintro - t1 ⟨h1, u1, i1, cap1⟩
    refine Post.bind_get ?_
    refine Post.bind (gcmOnOut_safe h1 (ctrEncDec_safe h hn (src := .other t1.ibuf) (so := 0)
      (dofs := t1.ob.oend) (len := t1.used) h1.cst (by simp only [Src.read, i1]; omega) (by omega)
      (by omega))) ?_
    rintro - t2 ⟨h2, u2, i2, e2, l2⟩
    refine Post.bind_get ?_
    refine Post.bind (gcmOnOut_safe h2 (Post.mono (gcmHash_safe (I := I) (p := (t2.c, t2.ob.obuf))
      (b := t2.ob.obuf) (ofs := t2.ob.oend) (len := t2.used) h2.cst (by omega) (by omega))
      (fun _ _ x => ⟨x.1, by rw [x.2]⟩) fun _ _ x => x)) ?_
    rintro - t3 ⟨h3, u3, i3, e3, l3⟩
    refine Post.bind_modify ?_
    have h3' : CipherSafe (gcmEncWrapped aes) (GcmSafe I)
        { t3 with ob := { t3.ob with oend := t3.ob.oend + t3.used } } :=
      ⟨h3.cst, h3.ibuf, h3.used, h3.ob.set rfl (Nat.le_add_right _ _) (by omega)⟩
    refine Post.bind (Q := fun _ => CipherSafe (gcmEncWrapped aes) (GcmSafe I))
      (Post.mono (gcmOnOut_safe h3' (m := gcmCount (BitVec.ofNat 64 t2.used))
        ⟨⟨h3.cst.aes, h3.cst.ctr, h3.cst.e0, h3.cst.mac, h3.cst.buf⟩, rfl⟩) (fun _ _ x => x.1)
        fun _ _ x => x) ?_
    rintro - t4 h4
    exact Post.mono (gcmOnOut_safe h4 (m := gcmCheck) (Post.mono (gcmCheck_safe (I := I)
      (p := (t4.c, t4.ob.obuf)) h4.cst) (fun _ _ x => x ▸ ⟨h4.cst, rfl⟩)
      fun _ _ x => ⟨x.1, x.2 ▸ ⟨h4.cst, rfl⟩⟩)) (fun _ _ x => x.1) fun _ _ x => x
  · exact ht

theorem gcmDecFinish_safe (h : SafeBlock aes I) (hn : aes.blocksize = 16) (env : Env)
    (t : CipherSt (GcmSt κ)) (ht : CipherSafe (gcmDecWrapped aes) (GcmSafe I) t) :
    (gcmDecFinish env aes t).Post (fun _ => CipherSafe (gcmDecWrapped aes) (GcmSafe I))
      (fun _ => CipherSafe (gcmDecWrapped aes) (GcmSafe I)) := by
  unfold gcmDecFinish
  refine Post.bind ?_ (fun _ t1 (h1 : CipherSafe (gcmDecWrapped aes) (GcmSafe I) t1) => gcmTag_safe env h1)
  unfold gcmDecLast
  refine Post.bind_get ?_
  split
  · have hu := ht.used
    change t.used ≤ 16 at hu
    have hib : t.ibuf.length = 16 := ht.ibuf
    refine Post.bind (gcmOnOut_safe ht (Post.mono (gcmHash_safe (I := I) (p := (t.c, t.ob.obuf))
      (b := t.ibuf) (ofs := 0) (len := t.used) ht.cst (by omega) (by omega))
      (fun _ _ x => ⟨x.1, by rw [x.2]⟩) fun _ _ x => x)) ?_
    rintro - t0 ⟨h0, u0, i0, e0, l0⟩
    refine Post.bind (Q := fun _ t' => CipherSafe (gcmDecWrapped aes) (GcmSafe I) t' ∧ t'.used = t.used
        ∧ t'.ibuf = t.ibuf ∧ t'.ob.oend + t.used ≤ t'.ob.obuf.length)
      (Post.zoom (OBuf.ensureCapacity_safe env t.used t0.ob h0.ob)
        (fun _ o x => ⟨⟨h0.cst, h0.ibuf, h0.used, x.1⟩, u0, i0, by have := x.2; simp only; omega⟩)
        fun e o x => ⟨h0.cst, h0.ibuf, h0.used, x.2 ▸ h0.ob⟩) ?_
    rintro - t1 ⟨h1, u1, i1, cap1⟩
    refine Post.bind_get ?_
    refine Post.bind (gcmOnOut_safe h1 (ctrEncDec_safe h hn (src := .other t1.ibuf) (so := 0)
      (dofs := t1.ob.oend) (len := t1.used) h1.cst (by simp only [Src.read, i1]; omega) (by omega)
      (by omega))) ?_
    rintro - t2 ⟨h2, u2, i2, e2, l2⟩
    refine Post.bind_modify ?_
    have h3' : CipherSafe (gcmDecWrapped aes) (GcmSafe I)
        { t2 with ob := { t2.ob with oend := t2.ob.oend + t2.used } } :=
      ⟨h2.cst, h2.ibuf, h2.used, h2.ob.set rfl (Nat.le_add_right _ _) (by omega)⟩
    exact Post.mono (gcmOnOut_safe h3' (m := gcmCount (BitVec.ofNat 64 t1.used))
        ⟨⟨h2.cst.aes, h2.cst.ctr, h2.cst.e0, h2.cst.mac, h2.cst.buf⟩, rfl⟩) (fun _ _ x => x.1)
        fun _ _ x => x
  · exact ht

theorem blockLocal_safe (h : SafeBlock aes I) {src : Src} {b : Bytes} (h1 : aes.blocksize ≤ (src.read b).length)
    (h2 : aes.blocksize ≤ b.length) {k : κ} (hk : I k) :
    (blockLocal aes src b k).Post (fun r k' => r.length = b.length ∧ I k') (fun _ _ => True) := by
  have hr := h.run (src := src) (so := 0) (dofs := 0) (dst := b) hk (by omega) (by omega)
  rw [Int.natCast_zero] at hr
  unfold blockLocal
  cases hc : aes.transform src 0 0 (k, b) with
  | ok a p => rw [hc] at hr; exact ⟨hr.2, hr.1⟩
  | exn e p => trivial
  | ub => rw [hc] at hr; exact hr.elim
  | loop => rw [hc] at hr; exact hr.elim

theorem gcmInit_safe (h : SafeBlock aes I) (hn : aes.blocksize = 16) (env : Env) (pclmul : Bool)
    (header iv : Bytes) {k : κ} (hk : I k) :
    (gcmInit env pclmul aes header iv k).Post (fun st _ => GcmSafe I st) (fun _ _ => True) := by
  have hz : (List.replicate 16 (0 : Byte)).length = 16 := List.length_replicate
  unfold gcmInit
  refine Post.bind (blockLocal_safe h (src := .self) (b := List.replicate 16 0)
    (by simp only [Src.read]; omega) (by omega) hk) ?_
  rintro b k1 ⟨l1, i1⟩
  have hg : ∃ gk, cGhashInit pclmul b = some gk := by
    unfold cGhashInit
    rw [if_neg (by omega)]
    cases pclmul <;> exact ⟨_, rfl⟩
  obtain ⟨gk, hg⟩ := hg
  refine Post.bind_orUB hg ?_
  refine Post.bind (Q := fun r k' => r.length = 16 ∧ I k') ?_ ?_
  · unfold counter0
    split
    · next hl => exact ⟨by simp [hl], i1⟩
    · obtain ⟨m, hm, lm⟩ := ghashStringLoop_some gk iv 0 (List.replicate 16 0) hz
      refine Post.bind_orUB hm ?_
      refine Post.bind_orRaise trivial ?_
      intro b2 h2
      have l2 := (bytesBlit_length h2).trans hz
      obtain ⟨r, h3, h4⟩ := ghashBlock_some gk lm (b := b2) (ofs := 0) (len := 16) (by omega) (Nat.le_refl _)
      change ghashBlock gk m b2 0 16 = some r at h3
      rw [h3]
      exact ⟨h4, i1⟩
  · rintro ctr k2 ⟨l2, i2⟩
    refine Post.bind (blockLocal_safe h (src := .other ctr) (b := env.create 16)
      (by simp only [Src.read]; omega) (by rw [Env.create_length]; omega) i2) ?_
    rintro e0 k3 ⟨l3, i3⟩
    obtain ⟨m, hm, lm⟩ := ghashStringLoop_some gk header 0 (List.replicate 16 0) hz
    refine Post.bind_orUB hm ?_
    exact ⟨i3, l2, l3.trans (Env.create_length _ _), lm, Env.create_length _ _⟩

namespace AEAD
open Cipher

/-- An authenticated transform safe to use, after `wipe` too if `w`. -/
def AuthOk (w : Prop) (A : AnyAuth) : Prop :=
  ∃ I : A.τ → Prop, TSafe A.T.base I ∧
    (∀ t, I t → (A.T.finishAndGetTag t).Post (fun _ => I) (fun _ => I)) ∧ I A.t ∧
    (w → TWipeSafe A.T.base I) ∧
    (∀ t, I t → ∀ b ofs len, ¬ InRange b ofs len →
      (∃ e t', A.T.base.putSubstring b ofs len t = .exn e t' ∧ RangeExn e)
        ∨ (len ≤ 0 ∧ A.T.base.putSubstring b ofs len t = .ok () t))

theorem aesGcm_ok {env : Env} {host : AesHost} {pclmul : Bool} {header : Option Bytes} {iv key : Bytes}
    {dir : Dir} {A : AnyAuth} (h : aesGcm env host pclmul header iv key dir = some (.ok A)) :
    AuthOk False A := by
  unfold aesGcm at h
  cases ho : aesBlock host .encrypt key with
  | none => rw [ho] at h; cases h
  | some r =>
    rw [ho] at h
    cases r with
    | error e => cases h
    | ok b =>
      obtain ⟨⟨I, h1, h2, h3⟩, hn⟩ := aesBlock_ok ho
      simp only [Option.bind_some] at h
      have hr := gcmInit_safe h1 hn env pclmul (header.getD []) iv h2
      unfold aesGcmInit at h
      cases hc : gcmInit env pclmul b.c (header.getD []) iv b.s with
      | ok st s =>
        rw [hc] at h hr
        cases h
        cases dir with
        | encrypt =>
          have hb := gcmEncWrapped_safe h1 hn
          exact ⟨_, blockTransform_safe hb env, gcmEncFinish_safe h1 hn env, cipherInit_safe hb hr env,
            False.elim, fun t ht => cipherPut_range hb env t ht⟩
        | decrypt =>
          have hb := gcmDecWrapped_safe h1 hn
          exact ⟨_, blockTransform_safe hb env, gcmDecFinish_safe h1 hn env, cipherInit_safe hb hr env,
            False.elim, fun t ht => cipherPut_range hb env t ht⟩
      | exn e s => rw [hc] at h; cases h
      | ub => rw [hc] at h; cases h
      | loop => rw [hc] at h; cases h

theorem AuthOk.notWipe {A : AnyAuth} (h : AuthOk False A) :
    MemorySafe (invokeA A.T) notWipeA A.t
      ∧ RangeChecked (invokeA A.T) notWipeA A.t A.T.base.putSubstring := by
  obtain ⟨I, h1, h2, h3, h4, h5⟩ := h
  have hp := h1.notWipeA h2
  exact ⟨hp.safe h3, fun t hr => h5 t (hp.reachable h3 hr)⟩

end AEAD

/-! ### ChaCha20-Poly1305 -/

/-- Weak invariant of the Poly1305 context. -/
def PolySafe (c : PolyCtx) : Prop := c.buffer.length = 16 ∧ c.numbytes < 16

theorem mdAdd_some {γ : Type} {n : Nat} {via : Bool} {tr : γ → Bytes → γ} {c : MDBuf γ}
    (hb : c.buffer.length = n) (hl : c.numbytes < n) (data : Bytes) :
    ∃ c', mdAdd n via tr c data = some c' ∧ c'.buffer.length = n ∧ c'.numbytes < n := by
  have hr : MDRep n tr c.h (c.buffer.take c.numbytes) c :=
    ⟨hb, [], c.buffer.take c.numbytes, by simp, by simp, by simp; omega, rfl, by simp; omega, by simp⟩
  obtain ⟨c', h1, h2, bs, rest, -, -, h3, -, h4, -⟩ := mdAdd_rep (by omega) hr data (via := via)
  exact ⟨c', h1, h2, by omega⟩

theorem polyUpdate_some {h : PolyCtx} (hh : PolySafe h) {src : Bytes} {ofs len : Nat}
    (hl : ofs + len ≤ src.length) : ∃ h', polyUpdate h src ofs len = some h' ∧ PolySafe h' := by
  unfold polyUpdate
  rw [if_neg (by omega), Int.toNat_natCast, cRead_ok hl]
  obtain ⟨c', h1, h2, h3⟩ := mdAdd_some (via := false) (tr := poly64Block) hh.1 hh.2 (slice src ofs len)
  exact ⟨c', h1, h2, h3⟩

theorem polyUpdatePad_some {h : PolyCtx} (hh : PolySafe h) (n : Nat) :
    ∃ h', polyUpdatePad h n = some h' ∧ PolySafe h' := by
  unfold polyUpdatePad
  simp only []
  split
  · have := polyUpdate_some hh (src := List.replicate ((0x10 - n) % 16) 0) (ofs := 0)
      (len := (0x10 - n) % 16) (by simp)
    exact this
  · exact ⟨_, rfl, hh⟩

theorem poly64Final_some {h : PolyCtx} (hh : PolySafe h) :
    ∃ tag h', poly64Final h = some (tag, h') ∧ PolySafe h' := by
  unfold poly64Final
  split
  · have w1 := cWrite_ok (b := h.buffer) (o := h.numbytes) (x := [(1 : Byte)])
      (by have := hh.1; have := hh.2; simp; omega)
    have l1 : (splice h.buffer h.numbytes [(1 : Byte)]).length = 16 := by
      rw [splice_length (by have := hh.1; have := hh.2; simp; omega)]; exact hh.1
    have w2 := cWrite_ok (b := splice h.buffer h.numbytes [(1 : Byte)]) (o := h.numbytes + 1)
      (x := List.replicate (16 - (h.numbytes + 1)) (0 : Byte)) (by have := hh.2; simp only [List.length_replicate]; omega)
    have l2 : (splice (splice h.buffer h.numbytes [(1 : Byte)]) (h.numbytes + 1)
        (List.replicate (16 - (h.numbytes + 1)) (0 : Byte))).length = 16 := by
      rw [splice_length (by have := hh.2; simp only [List.length_replicate]; omega)]; exact l1
    simp only [w1, w2, bind, Option.bind_some, pure]
    exact ⟨_, _, rfl, l2, hh.2⟩
  · exact ⟨_, _, rfl, hh⟩

/-- Weak invariant of the variables of `chapoly_encrypt` and `chapoly_decrypt`. -/
def ChaPolySafe (st : ChaPolySt) : Prop := st.cha.output.length = 64 ∧ PolySafe st.h

theorem chapolyCha_safe {src : Src} {so dofs len : Int} {st : ChaPolySt} {dst : Bytes}
    (hs : ChaPolySafe st) :
    (chapolyCha src so dofs len (st, dst)).Post
      (fun _ p => ChaPolySafe p.1 ∧ p.2.length = dst.length ∧ StreamArgs src dst so dofs len)
      (fun e p => (e = .invalidArg ∨ e = .error .messageTooLong) ∧ ChaPolySafe p.1
        ∧ p.2.length = dst.length) :=
  Post.zoom (chacha20_safe.run (src := src) (so := so) (dofs := dofs) (len := len) (dst := dst) hs.1 trivial)
    (fun _ _ x => ⟨⟨x.1, hs.2⟩, x.2.1, x.2.2⟩) fun _ _ x => ⟨x.1, ⟨x.2.1, hs.2⟩, x.2.2⟩

theorem chapolyHash_safe {b : Bytes} {ofs len : Int} {p : ChaPolySt × Bytes}
    (hs : ChaPolySafe p.1) (hl : InRange b ofs len) {E : Exn → ChaPolySt × Bytes → Prop} :
    (chapolyHash b ofs len p).Post (fun _ q => ChaPolySafe q.1 ∧ q.2 = p.2) E := by
  unfold chapolyHash
  obtain ⟨st, dst⟩ := p
  obtain ⟨h0, h1, h2⟩ := hl
  refine Post.bind_get (s := (st, dst)) ?_
  obtain ⟨r, e1, e2⟩ := polyUpdate_some hs.2 (src := b) (ofs := ofs.toNat) (len := len.toNat) (by omega)
  rw [Int.toNat_of_nonneg h1, Int.toNat_of_nonneg h0] at e1
  refine Post.bind_orUB e1 ?_
  exact ⟨⟨hs.1, e2⟩, rfl⟩

theorem chapolyEnc_safe (ivLength : Nat) : SafeStream (chapolyEnc ivLength) ChaPolySafe anyArgs := by
  refine ⟨?_⟩
  intro st src so dofs len dst hs _
  refine Post.bind (chapolyCha_safe hs) ?_
  rintro - ⟨st1, d1⟩ ⟨g1, g2, g3⟩
  simp only at g1 g2
  refine Post.bind_get (s := (st1, d1)) ?_
  refine Post.bind (chapolyHash_safe (p := (st1, d1)) (b := d1) g1
    ⟨g3.1, g3.2.2.2.1, by have := g3.2.2.2.2; omega⟩) ?_
  rintro - ⟨st2, d2⟩ ⟨g4, g5⟩
  simp only at g4 g5
  subst g5
  refine Post.bind_modify (s := (st2, d2)) ?_
  refine Post.bind_get ?_
  simp only []
  split
  · exact ⟨.inr rfl, g4, g2⟩
  · exact ⟨g4, g2, g3⟩

/-- Arguments within which `chapoly_decrypt` stays: those in which the source range is legal. -/
def srcArgs (src : Src) (dst : Bytes) (so _dofs len : Int) : Prop := InRange (src.read dst) so len

theorem chapolyDec_safe : SafeStream chapolyDec ChaPolySafe srcArgs := by
  refine ⟨?_⟩
  intro st src so dofs len dst hs hok
  refine Post.bind_get (s := (st, dst)) ?_
  refine Post.bind (chapolyHash_safe (p := (st, dst)) (b := src.read dst) hs hok) ?_
  rintro - ⟨st2, d2⟩ ⟨g4, g5⟩
  simp only at g4 g5
  subst g5
  refine Post.bind (chapolyCha_safe g4) ?_
  rintro - ⟨st1, d1⟩ g
  exact g

theorem chapolyWipe_safe (st : ChaPolySt) (hs : ChaPolySafe st) : ChaPolySafe (chapolyWipe st) :=
  ⟨by simpa [chapolyWipe, ChaCha.wipe] using hs.1, by simpa [chapolyWipe] using hs.2.1, by simp [chapolyWipe]⟩

theorem chapolyFinish_safe (env : Env) (t : StreamSt ChaPolySt) (ht : StreamSafe ChaPolySafe t) :
    (chapolyFinish env t).Post (fun _ => StreamSafe ChaPolySafe) (fun _ => StreamSafe ChaPolySafe) := by
  refine Post.zoom (Q := fun _ => ChaPolySafe) (E := fun _ => ChaPolySafe) ?_
    (fun _ _ x => ⟨x, ht.charbuf, ht.ob⟩) (fun _ _ x => ⟨x, ht.charbuf, ht.ob⟩)
  unfold polyFinishAndGetTag
  refine Post.bind_get ?_
  obtain ⟨h1, e1, s1⟩ := polyUpdatePad_some ht.cst.2 (t.c.cipherlen.toNat % 16)
  refine Post.bind_orUB e1 ?_
  refine Post.bind_orRaise ht.cst ?_
  intro b1 hb1
  refine Post.bind_orRaise ht.cst ?_
  intro b2 hb2
  have l2 := (bytesBlit_length hb2).trans ((bytesBlit_length hb1).trans (Env.create_length env 16))
  obtain ⟨h2, e2, s2⟩ := polyUpdate_some s1 (src := b2) (ofs := 0) (len := 16) (by omega)
  refine Post.bind_orUB e2 ?_
  obtain ⟨tag, h3, e3, s3⟩ := poly64Final_some s2
  refine Post.bind_orUB e3 ?_
  exact ⟨ht.cst.1, s3⟩

theorem chapolyInit_safe {env : Env} {header iv key : Bytes} {t : StreamSt ChaPolySt} {u : Unit}
    (h : chacha20Poly1305Init env header iv key = .ok t u) : StreamSafe ChaPolySafe t := by
  unfold chacha20Poly1305Init chapolyInit at h
  cases hc : chacha20Init env key (some iv) none with
  | error e => rw [hc] at h; cases h
  | ok cha =>
    rw [hc] at h
    simp only [] at h
    have hi := chacha20Init_safe hc
    have hp : (polyInitHash env header cha).Post (fun h c => PolySafe h ∧ c.output.length = 64)
        (fun _ _ => True) := by
      unfold polyInitHash
      refine Post.bind (Q := fun b c => b.length = 64 ∧ c.output.length = 64) ?_ ?_
      · unfold chachaLocal
        have hr := chacha20_safe.run (src := .self) (so := 0) (dofs := 0) (len := 64)
          (dst := List.replicate 64 0) hi trivial
        cases hc : chacha20.transform .self 0 0 64 (cha, List.replicate 64 0) with
        | ok a p => rw [hc] at hr; exact ⟨hr.2.1.trans List.length_replicate, hr.1⟩
        | exn e p => trivial
        | ub => rw [hc] at hr; exact hr.elim
        | loop => rw [hc] at hr; exact hr.elim
      · rintro b c ⟨_, l2⟩
        obtain ⟨h1, e1, s1⟩ := polyUpdate_some (h := poly64Init (b.take 32) (env.create 16))
          ⟨Env.create_length _ _, by show 0 < 16; decide⟩ (src := header) (ofs := 0) (len := header.length)
          (by omega)
        refine Post.bind_orUB e1 ?_
        obtain ⟨h2, e2, s2⟩ := polyUpdatePad_some s1 (header.length % 16)
        rw [e2]
        exact ⟨s2, l2⟩
    cases hq : polyInitHash env header cha with
    | ok hh c =>
      rw [hq] at h hp
      cases h
      exact streamInit_safe env ⟨hp.2, hp.1⟩
    | exn e c => rw [hq] at h; cases h
    | ub => rw [hq] at h; cases h
    | loop => rw [hq] at h; cases h

theorem chapolyEnc_preserves (env : Env) (ivLength : Nat) :
    Preserves (invokeA (chacha20Poly1305 env ivLength .encrypt)) anyCall (StreamSafe ChaPolySafe) :=
  TSafe.anyA (A := chacha20Poly1305 env ivLength .encrypt) (streamTransform_safe (chapolyEnc_safe ivLength) env)
    (chapolyFinish_safe env) (streamTransform_wipe (c := chapolyEnc ivLength) chapolyWipe_safe env)

theorem chapolyDec_preserves (env : Env) (ivLength : Nat) :
    Preserves (invokeA (chacha20Poly1305 env ivLength .decrypt)) inRangeA (StreamSafe ChaPolySafe) := by
  have put : ∀ (b : Bytes) (ofs len : Int), InRange b ofs len → ∀ t, StreamSafe ChaPolySafe t →
      (streamPut env chapolyDec b ofs len t).Post (fun _ => StreamSafe ChaPolySafe)
        (fun _ => StreamSafe ChaPolySafe) := fun b ofs len hr t ht =>
    Post.mono (streamPut_safe chapolyDec_safe env b ofs len t ht (fun _ _ _ => hr)) (fun _ _ x => x.1)
      fun _ _ x => x.1
  have char : ∀ (ch : Byte) t, StreamSafe ChaPolySafe t →
      (streamPutChar env chapolyDec ch t).Post (fun _ => StreamSafe ChaPolySafe)
        (fun _ => StreamSafe ChaPolySafe) := fun ch t ht =>
    streamPutChar_safe chapolyDec_safe env ch t ht (fun b _ hb _ _ => ⟨by decide, by decide, by
      simp only [Src.read]; omega⟩)
  -- a transform whose `put_substring` is restricted to legal ranges
  intro c hc t ht
  have hbuf := inheritBuf_safe (get := StreamSt.ob) (set := fun o (t : StreamSt ChaPolySt) => { t with ob := o })
    (p := ⟨fun _ _ _ => pure (), fun _ => pure (), fun _ => pure (), fun _ => pure (), pure (), pure (), pure ()⟩)
    (I := StreamSafe ChaPolySafe) (fun _ ht => ht.ob) (fun _ _ ht ho => ⟨ht.cst, ht.charbuf, ho⟩)
    (fun _ _ _ _ h => h) (fun _ _ h => h) (fun _ _ h => h) (fun _ _ h => h)
  cases c with
  | finishAndGetTag => exact Post.discard (chapolyFinish_safe env t ht)
  | buf c =>
    cases c with
    | putSubstring b ofs len => exact put b ofs len hc t ht
    | putString s => exact put s 0 s.length ⟨by omega, by omega, by omega⟩ t ht
    | putChar ch => exact char ch t ht
    | putByte b => exact char _ t ht
    | availableOutput => exact Post.discard (hbuf.availableOutput t ht)
    | getString => exact Post.discard (hbuf.getString t ht)
    | getSubstring => exact Post.discard (hbuf.getSubstring t ht)
    | getChar => exact Post.discard (hbuf.getChar t ht)
    | getByte => exact Post.discard (hbuf.getByte t ht)
    | wipe => exact streamTransform_wipe (c := chapolyDec) chapolyWipe_safe env t ht

end Verif
