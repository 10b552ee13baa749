import Verif.Proof.Interrupt
import Verif.Proof.SafeAead
import Verif.Model.InterruptAead
/-
Safety of the authenticated ciphers under interruptions.
-/
namespace Verif

open Spec CipherSt

/-! ### AES-GCM -/

section gcm

variable {κ : Type} [Ticking κ] {aes : BlockCipher κ} {I : κ → Prop}

theorem gcm_stable (hI : TickStable I) : TickStable (GcmSafe I) := fun _ h =>
  ⟨hI _ h.aes, h.ctr, h.e0, h.mac, h.buf⟩

abbrev GcmP (I : κ → Prop) (d : Nat) (p : GcmSt κ × Bytes) : Prop := GcmSafe I p.1 ∧ p.2.length = d

theorem gcm_poll (hI : TickStable I) {d : Nat} {k : Unit → M (GcmSt κ × Bytes) β}
    {R : β → GcmSt κ × Bytes → Prop} {p : GcmSt κ × Bytes} (hp : GcmP I d p)
    (hk : ∀ p', GcmP I d p' → p'.2 = p.2 → (k () p').Post R (fun _ => GcmP I d)) :
    ((poll >>= k) p).Post R (fun _ => GcmP I d) :=
  Post.bind_poll (P := fun q => GcmP I d q ∧ q.2 = p.2) ⟨⟨gcm_stable hI _ hp.1, hp.2⟩, rfl⟩
    (fun _ _ x => x.1) fun q x => hk q x.1 x.2

theorem gcm_end (hI : TickStable I) {d : Nat} {p : GcmSt κ × Bytes} (hp : GcmP I d p) :
    ((poll : M (GcmSt κ × Bytes) Unit) p).Post (fun _ => GcmP I d) (fun _ => GcmP I d) :=
  Post.poll (P := GcmP I d) ⟨gcm_stable hI _ hp.1, hp.2⟩ (fun _ _ x => x) fun _ x => x

theorem ctrEncDecI_safe (h : ISafeBlock aes I) (hn : aes.blocksize = 16) {src : Src} {so dofs len d : Nat}
    {p : GcmSt κ × Bytes} (hp : GcmP I d p)
    (h1 : ∀ dst : Bytes, dst.length = d → so + len ≤ (src.read dst).length) (h2 : dofs + len ≤ d)
    (hl : len ≤ 16) :
    (ctrEncDecI aes src so dofs len p).Post (fun _ => GcmP I d) (fun _ => GcmP I d) := by
  refine gcm_poll h.stable hp ?_
  intro p1 g1 _
  refine Post.bind (Q := fun _ => GcmP I d)
    (Post.zoom (incrementCounterI_safe (n := 16) (d := d) h.stable 12 16 _ _ (Nat.le_refl _)
      ⟨g1.1.aes, g1.1.ctr, g1.1.buf⟩ g1.2)
      (fun _ q x => ⟨⟨x.1.1, x.1.2.1, g1.1.e0, g1.1.mac, g1.1.buf⟩, x.2⟩)
      (fun _ q x => ⟨⟨x.1.1, x.1.2.1, g1.1.e0, g1.1.mac, g1.1.buf⟩, x.2⟩)) ?_
  rintro - p2 g2
  refine gcm_poll h.stable g2 ?_
  intro p3 g3 _
  refine Post.bind_get ?_
  have hc := g3.1.ctr
  have hbf := g3.1.buf
  refine Post.bind (Q := fun _ => GcmP I d)
    (Post.zoom (h.run (src := .other p3.1.ctr) (so := 0) (dofs := 0) (dst := p3.1.buf) g3.1.aes
      (by simp only [Src.read]; omega) (by omega))
      (fun _ q x => ⟨⟨x.1, hc, g3.1.e0, g3.1.mac, x.2.trans hbf⟩, g3.2⟩)
      (fun _ q x => ⟨⟨x.1, hc, g3.1.e0, g3.1.mac, x.2.trans hbf⟩, g3.2⟩)) ?_
  rintro - p4 g4
  refine gcm_poll h.stable g4 ?_
  intro p5 g5 _
  refine Post.bind_get ?_
  obtain ⟨b, b1, b2⟩ := xorC_at_some (x := src.read p5.2) (dst := p5.1.buf) (so := so) (dofs := 0)
    (n := len) (h1 _ g5.2) (by have := g5.1.buf; omega)
  rw [Int.natCast_zero] at b1
  refine Post.bind_orUB b1 ?_
  refine Post.bind_modify ?_
  refine gcm_poll (d := d) h.stable ⟨⟨g5.1.aes, g5.1.ctr, g5.1.e0, g5.1.mac, b2.trans g5.1.buf⟩, g5.2⟩ ?_
  intro p6 g6 _
  refine Post.bind_get ?_
  have hb6 := g6.1.buf
  have hd6 := g6.2
  obtain ⟨d', b3, b4⟩ := blit_some (src := p6.1.buf) (so := 0) (dst := p6.2) (dofs := dofs) (n := len)
    (by omega) (by omega)
  rw [Int.natCast_zero] at b3
  refine Post.bind_orRaise_some b3 ?_
  refine Post.bind_modify ?_
  exact gcm_end h.stable ⟨g6.1, b4.trans hd6⟩

theorem gcmHashI_safe (hI : TickStable I) {b : Bytes} {ofs len d : Nat} {p : GcmSt κ × Bytes}
    (hp : GcmP I d p) (hb : ofs + len ≤ b.length) (hl : len ≤ 16) :
    (gcmHashI b ofs len p).Post (fun _ => GcmP I d) (fun _ => GcmP I d) := by
  refine gcm_poll hI hp ?_
  intro p1 g1 _
  refine Post.bind_get ?_
  obtain ⟨x, h1, h2⟩ := xorC_at_some (x := b) (dst := p1.1.mac) (so := ofs) (dofs := 0) (n := len) hb
    (by have := g1.1.mac; omega)
  rw [Int.natCast_zero] at h1
  refine Post.bind_orUB h1 ?_
  refine Post.bind_modify ?_
  refine gcm_poll (d := d) hI ⟨⟨g1.1.aes, g1.1.ctr, g1.1.e0, h2.trans g1.1.mac, g1.1.buf⟩, g1.2⟩ ?_
  intro p2 g2 _
  refine Post.bind_get ?_
  obtain ⟨r, h3, h4⟩ := cGhashMult_some p2.1.h g2.1.mac
  refine Post.bind_orUB h3 ?_
  refine Post.bind_modify ?_
  exact gcm_end hI ⟨⟨g2.1.aes, g2.1.ctr, g2.1.e0, h4, g2.1.buf⟩, g2.2⟩

theorem gcmCheckI_safe {d : Nat} {p : GcmSt κ × Bytes} (hp : GcmP I d p) :
    (gcmCheck p).Post (fun _ => GcmP I d) (fun _ => GcmP I d) :=
  Post.mono (gcmCheck_safe hp.1) (fun _ _ x => x ▸ hp) fun _ _ x => x.2 ▸ hp

theorem gcmEncWrappedI_safe (h : ISafeBlock aes I) (hn : aes.blocksize = 16) :
    ISafeBlock (gcmEncWrappedI aes) (GcmSafe I) := by
  refine ⟨by show 0 < 16; decide, gcm_stable h.stable, ?_⟩
  intro st src so dofs dst hs h1 h2
  change so + 16 ≤ _ at h1
  change dofs + 16 ≤ _ at h2
  refine Post.bind (ctrEncDecI_safe h hn (d := dst.length) (p := (st, dst)) (len := 16) ⟨hs, rfl⟩ ?_ h2
    (Nat.le_refl _)) ?_
  · intro dst' hd
    cases src with
    | self => simp only [Src.read] at h1 ⊢; omega
    | other b => exact h1
  rintro - p1 g1
  refine Post.bind_get ?_
  refine Post.bind (gcmHashI_safe h.stable (b := p1.2) (ofs := dofs) (len := 16) g1
    (by have := g1.2; omega) (Nat.le_refl _)) ?_
  rintro - p2 g2
  refine Post.bind_modify ?_
  refine gcm_poll (d := dst.length) h.stable
    ⟨⟨g2.1.aes, g2.1.ctr, g2.1.e0, g2.1.mac, g2.1.buf⟩, g2.2⟩ ?_
  intro p3 g3 _
  exact gcmCheckI_safe g3

theorem gcmDecWrappedI_safe (h : ISafeBlock aes I) (hn : aes.blocksize = 16) :
    ISafeBlock (gcmDecWrappedI aes) (GcmSafe I) := by
  refine ⟨by show 0 < 16; decide, gcm_stable h.stable, ?_⟩
  intro st src so dofs dst hs h1 h2
  change so + 16 ≤ _ at h1
  change dofs + 16 ≤ _ at h2
  refine Post.bind_get ?_
  refine Post.bind (gcmHashI_safe h.stable (b := src.read dst) (ofs := so) (len := 16) (d := dst.length)
    (p := (st, dst)) ⟨hs, rfl⟩ h1 (Nat.le_refl _)) ?_
  rintro - p2 g2
  refine Post.bind (ctrEncDecI_safe h hn (d := dst.length) (len := 16) g2 ?_ h2 (Nat.le_refl _)) ?_
  · intro dst' hd
    cases src with
    | self => simp only [Src.read] at h1 ⊢; omega
    | other b => exact h1
  rintro - p1 g1
  refine Post.bind_modify ?_
  exact gcm_end h.stable ⟨⟨g1.1.aes, g1.1.ctr, g1.1.e0, g1.1.mac, g1.1.buf⟩, g1.2⟩

/-- Invariant of `finish_and_get_tag` once there is room for `u` bytes. -/
structure GcmF (I : κ → Prop) (c : BlockCipher (GcmSt κ)) (u r : Nat) (t : CipherSt (GcmSt κ)) : Prop where
  safe : ICipherSafe c (GcmSafe I) t
  used : t.used = u
  room : t.ob.oend + r ≤ t.ob.obuf.length

variable {c : BlockCipher (GcmSt κ)}

theorem gcmOnOutI_safe {m : M (GcmSt κ × Bytes) Unit} {t : CipherSt (GcmSt κ)} {u r : Nat}
    (ht : GcmF I c u r t)
    (hm : (m (t.c, t.ob.obuf)).Post (fun _ => GcmP I t.ob.obuf.length)
      (fun _ => GcmP I t.ob.obuf.length)) :
    (gcmOnOut m t).Post (fun _ => GcmF I c u r) (ICipherE c (GcmSafe I)) := by
  have hp := ht.safe.ob.pos
  have hle := ht.safe.ob.le
  have hr := ht.room
  refine Post.zoom hm (fun _ q x => ?_) fun _ q x => ?_
  · have := x.2
    exact ⟨⟨x.1, ht.safe.ibuf, ht.safe.used, by simp only; omega, by simp only; omega⟩, ht.used, by
      simp only; omega⟩
  · have := x.2
    exact ⟨x.1, ht.safe.ibuf, ht.safe.used, by simp only; omega, by simp only; omega⟩

theorem gcmF_poll (hI : TickStable I) {t : CipherSt (GcmSt κ)} {u r : Nat}
    {k : Unit → M (CipherSt (GcmSt κ)) β} {R : β → CipherSt (GcmSt κ) → Prop} (ht : GcmF I c u r t)
    (hk : ∀ t', GcmF I c u r t' → (k () t').Post R (ICipherE c (GcmSafe I))) :
    ((poll >>= k) t).Post R (ICipherE c (GcmSafe I)) :=
  Post.bind_poll (P := GcmF I c u r)
    ⟨⟨gcm_stable hI _ ht.safe.cst, ht.safe.ibuf, ht.safe.used, ht.safe.ob⟩, ht.used, ht.room⟩
    (fun _ _ x => x.safe) fun q x => hk q x

theorem gcmTagI_safe (hI : TickStable I) (env : Env) {t : CipherSt (GcmSt κ)}
    (ht : ICipherSafe c (GcmSafe I) t) :
    (gcmTagI env t).Post (fun _ => ICipherSafe c (GcmSafe I)) (ICipherE c (GcmSafe I)) := by
  refine gcmF_poll (u := t.used) (r := 0) hI ⟨ht, rfl, by have := ht.ob.le; omega⟩ ?_
  intro t1 h1
  refine Post.bind_get ?_
  refine Post.bind_orRaise h1.safe ?_
  intro b1 e1
  have l1 := (bytesBlit_length e1).trans (Env.create_length env 16)
  refine Post.bind_orRaise h1.safe ?_
  intro b2 e2
  have l2 := (bytesBlit_length e2).trans l1
  refine Post.bind (gcmOnOutI_safe h1 (gcmHashI_safe hI (b := b2) (ofs := 0) (len := 16)
    ⟨h1.safe.cst, rfl⟩ (by omega) (Nat.le_refl _))) ?_
  rintro - t2 h2
  refine Post.bind_get ?_
  refine Post.bind_orRaise h2.safe ?_
  intro b4 e4
  have l4 := (bytesBlit_length e4).trans l2
  obtain ⟨x, h5, h6⟩ := xorC_at_some (x := t2.c.e0) (dst := b4) (so := 0) (dofs := 0) (n := 16)
    (by have := h2.safe.cst.e0; omega) (by omega)
  change xorC (.other t2.c.e0) 0 b4 0 16 = some x at h5
  rw [h5]
  exact h2.safe

theorem gcmEncFinishI_safe (h : ISafeBlock aes I) (hn : aes.blocksize = 16) (env : Env)
    (t : CipherSt (GcmSt κ)) (ht : ICipherSafe (gcmEncWrappedI aes) (GcmSafe I) t) :
    (gcmEncFinishI env aes t).Post (fun _ => ICipherSafe (gcmEncWrappedI aes) (GcmSafe I))
      (ICipherE (gcmEncWrappedI aes) (GcmSafe I)) := by
  have hw := gcmEncWrappedI_safe h hn
  refine Post.bind (Q := fun _ => ICipherSafe (gcmEncWrappedI aes) (GcmSafe I)) ?_
    (fun _ t1 h1 => gcmTagI_safe h.stable env h1)
  refine gcmF_poll (u := t.used) (r := 0) h.stable ⟨ht, rfl, by have := ht.ob.le; omega⟩ ?_
  intro t0 h0
  refine Post.bind_get ?_
  split
  · have hu := h0.safe.used
    change t0.used ≤ 16 at hu
    refine Post.bind (Q := fun _ => GcmF I (gcmEncWrappedI aes) t0.used t0.used)
      (Post.mono (ensureI_safe hw env t0 h0.safe t0.used) (fun _ _ x => ⟨x.1, x.2.1, x.2.2⟩)
        fun _ _ x => x) ?_
    rintro - t1 h1
    refine Post.bind_get ?_
    have hib : t1.ibuf.length = 16 := h1.safe.ibuf
    have hu1 := h1.used
    refine Post.bind (gcmOnOutI_safe h1 (ctrEncDecI_safe h hn (src := .other t1.ibuf) (so := 0)
      (dofs := t1.ob.oend) (len := t1.used) ⟨h1.safe.cst, rfl⟩
      (by intro _ _; simp only [Src.read]; omega) (by have := h1.room; omega) (by omega))) ?_
    rintro - t2 h2
    refine Post.bind_get ?_
    have hu2 := h2.used
    refine Post.bind (gcmOnOutI_safe h2 (gcmHashI_safe h.stable (b := t2.ob.obuf) (ofs := t2.ob.oend)
      (len := t2.used) ⟨h2.safe.cst, rfl⟩ (by have := h2.room; omega) (by omega))) ?_
    rintro - t3 h3
    refine Post.bind_modify ?_
    have hu3 := h3.used
    have hr3 := h3.room
    have h4 : GcmF I (gcmEncWrappedI aes) t0.used 0
        { t3 with ob := { t3.ob with oend := t3.ob.oend + t3.used } } :=
      ⟨⟨h3.safe.cst, h3.safe.ibuf, h3.safe.used, h3.safe.ob.pos, by simp only; omega⟩, hu3, by
        simp only; omega⟩
    refine gcmF_poll h.stable h4 ?_
    intro t5 h5
    refine Post.bind (gcmOnOutI_safe h5 (m := gcmCount (BitVec.ofNat 64 t2.used))
      ⟨⟨h5.safe.cst.aes, h5.safe.cst.ctr, h5.safe.cst.e0, h5.safe.cst.mac, h5.safe.cst.buf⟩, rfl⟩) ?_
    rintro - t6 h6
    refine gcmF_poll h.stable h6 ?_
    intro t7 h7
    exact Post.mono (gcmOnOutI_safe h7 (gcmCheckI_safe ⟨h7.safe.cst, rfl⟩)) (fun _ _ x => x.safe)
      fun _ _ x => x
  · exact h0.safe

theorem gcmDecFinishI_safe (h : ISafeBlock aes I) (hn : aes.blocksize = 16) (env : Env)
    (t : CipherSt (GcmSt κ)) (ht : ICipherSafe (gcmDecWrappedI aes) (GcmSafe I) t) :
    (gcmDecFinishI env aes t).Post (fun _ => ICipherSafe (gcmDecWrappedI aes) (GcmSafe I))
      (ICipherE (gcmDecWrappedI aes) (GcmSafe I)) := by
  have hw := gcmDecWrappedI_safe h hn
  refine Post.bind (Q := fun _ => ICipherSafe (gcmDecWrappedI aes) (GcmSafe I)) ?_
    (fun _ t1 h1 => gcmTagI_safe h.stable env h1)
  refine gcmF_poll (u := t.used) (r := 0) h.stable ⟨ht, rfl, by have := ht.ob.le; omega⟩ ?_
  intro t0 h0
  refine Post.bind_get ?_
  split
  · have hu := h0.safe.used
    change t0.used ≤ 16 at hu
    have hib0 : t0.ibuf.length = 16 := h0.safe.ibuf
    refine Post.bind (gcmOnOutI_safe h0 (gcmHashI_safe h.stable (b := t0.ibuf) (ofs := 0)
      (len := t0.used) ⟨h0.safe.cst, rfl⟩ (by omega) (by omega))) ?_
    rintro - t9 h9
    refine Post.bind (Q := fun _ => GcmF I (gcmDecWrappedI aes) t0.used t0.used)
      (Post.mono (ensureI_safe hw env t9 h9.safe t0.used)
        (fun _ _ x => ⟨x.1, x.2.1.trans (h9.used.trans h0.used.symm), x.2.2⟩) fun _ _ x => x) ?_
    rintro - t1 h1
    refine Post.bind_get ?_
    have hib : t1.ibuf.length = 16 := h1.safe.ibuf
    have hu1 := h1.used
    refine Post.bind (gcmOnOutI_safe h1 (ctrEncDecI_safe h hn (src := .other t1.ibuf) (so := 0)
      (dofs := t1.ob.oend) (len := t1.used) ⟨h1.safe.cst, rfl⟩
      (by intro _ _; simp only [Src.read]; omega) (by have := h1.room; omega) (by omega))) ?_
    rintro - t3 h3
    refine Post.bind_modify ?_
    have hu3 := h3.used
    have hr3 := h3.room
    have h4 : GcmF I (gcmDecWrappedI aes) t0.used 0
        { t3 with ob := { t3.ob with oend := t3.ob.oend + t3.used } } :=
      ⟨⟨h3.safe.cst, h3.safe.ibuf, h3.safe.used, h3.safe.ob.pos, by simp only; omega⟩, hu3, by
        simp only; omega⟩
    refine gcmF_poll h.stable h4 ?_
    intro t5 h5
    refine Post.bind (gcmOnOutI_safe h5 (m := gcmCount (BitVec.ofNat 64 t1.used))
      ⟨⟨h5.safe.cst.aes, h5.safe.cst.ctr, h5.safe.cst.e0, h5.safe.cst.mac, h5.safe.cst.buf⟩, rfl⟩) ?_
    rintro - t6 h6
    exact Post.mono (cipher_end hw.stable h6.safe) (fun _ _ x => x.1) fun _ _ x => x
  · exact h0.safe

end gcm

namespace AEAD
open Cipher

theorem aesGcmI_ok {env : Env} {host : AesHost} {pclmul : Bool} {header : Option Bytes} {iv key : Bytes}
    {dir : Dir} {sched : Sched} {A : AnyAuth}
    (h : AEAD.aesGcmI env host pclmul header iv key dir sched = some (.ok A)) :
    MemorySafe (invokeA A.T) notWipeA A.t := by
  unfold AEAD.aesGcmI at h
  cases ho : aesBlock host .encrypt key with
  | none => rw [ho] at h; cases h
  | some r =>
    rw [ho] at h
    cases r with
    | error e => cases h
    | ok b =>
      obtain ⟨⟨I, h1, h2, h3⟩, hn⟩ := aesBlock_ok ho
      simp only [Option.bind_some] at h
      have ha : SafeBlock b.c.atomic (fun p : Sched × b.σ => I p.2) := ⟨h1.pos, fun {s src so dofs dst} hi hs hd =>
        Post.zoom (get := fun p : (Sched × b.σ) × Bytes => (p.1.2, p.2))
          (set := fun r p => ((p.1.1, r.1), r.2)) (t := (s, dst))
          (h1.run (s := s.2) (dst := dst) hi hs hd) (fun _ _ x => x) fun _ _ x => x⟩
      have hi := h1.atomic
      have hr := gcmInit_safe ha hn env pclmul (header.getD []) iv (k := (sched, b.s)) h2
      unfold aesGcmInit at h
      cases hc : gcmInit env pclmul b.c.atomic (header.getD []) iv (sched, b.s) with
      | ok st s =>
        rw [hc] at h hr
        cases h
        cases dir with
        | encrypt =>
          have hb := gcmEncWrappedI_safe hi hn
          exact ((blockTransformI_safe hb env).notWipeA (A := Verif.aesGcmI env b.c.atomic .encrypt)
            (gcmEncFinishI_safe hi hn env)).safe (cipherInitI_safe hb hr env)
        | decrypt =>
          have hb := gcmDecWrappedI_safe hi hn
          exact ((blockTransformI_safe hb env).notWipeA (A := Verif.aesGcmI env b.c.atomic .decrypt)
            (gcmDecFinishI_safe hi hn env)).safe (cipherInitI_safe hb hr env)
      | exn e s => rw [hc] at h; cases h
      | ub => rw [hc] at h; cases h
      | loop => rw [hc] at h; cases h

end AEAD

/-! ### ChaCha20-Poly1305 -/

section chapoly

/-- The invariant of the variables, in a state with a schedule. -/
abbrev ChaPolyI (s : Sched × ChaPolySt) : Prop := ChaPolySafe s.2

abbrev ChaPolyP (d : Nat) (p : (Sched × ChaPolySt) × Bytes) : Prop := ChaPolyI p.1 ∧ p.2.length = d

theorem chapolyI_stable : TickStable ChaPolyI := fun _ h => h

theorem chapoly_poll {d : Nat} {k : Unit → M ((Sched × ChaPolySt) × Bytes) β}
    {R : β → (Sched × ChaPolySt) × Bytes → Prop} {p : (Sched × ChaPolySt) × Bytes} (hp : ChaPolyP d p)
    (hk : ∀ p', ChaPolyP d p' → p'.2 = p.2 → (k () p').Post R (fun _ => ChaPolyP d)) :
    ((poll >>= k) p).Post R (fun _ => ChaPolyP d) :=
  Post.bind_poll (P := fun q => ChaPolyP d q ∧ q.2 = p.2) ⟨hp, rfl⟩
    (fun _ _ x => x.1) fun q x => hk q x.1 x.2

theorem chapoly_end {d : Nat} {p : (Sched × ChaPolySt) × Bytes} (hp : ChaPolyP d p) :
    ((poll : M ((Sched × ChaPolySt) × Bytes) Unit) p).Post (fun _ => ChaPolyP d) (fun _ => ChaPolyP d) :=
  Post.poll (P := ChaPolyP d) hp (fun _ _ x => x) fun _ x => x

/-- The variables of the cipher in a state with a schedule. -/
abbrev onChaS (m : M (ChaPolySt × Bytes) α) : M ((Sched × ChaPolySt) × Bytes) α :=
  onCha (·.2) (fun x p => (p.1, x)) m

theorem onCha_safe {m : M (ChaPolySt × Bytes) α} {p : (Sched × ChaPolySt) × Bytes}
    {Q : α → ChaPolySt × Bytes → Prop} {E : Exn → ChaPolySt × Bytes → Prop}
    (hm : (m (p.1.2, p.2)).Post Q E) :
    (onChaS m p).Post (fun a q => Q a (q.1.2, q.2)) (fun e q => E e (q.1.2, q.2)) :=
  Post.zoom hm (fun _ _ x => x) fun _ _ x => x

theorem chapolyEncI_safe (ivLength : Nat) :
    ISafeStream (chapolyEncI (τ := Sched × ChaPolySt) (·.2) (fun x p => (p.1, x)) ivLength) ChaPolyI := by
  refine ⟨chapolyI_stable, ?_⟩
  intro s src so dofs len dst hs
  refine chapoly_poll (d := dst.length) (p := (s, dst)) ⟨hs, rfl⟩ ?_
  rintro ⟨s0, d0⟩ g0 e0
  cases e0
  refine Post.bind (Post.mono (onCha_safe (chapolyCha_safe (src := src) (so := so) (dofs := dofs)
    (len := len) (dst := dst) g0.1)) (fun _ _ x => x) fun _ q x => (⟨x.2.1, x.2.2⟩ : ChaPolyP dst.length q)) ?_
  rintro - ⟨s1, d1⟩ ⟨g1, g2, g3⟩
  simp only at g1 g2
  refine Post.mono (Q := fun _ => ChaPolyP dst.length) (E := fun _ => ChaPolyP dst.length) ?_
    (fun _ _ x => ⟨x.1, x.2, g3⟩) fun _ _ x => x
  refine chapoly_poll (p := (s1, d1)) ⟨g1, g2⟩ ?_
  rintro ⟨s2, d2⟩ g4 e2
  cases e2
  refine Post.bind_get ?_
  refine Post.bind (Post.mono (onCha_safe (p := (s2, d1)) (chapolyHash_safe (p := (s2.2, d1)) (b := d1)
    (ofs := dofs) (len := len) (E := fun _ _ => False) g4.1
    ⟨g3.1, g3.2.2.2.1, by have := g3.2.2.2.2; omega⟩))
    (fun _ q x => (⟨x.1, (congrArg List.length x.2).trans g2⟩ : ChaPolyP dst.length q))
    fun _ _ x => x.elim) ?_
  rintro - p3 g5
  refine chapoly_poll g5 ?_
  rintro p4 g6 -
  refine Post.bind_modify (f := fun p : (Sched × ChaPolySt) × Bytes =>
    ((p.1.1, { p.1.2 with cipherlen := p.1.2.cipherlen + BitVec.ofInt 64 len }), p.2)) ?_
  refine chapoly_poll (d := dst.length) ⟨g6.1, g6.2⟩ ?_
  rintro ⟨s5, d5⟩ g7 -
  refine Post.bind_get ?_
  simp only []
  split
  · exact g7
  · exact g7

theorem chapolyDecI_run {s : Sched × ChaPolySt} {src : Src} {so dofs len : Int} {dst : Bytes}
    (hs : ChaPolyI s) (hok : InRange (src.read dst) so len) :
    ((chapolyDecI (τ := Sched × ChaPolySt) (·.2) (fun x p => (p.1, x))).transform src so dofs len (s, dst)).Post
      (fun _ p => ChaPolyI p.1 ∧ p.2.length = dst.length ∧ StreamArgs src dst so dofs len)
      (fun _ p => ChaPolyI p.1 ∧ p.2.length = dst.length) := by
  refine chapoly_poll (d := dst.length) (p := (s, dst)) ⟨hs, rfl⟩ ?_
  rintro ⟨s0, d0⟩ g0 e0
  cases e0
  refine Post.bind_get ?_
  refine Post.bind (Post.mono (onCha_safe (p := (s0, dst)) (chapolyHash_safe (p := (s0.2, dst))
    (b := src.read dst) (ofs := so) (len := len) (E := fun _ _ => False) g0.1 hok))
    (fun _ _ x => x) fun _ _ x => x.elim) ?_
  rintro - ⟨s1, d1⟩ ⟨g1, e1⟩
  cases e1
  refine chapoly_poll (d := dst.length) (p := (s1, dst)) ⟨g1, rfl⟩ ?_
  rintro ⟨s2, d2⟩ g2 e2
  cases e2
  refine Post.bind (Post.mono (onCha_safe (chapolyCha_safe (src := src) (so := so) (dofs := dofs)
    (len := len) (dst := dst) g2.1)) (fun _ _ x => x) fun _ q x => (⟨x.2.1, x.2.2⟩ : ChaPolyP dst.length q)) ?_
  rintro - p3 ⟨g3, g4, g5⟩
  refine Post.mono (Q := fun _ => ChaPolyP dst.length) (E := fun _ => ChaPolyP dst.length) ?_
    (fun _ _ x => ⟨x.1, x.2, g5⟩) fun _ _ x => x
  refine chapoly_poll ⟨g3, g4⟩ ?_
  rintro p4 g6 -
  refine Post.bind_modify (f := fun p : (Sched × ChaPolySt) × Bytes =>
    ((p.1.1, { p.1.2 with cipherlen := p.1.2.cipherlen + BitVec.ofInt 64 len }), p.2)) ?_
  exact chapoly_end (d := dst.length) ⟨g6.1, g6.2⟩

theorem chapolyFinishI_safe (env : Env) (t : StreamSt (Sched × ChaPolySt)) (ht : IStreamSafe ChaPolyI t) :
    (chapolyFinishI (τ := Sched × ChaPolySt) (·.2) (fun x p => (p.1, x)) env t).Post
      (fun _ => IStreamSafe ChaPolyI) (IStreamE ChaPolyI) := by
  refine stream_poll chapolyI_stable ht ?_
  intro s0 h0
  refine Post.bind_get ?_
  obtain ⟨x1, e1, s1⟩ := polyUpdatePad_some h0.cst.2 (s0.2.cipherlen.toNat % 16)
  refine Post.bind_orUB e1 ?_
  refine Post.bind_modify ?_
  refine stream_poll chapolyI_stable ⟨⟨h0.cst.1, s1⟩, h0.ob⟩ ?_
  intro s2 h2
  refine Post.bind_get ?_
  refine Post.bind_orRaise h2 ?_
  intro b1 hb1
  refine Post.bind_orRaise h2 ?_
  intro b2 hb2
  have l2 := (bytesBlit_length hb2).trans ((bytesBlit_length hb1).trans (Env.create_length env 16))
  obtain ⟨x2, e2, s3⟩ := polyUpdate_some h2.cst.2 (src := b2) (ofs := 0) (len := 16) (by omega)
  refine Post.bind_orUB e2 ?_
  refine Post.bind_modify ?_
  refine stream_poll chapolyI_stable ⟨⟨h2.cst.1, s3⟩, h2.ob⟩ ?_
  intro s4 h4
  refine Post.bind_get ?_
  obtain ⟨tag, x3, e3, s5⟩ := poly64Final_some h4.cst.2
  refine Post.bind_orUB e3 ?_
  refine Post.bind_modify ?_
  refine stream_poll chapolyI_stable ⟨⟨h4.cst.1, s5⟩, h4.ob⟩ ?_
  intro s6 h6
  exact h6

theorem chapolyEncI_preserves (env : Env) (ivLength : Nat) :
    Preserves (invokeA (chacha20Poly1305I (τ := Sched × ChaPolySt) (·.2) (fun x p => (p.1, x)) env ivLength
      .encrypt)) anyCall (IStreamSafe ChaPolyI) :=
  TSafe.anyA (A := chacha20Poly1305I (τ := Sched × ChaPolySt) (·.2) (fun x p => (p.1, x)) env ivLength .encrypt)
    (streamTransformI_safe (chapolyEncI_safe ivLength) env) (chapolyFinishI_safe env)
    (streamWipeI_safe chapolyI_stable (fun s hs => chapolyWipe_safe s.2 hs))

theorem chapolyDecI_preserves (env : Env) (ivLength : Nat) :
    Preserves (invokeA (chacha20Poly1305I (τ := Sched × ChaPolySt) (·.2) (fun x p => (p.1, x)) env ivLength
      .decrypt)) inRangeA (IStreamSafe ChaPolyI) := by
  have put : ∀ (b : Bytes) (ofs len : Int), InRange b ofs len → ∀ t, IStreamSafe ChaPolyI t →
      (streamPutI env (chapolyDecI (τ := Sched × ChaPolySt) (·.2) (fun x p => (p.1, x))) b ofs len t).Post
        (fun _ => IStreamSafe ChaPolyI) (fun _ => IStreamSafe ChaPolyI) := fun b ofs len hr t ht =>
    streamPutI_safe' chapolyI_stable env b ofs len t (fun _ _ _ hs => chapolyDecI_run hs hr) ht
  have char : ∀ (ch : Byte) t, IStreamSafe ChaPolyI t →
      (streamPutCharI env (chapolyDecI (τ := Sched × ChaPolySt) (·.2) (fun x p => (p.1, x))) ch t).Post
        (fun _ => IStreamSafe ChaPolyI) (fun _ => IStreamSafe ChaPolyI) := by
    intro ch t ht
    refine stream_poll chapolyI_stable ht ?_
    intro s0 h0
    refine Post.bind_get ?_
    cases hc : bytesSet t.charbuf 0 ch with
    | none => exact h0
    | some cb =>
      refine Post.bind_orRaise_some rfl ?_
      refine Post.bind_modify ?_
      refine stream_poll chapolyI_stable ⟨h0.cst, h0.ob⟩ ?_
      intro s1 h1
      refine put _ _ _ ⟨by decide, by decide, ?_⟩ _ h1
      have hl := bytesSet_length hc
      unfold bytesSet at hc
      split at hc
      · omega
      · cases hc
  intro c hc t ht
  have hbuf := streamTransformI_safe (c := chapolyEncI (τ := Sched × ChaPolySt) (·.2) (fun x p => (p.1, x))
    ivLength) (chapolyEncI_safe ivLength) env
  cases c with
  | finishAndGetTag => exact Post.discard (chapolyFinishI_safe env t ht)
  | buf c =>
    cases c with
    | putSubstring b ofs len => exact put b ofs len hc t ht
    | putString s => exact put s 0 s.length ⟨by omega, by omega, by omega⟩ t ht
    | putChar ch => exact char ch t ht
    | putByte b => exact char _ t ht
    | availableOutput => exact Post.discard (hbuf.availableOutput t ht)
    | getString => exact Post.discard (hbuf.getString t ht)
    | getSubstring => exact Post.discard (hbuf.getSubstring t ht)
    | getChar => exact Post.discard (hbuf.getChar t ht)
    | getByte => exact Post.discard (hbuf.getByte t ht)
    | wipe => exact streamWipeI_safe chapolyI_stable (fun s hs => chapolyWipe_safe s.2 hs) t ht

theorem AEAD.chacha20Poly1305I_ok {env : Env} {header iv key : Bytes} {dir : Dir} {sched : Sched}
    {A : AEAD.AnyAuth} (h : AEAD.chacha20Poly1305I env header iv key dir sched = some (.ok A)) :
    MemorySafe (invokeA A.T) (if dir = .encrypt then anyCall else inRangeA) A.t := by
  unfold AEAD.chacha20Poly1305I at h
  cases hc : chapolyInit env header iv key with
  | ok st u =>
    rw [hc] at h
    cases h
    have hs : ChaPolySafe st := (chapolyInit_safe (env := env) (header := header) (iv := iv) (key := key)
      (t := streamInit env st) (u := ()) (by unfold chacha20Poly1305Init; rw [hc])).cst
    have hi : IStreamSafe ChaPolyI (streamInit env ((sched, st) : Sched × ChaPolySt)) :=
      streamInitI_safe (I := ChaPolyI) hs env
    cases dir with
    | encrypt => exact (chapolyEncI_preserves env iv.length).safe hi
    | decrypt => exact (chapolyDecI_preserves env iv.length).safe hi
  | exn e s => rw [hc] at h; cases h
  | ub => rw [hc] at h; cases h
  | loop => rw [hc] at h; cases h

end chapoly

end Verif
