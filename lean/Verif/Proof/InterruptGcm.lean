import Verif.Proof.InterruptCtr
import Verif.Proof.InterruptAead
import Verif.Proof.Gcm
/-
AES-GCM with interruptions: the counter after a call that raised an exception.
-/
namespace Verif

open Spec

section gcmI

variable {κ : Type} {aes : BlockCipher κ} {k : κ} {E : Bytes → Bytes}

/-- The variables of AES-GCM, but for the counter. -/
structure GLens (k : κ) (st : GcmSt (Sched × κ)) : Prop where
  aes : st.aes.2 = k
  buf : st.buf.length = 16
  mac : st.mac.length = 16

/-- State after a call that raised an exception: the counter is unchanged or incremented, or a carry was
due. -/
def GNear (k : κ) (iv : Bytes) (st : GcmSt (Sched × κ)) : Prop :=
  GLens k st ∧ st.ctr.length = 16 ∧
    (st.ctr = iv ∨ st.ctr = incBE iv 4 ∨ iv[15]? = some 0xFF)

/-- A point with counter `ctr` and output buffer `dst`. -/
abbrev GAt (k : κ) (ctr dst : Bytes) (p : GcmSt (Sched × κ) × Bytes) : Prop :=
  GLens k p.1 ∧ p.1.ctr = ctr ∧ p.2 = dst

theorem gpoll {ctr dst : Bytes} {f : Unit → M (GcmSt (Sched × κ) × Bytes) β}
    {R : β → GcmSt (Sched × κ) × Bytes → Prop} {X : Exn → GcmSt (Sched × κ) × Bytes → Prop}
    {p : GcmSt (Sched × κ) × Bytes} (hp : GAt k ctr dst p) (he : ∀ e q, GAt k ctr dst q → X e q)
    (hk : ∀ q, GAt k ctr dst q → (f () q).Post R X) : ((poll >>= f) p).Post R X :=
  Post.bind_poll (P := GAt k ctr dst) ⟨⟨hp.1.aes, hp.1.buf, hp.1.mac⟩, hp.2⟩ he hk

theorem gend {ctr dst : Bytes} {X : Exn → GcmSt (Sched × κ) × Bytes → Prop}
    {p : GcmSt (Sched × κ) × Bytes} (hp : GAt k ctr dst p) (he : ∀ e q, GAt k ctr dst q → X e q) :
    ((poll : M (GcmSt (Sched × κ) × Bytes) Unit) p).Post (fun _ => GAt k ctr dst) X :=
  Post.poll (P := GAt k ctr dst) ⟨⟨hp.1.aes, hp.1.buf, hp.1.mac⟩, hp.2⟩ he fun _ x => x

theorem gcmIncrementI_run {ctr dst : Bytes} (hc : ctr.length = 16) {p : GcmSt (Sched × κ) × Bytes}
    (hp : GAt k ctr dst p) :
    (gcmIncrementI p).Post (fun _ => GAt k (incBE ctr 4) dst) (fun _ q => GNear k ctr q.1) := by
  obtain ⟨⟨⟨s, k0⟩, h, c0, e0, mac, hl, cl, buf⟩, d⟩ := p
  obtain ⟨⟨g1, g2, g3⟩, g4, g5⟩ := hp
  simp only at g1 g2 g3 g4 g5
  subst g1 g4 g5
  refine Post.zoom (incrementCounterI_run (k := k0) (n := 16) (aux := buf) 12 16 s c0 _ (Nat.le_refl _) hc
    (incrementCounter_ok (n := 16) (m := 4) hc (by decide))) ?_ ?_
  · rintro _ _ ⟨s', rfl⟩
    exact ⟨⟨rfl, g2, g3⟩, rfl, rfl⟩
  · rintro _ q ⟨x1, x2, x3, x4⟩
    exact ⟨⟨x2, g2, g3⟩, x3, .inr (.inr x1)⟩

theorem ctrEncDecI_run (h : PureCipher aes k E) (hb : aes.blocksize = 16) {ctr dst : Bytes}
    (hc : ctr.length = 16) {p : GcmSt (Sched × κ) × Bytes} (hp : GAt k ctr dst p) {src : Src}
    {so dofs : Nat} (hs : so + 16 ≤ (src.read dst).length) (hd : dofs + 16 ≤ dst.length) :
    (ctrEncDecI aes.atomic src so dofs 16 p).Post
      (fun _ => GAt k (incBE ctr 4)
        (splice dst dofs (xorb (slice (src.read dst) so 16) (E (incBE ctr 4)))))
      (fun _ q => GNear k ctr q.1) := by
  have hi : (incBE ctr 4).length = 16 := by rw [incBE_length (by omega), hc]
  have hE : (E (incBE ctr 4)).length = 16 := pure_len h hb hi
  have n0 : ∀ d (e : Exn) (q : GcmSt (Sched × κ) × Bytes), GAt k ctr d q → GNear k ctr q.1 :=
    fun d e q x => ⟨x.1, by rw [x.2.1]; exact hc, .inl x.2.1⟩
  have n1 : ∀ d (e : Exn) (q : GcmSt (Sched × κ) × Bytes), GAt k (incBE ctr 4) d q → GNear k ctr q.1 :=
    fun d e q x => ⟨x.1, by rw [x.2.1]; exact hi, .inr (.inl x.2.1)⟩
  refine gpoll hp (n0 dst) ?_
  intro p1 g1
  refine Post.bind (gcmIncrementI_run hc g1) ?_
  rintro - p2 g2
  refine gpoll g2 (n1 dst) ?_
  intro p3 g3
  refine Post.bind_get ?_
  refine Post.bind (Q := fun _ (q : GcmSt (Sched × κ) × Bytes) => GAt k (incBE ctr 4) dst q
      ∧ q.1.buf = E (incBE ctr 4)) ?_ ?_
  · have hr := pure_run (atomic_pure h p3.1.aes.1) hb (x := p3.1.ctr) (b := p3.1.buf)
      (by rw [g3.2.1]; exact hi) g3.1.buf
    have he : ((p3.1.aes.1, k) : Sched × κ) = p3.1.aes := by rw [← g3.1.aes]
    rw [he, g3.2.1] at hr
    unfold M.zoom
    simp only [g3.2.1, hr]
    exact ⟨⟨⟨g3.1.aes, hE, g3.1.mac⟩, rfl, g3.2.2⟩, rfl⟩
  rintro - p4 ⟨g4, g4'⟩
  refine Post.bind_poll (P := fun q => GAt k (incBE ctr 4) dst q ∧ q.1.buf = E (incBE ctr 4))
    ⟨⟨⟨g4.1.aes, g4.1.buf, g4.1.mac⟩, g4.2⟩, g4'⟩ (fun e q x => n1 dst e q x.1) ?_
  rintro p5 ⟨g5, g5'⟩
  refine Post.bind_get ?_
  have hx := xorC_ok (src := .other (src.read dst)) (so := so) (dofs := 0) (n := 16)
    (dst := E (incBE ctr 4)) hs (by omega) trivial
  rw [Src.read_other, Int.natCast_zero, slice_zero] at hx
  have hx' : splice (E (incBE ctr 4)) 0 (xorb ((E (incBE ctr 4)).take 16) (slice (src.read dst) so 16))
      = xorb (slice (src.read dst) so 16) (E (incBE ctr 4)) := by
    rw [List.take_of_length_le (by omega), splice_full (by
      rw [xorb_length, slice_length_of_le hs]; omega), xorb_comm]
  have hxl : (xorb (slice (src.read dst) so 16) (E (incBE ctr 4))).length = 16 := by
    rw [xorb_length, slice_length_of_le hs]; omega
  refine Post.bind_orUB (a := xorb (slice (src.read dst) so 16) (E (incBE ctr 4))) (by
    rw [← hx', g5.2.2, g5']
    exact hx) ?_
  refine Post.bind_modify ?_
  refine Post.bind_poll (P := fun q => GAt k (incBE ctr 4) dst q
      ∧ q.1.buf = xorb (slice (src.read dst) so 16) (E (incBE ctr 4)))
    ⟨⟨⟨g5.1.aes, hxl, g5.1.mac⟩, g5.2⟩, rfl⟩ (fun e q x => n1 dst e q x.1) ?_
  rintro p6 ⟨g6, g6'⟩
  refine Post.bind_get ?_
  have hbt := bytesBlit_ok (src := xorb (slice (src.read dst) so 16) (E (incBE ctr 4)))
    (so := 0) (dst := dst) (dofs := dofs) (n := 16) (by omega) hd
  rw [Int.natCast_zero, slice_zero, List.take_of_length_le (by omega)] at hbt
  refine Post.bind_orRaise_some (by rw [g6', g6.2.2]; exact hbt) ?_
  refine Post.bind_modify ?_
  exact gend ⟨g6.1, g6.2.1, rfl⟩ (n1 _)

theorem gcmHashI_run {ctr dst b : Bytes} {p : GcmSt (Sched × κ) × Bytes}
    (hp : GAt k ctr dst p) {ofs : Nat} (hb : ofs + 16 ≤ b.length) :
    (gcmHashI b ofs 16 p).Post (fun _ => GAt k ctr dst) (fun _ q => GAt k ctr dst q) := by
  refine gpoll hp (fun _ _ x => x) ?_
  intro p1 g1
  refine Post.bind_get ?_
  obtain ⟨x, h1, h2⟩ := xorC_at_some (x := b) (dst := p1.1.mac) (so := ofs) (dofs := 0) (n := 16) hb
    (by have := g1.1.mac; omega)
  rw [Int.natCast_zero] at h1
  refine Post.bind_orUB h1 ?_
  refine Post.bind_modify ?_
  refine gpoll (k := k) (ctr := ctr) (dst := dst) ⟨⟨g1.1.aes, g1.1.buf, h2.trans g1.1.mac⟩, g1.2⟩
    (fun _ _ x => x) ?_
  intro p2 g2
  refine Post.bind_get ?_
  obtain ⟨r, h3, h4⟩ := cGhashMult_some p2.1.h g2.1.mac
  refine Post.bind_orUB h3 ?_
  refine Post.bind_modify ?_
  exact gend (k := k) (ctr := ctr) (dst := dst) ⟨⟨g2.1.aes, g2.1.buf, h4⟩, g2.2⟩ (fun _ _ x => x)

/-- What is needed of `enc_wrapped` and `dec_wrapped`. -/
def GcmCall (w : BlockCipher (GcmSt (Sched × κ))) (k : κ) (E : Bytes → Bytes) : Prop :=
  w.blocksize = 16 ∧ ∀ {src : Src} {so dofs : Nat} {dst ctr : Bytes} {st : GcmSt (Sched × κ)},
    GLens k st → st.ctr = ctr → ctr.length = 16 → so + 16 ≤ (src.read dst).length →
    dofs + 16 ≤ dst.length →
    (w.transform src so dofs (st, dst)).Post
      (fun _ => GAt k (incBE ctr 4)
        (splice dst dofs (xorb (slice (src.read dst) so 16) (E (incBE ctr 4)))))
      (fun _ q => GNear k ctr q.1)

theorem gcmEncI_call (h : PureCipher aes k E) (hb : aes.blocksize = 16) :
    GcmCall (gcmEncWrappedI aes.atomic) k E := by
  refine ⟨rfl, ?_⟩
  intro src so dofs dst ctr st hl hst hc hs hd
  have hi : (incBE ctr 4).length = 16 := by rw [incBE_length (by omega), hc]
  have n1 : ∀ d (e : Exn) (q : GcmSt (Sched × κ) × Bytes), GAt k (incBE ctr 4) d q → GNear k ctr q.1 :=
    fun d e q x => ⟨x.1, by rw [x.2.1]; exact hi, .inr (.inl x.2.1)⟩
  refine Post.bind (ctrEncDecI_run (dst := dst) h hb hc (p := (st, dst)) ⟨hl, hst, rfl⟩ hs hd) ?_
  rintro - p1 g1
  have hdl : p1.2.length = dst.length := by
    rw [g1.2.2, splice_length]
    rw [xorb_length, slice_length_of_le hs, pure_len h hb hi]; omega
  refine Post.bind_get ?_
  refine Post.bind (Post.mono (gcmHashI_run g1 (b := p1.2) (ofs := dofs) (by omega))
    (fun _ _ x => x) fun e q x => n1 _ e q x) ?_
  rintro - p2 g2
  refine Post.bind_modify ?_
  refine gpoll (k := k) (ctr := incBE ctr 4) (dst := _) ⟨⟨g2.1.aes, g2.1.buf, g2.1.mac⟩, g2.2⟩ (n1 _) ?_
  rintro ⟨s3, d3⟩ g3
  refine Post.bind_get ?_
  simp only []
  split
  · exact n1 _ (.error .messageTooLong) (s3, d3) g3
  · exact g3

theorem gcmDecI_call (h : PureCipher aes k E) (hb : aes.blocksize = 16) :
    GcmCall (gcmDecWrappedI aes.atomic) k E := by
  refine ⟨rfl, ?_⟩
  intro src so dofs dst ctr st hl hst hc hs hd
  have hi : (incBE ctr 4).length = 16 := by rw [incBE_length (by omega), hc]
  refine Post.bind_get ?_
  refine Post.bind (Post.mono (gcmHashI_run (dst := dst) (p := (st, dst)) ⟨hl, hst, rfl⟩ (b := src.read dst) (ofs := so) hs)
    (fun _ _ x => x) fun _ q x => (⟨x.1, by rw [x.2.1]; exact hc, .inl x.2.1⟩ : GNear k ctr q.1)) ?_
  rintro - p1 g1
  refine Post.bind (ctrEncDecI_run h hb hc g1 hs hd) ?_
  rintro - p2 g2
  refine Post.bind_modify ?_
  exact gend (k := k) (ctr := incBE ctr 4) (dst := _) ⟨⟨g2.1.aes, g2.1.buf, g2.1.mac⟩, g2.2⟩
    fun e q x => ⟨x.1, by rw [x.2.1]; exact hi, .inr (.inl x.2.1)⟩

theorem gcmI_calls {w : BlockCipher (GcmSt (Sched × κ))} (h : PureCipher aes k E)
    (hb : aes.blocksize = 16) (hw : GcmCall w k E) {iv : Bytes} (hivl : iv.length = 16)
    {st : GcmSt (Sched × κ)} {blocks : List (Bytes × Bytes)} {m : Nat}
    (hc : Calls w (fun st => st.ctr.getLast? ≠ some 0xFF) st blocks m) :
    ∀ j, GLens k st → st.ctr = counterBlock iv 4 j →
      ∃ is : List Nat, is.Pairwise (· < ·) ∧ (∀ i ∈ is, j + 1 ≤ i ∧ i < j + 1 + m) ∧
        is.length = blocks.length ∧
        ∀ p i, (p, i) ∈ blocks.zip is → p.2 = xorb p.1 (E (counterBlock iv 4 i)) := by
  obtain ⟨hwb, hw⟩ := hw
  have hlen : ∀ j, (counterBlock iv 4 j).length = 16 := fun j => by
    rw [counterBlock_length _ _ _ (by omega), hivl]
  induction hc with
  | none s => intro j _ _; exact ⟨[], .nil, by simp, rfl, by simp⟩
  | @returned s s' src so dofs dst dst' blocks n hs hd hr rest ih =>
    intro j h1 h2
    rw [hwb] at hs hd
    have := hw h1 h2 (hlen j) hs hd
    rw [hr] at this
    obtain ⟨g1, g2, g4⟩ := this
    simp only at g1 g2 g4
    rw [counterBlock_succ _ _ _ (by omega)] at g2 g4
    obtain ⟨is, p1, p2, pl, p3⟩ := ih (j + 1) g1 g2
    refine ⟨(j + 1) :: is, List.pairwise_cons.2 ⟨fun i hi => (p2 i hi).1, p1⟩, ?_, by simp [pl], ?_⟩
    · intro i hi
      rcases List.mem_cons.1 hi with rfl | hi
      · omega
      · have := p2 i hi; omega
    · intro p i hp
      rw [List.zip_cons_cons] at hp
      rcases List.mem_cons.1 hp with hp | hp
      case inr => exact p3 p i hp
      cases hp
      simp only [hwb]
      rw [g4]
      exact slice_splice_same' (n := 16)
        (by rw [xorb_length, slice_length_of_le hs, pure_len h hb (hlen _), Nat.min_self]) hd
  | @raised s s' src so dofs dst dst' e blocks n hs hd ht hr rest ih =>
    intro j h1 h2
    rw [hwb] at hs hd
    have := hw h1 h2 (hlen j) hs hd
    rw [hr] at this
    obtain ⟨g1, g3, g4⟩ := this
    have hff : (counterBlock iv 4 j)[15]? ≠ some 0xFF := by
      rw [h2, List.getLast?_eq_getElem?, hlen j] at ht
      exact ht
    rcases g4 with g4 | g4 | g4
    · obtain ⟨is, p1, p2, pl, p3⟩ := ih j g1 g4
      exact ⟨is, p1, fun i hi => by have := p2 i hi; omega, pl, p3⟩
    · rw [counterBlock_succ _ _ _ (by omega)] at g4
      obtain ⟨is, p1, p2, pl, p3⟩ := ih (j + 1) g1 g4
      exact ⟨is, p1, fun i hi => by have := p2 i hi; omega, pl, p3⟩
    · exact absurd g4 hff

end gcmI

end Verif
