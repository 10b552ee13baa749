import Verif.Proof.Interrupt
import Verif.Proof.Modes
import Verif.Spec.InterruptCtr
/-
Counter mode with interruptions: the counter after a call that raised an exception.
-/
namespace Verif

open Spec

section ctrI

variable {σ : Type} {c : BlockCipher σ} {k : σ} {E : Bytes → Bytes}

theorem atomic_pure (h : PureCipher c k E) (s : Sched) : PureCipher c.atomic (s, k) E where
  pos := h.pos
  out_len := by rintro s' blk rfl hl; exact h.out_len rfl hl
  inv_step := by rintro s' blk rfl hl; rfl
  run := by
    rintro s' src so dofs dst rfl hs hd
    have := h.run (s := k) (src := src) (so := so) (dofs := dofs) (dst := dst) rfl hs hd
    simp only [BlockCipher.atomic, M.zoom, this, BRes.toOut]

/-- State after a counter-mode call that raised an exception: the counter is unchanged or incremented,
or a carry was due. -/
def CtrNear (k : σ) (n m : Nat) (iv0 : Bytes) (st : ModeSt (Sched × σ)) : Prop :=
  st.c.2 = k ∧ st.iv.length = n ∧ st.aux.length = n ∧
    (st.iv = iv0 ∨ st.iv = incBE iv0 m ∨ iv0[n - 1]? = some 0xFF)

theorem mpoll {s : Sched} {iv aux dst : Bytes} {f : Unit → M (ModeSt (Sched × σ) × Bytes) β}
    {R : β → ModeSt (Sched × σ) × Bytes → Prop} {X : Exn → ModeSt (Sched × σ) × Bytes → Prop}
    (he : ∀ e s', X e (⟨(s', k), iv, aux⟩, dst))
    (hk : ∀ s', (f () (⟨(s', k), iv, aux⟩, dst)).Post R X) :
    ((poll >>= f) (⟨(s, k), iv, aux⟩, dst)).Post R X :=
  Post.bind_poll (P := fun t => ∃ s', t = (⟨(s', k), iv, aux⟩, dst)) ⟨_, rfl⟩
    (by rintro e t ⟨s', rfl⟩; exact he e s') (by rintro t ⟨s', rfl⟩; exact hk s')

theorem mend {s : Sched} {iv aux dst : Bytes}
    {R : Unit → ModeSt (Sched × σ) × Bytes → Prop} {X : Exn → ModeSt (Sched × σ) × Bytes → Prop}
    (he : ∀ e s', X e (⟨(s', k), iv, aux⟩, dst))
    (hk : ∀ s', R () (⟨(s', k), iv, aux⟩, dst)) :
    ((poll : M (ModeSt (Sched × σ) × Bytes) Unit) (⟨(s, k), iv, aux⟩, dst)).Post R X :=
  Post.poll (P := fun t => ∃ s', t = (⟨(s', k), iv, aux⟩, dst)) ⟨_, rfl⟩
    (by rintro e t ⟨s', rfl⟩; exact he e s') (by rintro t ⟨s', rfl⟩; exact hk s')

theorem incrementCounterI_run (lim : Nat) {n : Nat} {aux dst : Bytes} :
    ∀ (pos : Nat) (s : Sched) (iv iv' : Bytes), pos ≤ n → iv.length = n →
      incrementCounter iv lim pos = some iv' →
      (incrementCounterI lim pos (⟨(s, k), iv, aux⟩, dst)).Post
        (fun _ p => ∃ s', p = (⟨(s', k), iv', aux⟩, dst))
        (fun _ p => iv[pos - 1]? = some 0xFF ∧ p.1.c.2 = k ∧ p.1.iv.length = n ∧ p.1.aux = aux)
  | 0, s, iv, iv', _, _, h => by cases h; exact ⟨s, rfl⟩
  | pos + 1, s, iv, iv', hp, hl, h => by
    unfold incrementCounterI
    unfold incrementCounter at h
    split
    · next hlim =>
      rw [if_pos hlim] at h
      refine Post.bind_get (s := ((⟨(s, k), iv, aux⟩ : ModeSt (Sched × σ)), dst)) ?_
      have hg : iv[pos]? = some (iv[pos]'(by omega)) := List.getElem?_eq_getElem (by omega)
      rw [hg] at h
      simp only at h
      refine Post.bind_orRaise_some hg ?_
      refine Post.bind_modify ?_
      split
      · next hc =>
        rw [if_pos hc] at h
        have hff : iv[pos + 1 - 1]? = some 0xFF := by
          rw [Nat.add_sub_cancel, hg]
          congr 1
          apply BitVec.eq_of_toNat_eq
          show _ = 255
          omega
        have hl' : (iv.set pos (BitVec.ofNat 8 (1 + (iv[pos]'(by omega)).toNat))).length = n := by
          simpa using hl
        refine mpoll (fun _ _ => ⟨hff, rfl, hl', rfl⟩) ?_
        intro s'
        exact Post.mono (incrementCounterI_run lim pos s' _ iv' (by omega) hl' h) (fun _ _ x => x)
          fun _ _ x => ⟨hff, x.2⟩
      · next hc =>
        rw [if_neg hc] at h
        cases h
        exact ⟨s, rfl⟩
    · next hlim =>
      rw [if_neg hlim] at h
      cases h
      exact ⟨s, rfl⟩

theorem ctrI_call (h : PureCipher c k E) {nincr : Nat} (hn : nincr ≤ c.blocksize) {src : Src}
    {so dofs : Nat} {dst : Bytes} {st : CtrSt (Sched × σ)} {iv : Bytes} (hk : st.m.c.2 = k)
    (hiv : st.m.iv = iv) (hivl : iv.length = c.blocksize) (haux : st.m.aux.length = c.blocksize)
    (hs : so + c.blocksize ≤ (src.read dst).length) (hd : dofs + c.blocksize ≤ dst.length) :
    ((ctrI nincr c.atomic).transform src so dofs (st, dst)).Post
      (fun _ p => p.1.m.c.2 = k ∧ p.1.m.iv = incBE iv nincr ∧ p.1.m.aux.length = c.blocksize ∧
        p.2 = splice dst dofs (xorb (slice (src.read dst) so c.blocksize) (E iv)))
      (fun _ p => CtrNear k c.blocksize nincr iv p.1.m) := by
  obtain ⟨⟨⟨s0, k0⟩, iv0, aux0⟩, mx⟩ := st
  simp only at hk hiv haux
  subst hk hiv
  have hE : (E iv0).length = c.blocksize := h.len hivl
  have hi : (incBE iv0 nincr).length = c.blocksize := by rw [incBE_length (by omega), hivl]
  refine Post.bind (Q := fun _ (p : CtrSt (Sched × σ) × Bytes) =>
      p.1.m.c.2 = k0 ∧ p.1.m.iv = incBE iv0 nincr ∧ p.1.m.aux.length = c.blocksize ∧
        p.2 = splice dst dofs (xorb (slice (src.read dst) so c.blocksize) (E iv0)))
    (Post.zoom (Q := fun _ (p : ModeSt (Sched × σ) × Bytes) =>
        p.1.c.2 = k0 ∧ p.1.iv = incBE iv0 nincr ∧ p.1.aux.length = c.blocksize ∧
          p.2 = splice dst dofs (xorb (slice (src.read dst) so c.blocksize) (E iv0)))
      (E := fun _ p => CtrNear k0 c.blocksize nincr iv0 p.1) ?_ (fun _ _ x => x) (fun _ _ x => x)) ?_
  · refine mpoll (fun _ _ => ⟨rfl, hivl, haux, .inl rfl⟩) ?_
    intro s1
    refine Post.bind_get ?_
    refine Post.bind (Q := fun _ p => p = (⟨(s1, k0), iv0, E iv0⟩, dst)) ?_ ?_
    · change (ModeSt.callAux c.atomic (.other iv0) 0 0 (⟨(s1, k0), iv0, aux0⟩, dst)).Post _ _
      rw [callAux_ok (atomic_pure h s1) hivl haux]
      exact rfl
    rintro - _ rfl
    refine mpoll (fun _ _ => ⟨rfl, hivl, hE, .inl rfl⟩) ?_
    intro s2
    refine Post.bind_get ?_
    refine Post.bind_orRaise_some (bytesBlit_ok hs hd) ?_
    refine Post.bind_modify ?_
    refine mpoll (fun _ _ => ⟨rfl, hivl, hE, .inl rfl⟩) ?_
    intro s3
    refine Post.bind_get ?_
    refine Post.bind_orUB (blit_xor (x := E iv0) (n := c.blocksize) (by omega) (slice_length_of_le hs) hd) ?_
    refine Post.bind_modify ?_
    refine mpoll (fun _ _ => ⟨rfl, hivl, hE, .inl rfl⟩) ?_
    intro s4
    refine Post.bind (Post.mono (incrementCounterI_run (c.blocksize - nincr) c.blocksize s4 iv0 _
      (Nat.le_refl _) hivl (incrementCounter_ok hivl hn)) (fun _ _ x => x)
        fun _ p x => ⟨x.2.1, x.2.2.1, by rw [x.2.2.2]; exact hE, .inr (.inr x.1)⟩) ?_
    rintro - _ ⟨s5, rfl⟩
    exact mend (fun _ _ => ⟨rfl, hi, hE, .inr (.inl rfl)⟩) fun _ => ⟨rfl, rfl, hE, by
      rw [List.take_of_length_le (by omega)]; rfl⟩
  · rintro - ⟨⟨⟨⟨s5, k5⟩, iv5, aux5⟩, mx5⟩, dst5⟩ ⟨g1, g2, g3, g4⟩
    simp only at g1 g2 g3 g4
    subst g1 g2
    refine Post.bind_get ?_
    simp only []
    split
    · exact ⟨rfl, hi, g3, .inr (.inl rfl)⟩
    · refine Post.bind_modify ?_
      exact Post.poll (P := fun t => t.1.m.c.2 = k5 ∧ t.1.m.iv = incBE iv0 nincr ∧
          t.1.m.aux.length = c.blocksize ∧ t.2 = dst5)
        ⟨rfl, rfl, g3, rfl⟩
        (fun _ _ x => ⟨x.1, by rw [x.2.1]; exact hi, x.2.2.1, .inr (.inl x.2.1)⟩)
        fun _ x => ⟨x.1, x.2.1, x.2.2.1, x.2.2.2.trans g4⟩

theorem ctrI_calls (h : PureCipher c k E) {nincr : Nat} (hn : nincr ≤ c.blocksize) {iv : Bytes}
    (hivl : iv.length = c.blocksize) {st : CtrSt (Sched × σ)} {blocks : List (Bytes × Bytes)} {m : Nat}
    (hc : Calls (ctrI nincr c.atomic) (fun st => st.m.iv.getLast? ≠ some 0xFF) st blocks m) :
    ∀ j, st.m.c.2 = k → st.m.iv = counterBlock iv nincr j → st.m.aux.length = c.blocksize →
      ∃ is : List Nat, is.Pairwise (· < ·) ∧ (∀ i ∈ is, j ≤ i ∧ i < j + m) ∧
        is.length = blocks.length ∧
        ∀ p i, (p, i) ∈ blocks.zip is → p.2 = xorb p.1 (E (counterBlock iv nincr i)) := by
  have hlen : ∀ j, (counterBlock iv nincr j).length = c.blocksize := fun j => by
    rw [counterBlock_length _ _ _ (by omega), hivl]
  induction hc with
  | none s => intro j _ _ _; exact ⟨[], .nil, by simp, rfl, by simp⟩
  | @returned s s' src so dofs dst dst' blocks n hs hd hr rest ih =>
    intro j h1 h2 h3
    have := ctrI_call h hn h1 h2 (hlen j) h3 hs hd
    rw [hr] at this
    obtain ⟨g1, g2, g3, g4⟩ := this
    rw [counterBlock_succ _ _ _ (by omega)] at g2
    obtain ⟨is, p1, p2, pl, p3⟩ := ih (j + 1) g1 g2 g3
    refine ⟨j :: is, List.pairwise_cons.2 ⟨fun i hi => (p2 i hi).1, p1⟩, ?_, by simp [pl], ?_⟩
    · intro i hi
      rcases List.mem_cons.1 hi with rfl | hi
      · omega
      · have := p2 i hi; omega
    · intro p i hp
      rw [List.zip_cons_cons] at hp
      rcases List.mem_cons.1 hp with hp | hp
      case inr => exact p3 p i hp
      cases hp
      simp only at g4 ⊢
      rw [g4]
      have hd' : dofs + c.blocksize ≤ dst.length := hd
      have hs' : so + c.blocksize ≤ (src.read dst).length := hs
      exact slice_splice_same' (n := c.blocksize)
        (by rw [xorb_length, slice_length_of_le hs', h.len (hlen j), Nat.min_self]) hd'
  | @raised s s' src so dofs dst dst' e blocks n hs hd ht hr rest ih =>
    intro j h1 h2 h3
    have := ctrI_call h hn h1 h2 (hlen j) h3 hs hd
    rw [hr] at this
    obtain ⟨g1, g2, g3, g4⟩ := this
    have hff : (counterBlock iv nincr j)[c.blocksize - 1]? ≠ some 0xFF := by
      rw [h2, List.getLast?_eq_getElem?, hlen j] at ht
      exact ht
    rcases g4 with g4 | g4 | g4
    · obtain ⟨is, p1, p2, pl, p3⟩ := ih j g1 g4 g3
      exact ⟨is, p1, fun i hi => by have := p2 i hi; omega, pl, p3⟩
    · rw [counterBlock_succ _ _ _ (by omega)] at g4
      obtain ⟨is, p1, p2, pl, p3⟩ := ih (j + 1) g1 g4 g3
      exact ⟨is, p1, fun i hi => by have := p2 i hi; omega, pl, p3⟩
    · exact absurd g4 hff

end ctrI

end Verif
