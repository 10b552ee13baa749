import Verif.Proof.InterruptGcm
import Verif.Proof.Random
import Verif.Proof.Cmac
import Verif.Model.InterruptRng
import Verif.Spec.InterruptRng
/-
The pseudo-random generators with interruptions: the position in the stream after a call that raised an
exception.
-/
namespace Verif

open Spec

/-- A call for `len` bytes at position `p` of the stream `ks`: if it returns, it has given the bytes from
`p` on; if it raises an exception, the position has not gone back, provided that this was `tolerated`. -/
def RngForward (g : Rng ρ) (At : ρ → Nat → Prop) (tolerated : ρ → Nat → Prop) (ks : Nat → Byte) : Prop :=
  ∀ {s p} (buf : Bytes) (ofs len : Nat), At s p → ofs + len ≤ buf.length →
    (g.randomBytes ofs len (s, buf)).Post
      (fun _ q => q.2 = splice buf ofs (streamBytes ks p len) ∧ At q.1 (p + len))
      (fun _ q => tolerated s len → ∃ p', p ≤ p' ∧ At q.1 p')

theorem parts_mono {ks : Nat → Byte} : ∀ {out : List Bytes} {p p' : Nat}, p ≤ p' → Parts ks p' out →
    Parts ks p out
  | [], _, _, _, _ => trivial
  | _ :: _, _, _, h, ⟨q, h1, h2⟩ => ⟨q, Nat.le_trans h h1, h2⟩

theorem RngForward.parts {g : Rng ρ} {At : ρ → Nat → Prop} {tolerated : ρ → Nat → Prop} {ks : Nat → Byte}
    (h : RngForward g At tolerated ks) {s : ρ} {out : List Bytes} (hc : RngCalls g tolerated s out) :
    ∀ {p}, At s p → Parts ks p out := by
  induction hc with
  | none => intro p _; trivial
  | @returned s s' ofs len buf buf' out hr hrun _ ih =>
    intro p hA
    have := h buf ofs len hA hr
    rw [hrun] at this
    obtain ⟨h1, h2⟩ := this
    simp only at h1 h2
    have hs : slice buf' ofs len = streamBytes ks p len := by
      rw [h1]
      have := slice_splice_same (b := buf) (o := ofs) (x := streamBytes ks p len)
        (by rw [streamBytes_length]; exact hr)
      rwa [streamBytes_length] at this
    have hl : (slice buf' ofs len).length = len := by rw [hs, streamBytes_length]
    exact ⟨p, Nat.le_refl _, by rw [hl]; exact hs, by rw [hl]; exact ih h2⟩
  | @raised s s' ofs len buf buf' e out hr ht hrun _ ih =>
    intro p hA
    have := h buf ofs len hA hr
    rw [hrun] at this
    obtain ⟨p', h1, h2⟩ := this ht
    exact parts_mono h1 (ih h2)

/-! ### `pseudo_rng` -/

theorem pseudoRngI_forward {key : Bytes} (hk : key.length = 16 ∨ key.length = 32) :
    RngForward pseudoRngI (fun s p => ChaCha.At key (List.replicate 8 0) 0 s.2 p) (fun _ _ => True)
      (Spec.ChaCha20.keystream key (List.replicate 8 0) 0) := by
  intro s p buf ofs len hA hr
  obtain ⟨s0, g⟩ := s
  simp only at hA
  have hstop : ∀ (e : Exn) (t : (Sched × ChaCha) × Bytes), (∃ s', t = ((s', g), buf)) →
      True → ∃ p', p ≤ p' ∧ ChaCha.At key (List.replicate 8 0) 0 t.1.2 p' := by
    rintro _ _ ⟨s', rfl⟩ _
    exact ⟨p, Nat.le_refl _, hA⟩
  refine Post.bind_poll (P := fun t => ∃ s', t = ((s', g), buf)) ⟨_, rfl⟩ hstop ?_
  rintro _ ⟨s1, rfl⟩
  refine Post.bind_get ?_
  have hb : ¬ badRange buf (ofs : Int) (len : Int) := by
    simp [badRange]; omega
  rw [if_neg hb]
  refine Post.bind_poll (P := fun t => ∃ s', t = ((s', g), buf)) ⟨_, rfl⟩ hstop ?_
  rintro _ ⟨s2, rfl⟩
  obtain ⟨g', h1, h2⟩ := extractLoop_ok (chacha_generates hk (.inl rfl) 0) len (dst := buf) hA hr
  rw [M.bind_def]
  simp only [M.zoom, Int.toNat_natCast, h1]
  refine Post.poll (P := fun t => ∃ s', t = ((s', g'), _)) ⟨_, rfl⟩ ?_ ?_
  · rintro _ _ ⟨s', rfl⟩ _
    exact ⟨p + len, Nat.le_add_right _ _, h2⟩
  · rintro _ ⟨s', rfl⟩
    exact ⟨rfl, h2⟩

/-! ### `pseudo_rng_aes_ctr` -/

section aesCtr

variable {κ : Type} {c : BlockCipher κ} {k : κ} {E : Bytes → Bytes}

/-- `b` is the number in the counter; the position is `p`. -/
structure RAt (k : κ) (E : Bytes → Bytes) (g : AesCtrRng (Sched × κ)) (p b : Nat) : Prop where
  cipher : g.cipher.2 = k
  ctr : g.ctr = natToBE 16 b
  obuf : g.obuf.length = 16
  opos : g.opos ≤ 16
  pos : p + 16 = 16 * b + g.opos
  cur : g.opos < 16 → g.obuf = E (natToBE 16 (b - 1))

/-- Position `p` or further. -/
def RFwd (k : κ) (E : Bytes → Bytes) (p : Nat) (g : AesCtrRng (Sched × κ)) : Prop :=
  ∃ p' b', p ≤ p' ∧ RAt k E g p' b'

theorem RAt.tick {g : AesCtrRng (Sched × κ)} {p b : Nat} (h : RAt k E g p b) :
    RAt k E (Ticking.tick g).2 p b :=
  ⟨h.cipher, h.ctr, h.obuf, h.opos, h.pos, h.cur⟩

theorem rpoll {p b : Nat} {dst : Bytes} {T : Prop}
    {f : Unit → M (AesCtrRng (Sched × κ) × Bytes) β} {R : β → AesCtrRng (Sched × κ) × Bytes → Prop}
    {s : AesCtrRng (Sched × κ) × Bytes} {p0 : Nat} (hp : p0 ≤ p) {J : AesCtrRng (Sched × κ) → Prop}
    (hJ : TickStable J) (hj : J s.1)
    (hs : RAt k E s.1 p b) (hd : s.2 = dst)
    (hk : ∀ g, RAt k E g p b → J g → (f () (g, dst)).Post R (fun _ q => T → RFwd k E p0 q.1)) :
    ((poll >>= f) s).Post R (fun _ q => T → RFwd k E p0 q.1) :=
  Post.bind_poll (P := fun t => (RAt k E t.1 p b ∧ J t.1) ∧ t.2 = dst) ⟨⟨hs.tick, hJ _ hj⟩, hd⟩
    (fun _ _ x _ => ⟨p, b, hp, x.1.1⟩) (by rintro ⟨g, d⟩ ⟨⟨h1, h2⟩, rfl⟩; exact hk g h1 h2)

theorem beLast_natToBE (b : Nat) : (natToBE 16 b)[16 - 1]? = some (BitVec.ofNat 8 (b % 256)) := by
  rw [show (16 : Nat) = 15 + 1 from rfl, natToBE_snoc, List.getElem?_append_right (by rw [natToBE_length]),
    natToBE_length]
  show some (BitVec.ofNat 8 b) = _
  congr 1
  apply BitVec.eq_of_toNat_eq
  simp

theorem aesCtrIncrementI_run {b : Nat} {s : AesCtrRng (Sched × κ) × Bytes} (hc : s.1.ctr = natToBE 16 b) :
    (aesCtrIncrementI s).Post
      (fun _ q => ∃ s', q = (⟨(s', s.1.cipher.2), natToBE 16 (b + 1), s.1.obuf, s.1.opos⟩, s.2))
      (fun _ _ => b % 256 = 255) := by
  obtain ⟨⟨⟨s0, k0⟩, c0, ob, op⟩, d⟩ := s
  simp only at hc
  subst hc
  refine Post.zoom (incrementCounterI_run (k := k0) (n := 16) (aux := ob) 0 16 s0 _ _ (Nat.le_refl _)
    (natToBE_length _ _) (incrementCounter_natToBE b)) ?_ ?_
  · rintro _ _ ⟨s', rfl⟩
    exact ⟨s', rfl⟩
  · rintro _ q ⟨x1, -⟩
    rw [beLast_natToBE] at x1
    injection x1 with x1
    have h2 : (BitVec.ofNat 8 (b % 256)).toNat = 255 := by rw [x1]; rfl
    rw [BitVec.toNat_ofNat] at h2
    omega

theorem aesCtrRefillI_run (hc : PureCipher c k E) (hb : c.blocksize = 16) {p b : Nat}
    {g : AesCtrRng (Sched × κ)} (hg : RAt k E g p b) (dst : Bytes) :
    (aesCtrRefillI c.atomic (g, dst)).Post
      (fun _ q => q.2 = dst ∧ q.1.opos < 16 ∧
        (if g.opos < 16 then RAt k E q.1 p b ∧ q.1.opos = g.opos else RAt k E q.1 p (b + 1)))
      (fun _ q => b % 256 ≠ 255 → RFwd k E p q.1) := by
  unfold aesCtrRefillI
  refine Post.bind_get ?_
  by_cases ho : g.opos < 16
  · rw [if_neg (by simp only; omega)]
    exact ⟨rfl, ho, by rw [if_pos ho]; exact ⟨hg, rfl⟩⟩
  · rw [if_pos (by simp only; omega)]
    simp only [if_neg ho]
    obtain ⟨⟨s0, k0⟩, ctr, ob, op⟩ := g
    obtain ⟨h1, h2, h3, h4, h5, h6⟩ := hg
    simp only at h1 h2 h3 h4 h5 h6 ho
    subst h1 h2
    obtain rfl : op = 16 := by omega
    have hE : ∀ n, (E (natToBE 16 n)).length = 16 := fun n => pure_len hc hb (natToBE_length _ _)
    have hr := hc.run' (src := .other (natToBE 16 b)) (so := 0) (dofs := 0) (dst := ob)
      (by rw [hb]; simp [Src.read, natToBE_length]) (by rw [hb, h3])
    have hs : slice (Src.read (.other (natToBE 16 b)) ob) 0 c.blocksize = natToBE 16 b := by
      simp only [Src.read]
      rw [hb]
      unfold slice
      rw [List.drop_zero, List.take_of_length_le (by rw [natToBE_length])]
    rw [hs, splice_full (by rw [h3, hE])] at hr
    refine Post.bind (Q := fun _ q => ∃ s', q = (⟨(s', k0), natToBE 16 b, E (natToBE 16 b), 16⟩, dst)) ?_ ?_
    · unfold aesCtrBlock
      refine Post.bind_get ?_
      have hr' : c.transform (.other (natToBE 16 b)) 0 0 (k0, ob) = .ok () (k0, E (natToBE 16 b)) := hr
      simp only [BlockCipher.atomic, M.zoom]
      rw [hr']
      exact ⟨_, rfl⟩
    · rintro _ _ ⟨s1, rfl⟩
      have hmid : ∀ s', RAt k0 E ⟨(s', k0), natToBE 16 b, E (natToBE 16 b), 16⟩ p b := fun s' =>
        ⟨rfl, rfl, hE _, Nat.le_refl _, h5, fun h => absurd h (Nat.lt_irrefl _)⟩
      refine Post.bind_poll (P := fun t => ∃ s', t = (⟨(s', k0), natToBE 16 b, E (natToBE 16 b), 16⟩, dst))
        ⟨_, rfl⟩ (by rintro _ _ ⟨s', rfl⟩ _; exact ⟨p, b, Nat.le_refl _, hmid s'⟩) ?_
      rintro _ ⟨s2, rfl⟩
      refine Post.bind (Post.mono (aesCtrIncrementI_run rfl) (fun _ _ x => x) (fun _ _ x y => absurd x y)) ?_
      rintro _ _ ⟨s3, rfl⟩
      refine Post.bind_poll (P := fun t => ∃ s', t = (⟨(s', k0), natToBE 16 (b + 1), E (natToBE 16 b), 16⟩, dst))
        ⟨_, rfl⟩ (by
          rintro _ _ ⟨s', rfl⟩ _
          exact ⟨p + 16, b + 1, by omega, rfl, rfl, hE _, Nat.le_refl _, by simp only; omega,
            fun h => absurd h (Nat.lt_irrefl _)⟩) ?_
      rintro _ ⟨s4, rfl⟩
      refine Post.bind_modify ?_
      have hend : ∀ s', RAt k0 E ⟨(s', k0), natToBE 16 (b + 1), E (natToBE 16 b), 0⟩ p (b + 1) := fun s' =>
        ⟨rfl, rfl, hE _, Nat.zero_le _, by simp only; omega, fun _ => rfl⟩
      refine Post.poll (P := fun t => ∃ s', t = (⟨(s', k0), natToBE 16 (b + 1), E (natToBE 16 b), 0⟩, dst))
        ⟨_, rfl⟩ (by rintro _ _ ⟨s', rfl⟩ _; exact ⟨p, b + 1, Nat.le_refl _, hend s'⟩) ?_
      rintro _ ⟨s5, rfl⟩
      exact ⟨rfl, by show 0 < 16; omega, hend s5⟩

theorem aesCtrRandomBytesI_run (hc : PureCipher c k E) (hb : c.blocksize = 16) :
    ∀ (fuel : Nat) {g : AesCtrRng (Sched × κ)} {p b ofs len : Nat} {dst : Bytes},
      len ≤ fuel → RAt k E g p b → ofs + len ≤ dst.length →
      (aesCtrRandomBytesI c.atomic fuel ofs len (g, dst)).Post
        (fun _ q => q.2 = splice dst ofs (streamBytes (ctrStream E) p len) ∧ ∃ b', RAt k E q.1 (p + len) b')
        (fun _ q => b % 256 + (len + 15) / 16 ≤ 255 → RFwd k E p q.1) := by
  intro fuel
  induction fuel with
  | zero =>
    intro g p b ofs len dst hf hA hr
    obtain rfl : len = 0 := by omega
    unfold aesCtrRandomBytesI
    rw [if_neg (by omega)]
    refine Post.poll (P := fun t => RAt k E t.1 p b ∧ t.2 = dst) ⟨hA.tick, rfl⟩
      (fun _ _ x _ => ⟨p, b, Nat.le_refl _, x.1⟩) ?_
    rintro ⟨g', _⟩ ⟨h1, rfl⟩
    exact ⟨by simp [streamBytes], b, h1⟩
  | succ fuel ih =>
    intro g p b ofs len dst hf hA hr
    unfold aesCtrRandomBytesI
    refine rpoll (Nat.le_refl p) (J := fun g' => g'.opos = g.opos) (fun _ h => h) rfl hA rfl ?_
    intro g0 hg0 hop
    rcases Nat.eq_zero_or_pos len with h0 | h0
    · subst h0
      rw [if_neg (by omega)]
      exact ⟨by simp [streamBytes], b, hg0⟩
    · rw [if_pos (by omega)]
      refine Post.bind (Post.mono (aesCtrRefillI_run hc hb hg0 dst) (fun _ _ x => x)
        (fun _ _ x y => x (by omega))) ?_
      rintro _ ⟨g1, d1⟩ ⟨hd, ho, hif⟩
      simp only at hd ho hif
      subst hd
      obtain ⟨b1, hg1, hb1⟩ : ∃ b1, RAt k E g1 p b1 ∧
          ((b1 = b ∧ g1.opos = g0.opos) ∨ (b1 = b + 1 ∧ g1.opos = 0)) := by
        split at hif
        · exact ⟨b, hif.1, .inl ⟨rfl, hif.2⟩⟩
        · next h =>
          have h1 := hg0.pos
          have h2 := hif.pos
          have h3 := hg0.opos
          exact ⟨b + 1, hif, .inr ⟨rfl, by omega⟩⟩
      refine Post.bind_get ?_
      simp only
      obtain ⟨r, hrdef⟩ : ∃ r, r = min (16 - g1.opos) len := ⟨_, rfl⟩
      have hrI : min (16 - (g1.opos : Int)) (len : Int) = (r : Int) := by omega
      have hol := hg1.obuf
      have hpos := hg1.pos
      have hblit := bytesBlit_ok (src := g1.obuf) (so := g1.opos) (dst := d1) (dofs := ofs) (n := r)
        (by omega) (by omega)
      have hsl : slice g1.obuf g1.opos r = streamBytes (ctrStream E) p r := by
        apply List.ext_getElem?
        intro i
        rw [getElem?_slice]
        unfold streamBytes
        rw [List.getElem?_map]
        by_cases hi : i < r
        · rw [if_pos hi, List.getElem?_range hi]
          simp only [Option.map_some]
          unfold ctrStream
          have e2 : (p + i) / 16 = b1 - 1 := by omega
          have e3 : (p + i) % 16 = g1.opos + i := by omega
          rw [e2, e3, ← hg1.cur ho, List.getD_eq_getElem?_getD, List.getElem?_eq_getElem (by omega)]
          rfl
        · rw [if_neg hi, List.getElem?_eq_none (by rw [List.length_range]; omega)]
          rfl
      rw [hrI]
      refine Post.bind_orRaise_some hblit ?_
      rw [hsl]
      refine Post.bind_modify ?_
      refine rpoll (Nat.le_refl p) (J := fun g' => g'.opos = g1.opos) (fun _ h => h) rfl hg1 rfl ?_
      intro g2 hg2 hop2
      refine Post.bind_modify ?_
      simp only [Int.toNat_natCast]
      have hg3 : RAt k E { g2 with opos := g2.opos + r } (p + r) b1 :=
        ⟨hg2.cipher, hg2.ctr, hg2.obuf, by show g2.opos + r ≤ 16; omega,
          by show p + r + 16 = 16 * b1 + (g2.opos + r); omega, fun _ => hg2.cur (by omega)⟩
      refine rpoll (p := p + r) (Nat.le_add_right p r) (J := fun _ => True) (fun _ h => h) trivial hg3 rfl ?_
      intro g4 hg4 _
      by_cases hlt : r < len
      · rw [if_pos (by omega)]
        have hl := splice_length (b := d1) (o := ofs) (x := streamBytes (ctrStream E) p r)
          (by rw [streamBytes_length]; omega)
        have c1 : (ofs : Int) + r = ((ofs + r : Nat) : Int) := by omega
        have c2 : (len : Int) - r = ((len - r : Nat) : Int) := by omega
        rw [c1, c2]
        refine Post.mono (ih (ofs := ofs + r) (len := len - r)
          (dst := splice d1 ofs (streamBytes (ctrStream E) p r)) (by omega) hg4 (by omega)) ?_ ?_
        · rintro _ q ⟨x1, b', x2⟩
          refine ⟨?_, b', by rw [show p + len = p + r + (len - r) by omega]; exact x2⟩
          rw [x1]
          have := splice_stream (byte := ctrStream E) (dst := d1) (ofs := ofs) (p := p) (m := r) (n := len - r)
            (by omega)
          rw [this, show r + (len - r) = len by omega]
        · intro _ q x y
          obtain ⟨p', b', x1, x2⟩ := x (by omega)
          exact ⟨p', b', by omega, x2⟩
      · rw [if_neg (by omega)]
        obtain rfl : r = len := by omega
        exact ⟨rfl, b1, hg4⟩

/-- The exception does not come while a counter is incremented of which the last byte is 0xFF: none of
those that may be encrypted for `len` bytes ends with it. -/
def NoCarry (g : AesCtrRng σ) (len : Nat) : Prop :=
  ∃ v : Byte, g.ctr.getLast? = some v ∧ v.toNat + (len + 15) / 16 ≤ 255

theorem aesCtrRngI_forward (hc : PureCipher c k E) (hb : c.blocksize = 16) :
    RngForward (aesCtrRngI c.atomic) (fun g p => ∃ b, RAt k E g p b) NoCarry (ctrStream E) := by
  intro g p buf ofs len hA hr
  obtain ⟨b, hA⟩ := hA
  refine Post.mono (aesCtrRandomBytesI_run hc hb _ (by simp) hA hr) (fun _ _ x => x) ?_
  rintro _ q x ⟨v, hv, hle⟩
  have hlast : g.ctr.getLast? = some (BitVec.ofNat 8 (b % 256)) := by
    rw [List.getLast?_eq_getElem?, hA.ctr, natToBE_length]
    exact beLast_natToBE b
  rw [hlast] at hv
  injection hv with hv
  subst hv
  rw [BitVec.toNat_ofNat] at hle
  obtain ⟨p', b', h1, h2⟩ := x (by omega)
  exact ⟨p', h1, b', h2⟩

end aesCtr

end Verif
