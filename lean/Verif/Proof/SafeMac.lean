import Verif.Proof.SafeCipher
/-
Safety of the MACs built from block ciphers.
-/
namespace Verif

open Spec

variable {σ σ2 σ3 : Type} {c : BlockCipher σ} {I : σ → Prop}

/-- Weak invariant of `mac`. -/
structure MacSafe (c : BlockCipher σ) (I : σ → Prop) (st : MacSt σ) : Prop where
  cst : I st.c
  iv : st.iv.length = c.blocksize
  buffer : st.buffer.length = c.blocksize
  used : st.used ≤ c.blocksize

theorem macXor_safe {st : MacSt σ} (hs : MacSafe c I st) {b : Bytes} (hb : b.length = c.blocksize)
    {E : Exn → MacSt σ → Prop} :
    (macXor c b st).Post (fun _ st' => MacSafe c I st' ∧ st'.used = st.used ∧ st'.iv = st.iv) E := by
  unfold macXor
  refine Post.bind_get ?_
  obtain ⟨d, h1, h2⟩ := xorC_dst_some (x := b) (dst := st.buffer) (dofs := 0) (n := c.blocksize)
    (by omega) (by have := hs.buffer; omega)
  rw [Int.natCast_zero] at h1
  refine Post.bind_orUB h1 ?_
  exact ⟨⟨hs.cst, hs.iv, by have := hs.buffer; simp only; omega, hs.used⟩, rfl, rfl⟩

theorem macCall_safe (h : SafeBlock c I) {st : MacSt σ} (hs : MacSafe c I st) :
    (macCall c st).Post (fun _ st' => MacSafe c I st' ∧ st'.used = st.used)
      (fun e st' => e = .error .messageTooLong ∧ MacSafe c I st') := by
  have hr := h.run (src := .other st.buffer) (so := 0) (dofs := 0) (dst := st.iv) hs.cst
    (by simp only [Src.read]; have := hs.buffer; omega) (by have := hs.iv; omega)
  rw [Int.natCast_zero] at hr
  unfold macCall
  cases hc : c.transform (.other st.buffer) 0 0 (st.c, st.iv) with
  | ok a p => rw [hc] at hr; exact ⟨⟨hr.1, hr.2.trans hs.iv, hs.buffer, hs.used⟩, rfl⟩
  | exn e p => rw [hc] at hr; exact ⟨hr.1, hr.2.1, hr.2.2.trans hs.iv, hs.buffer, hs.used⟩
  | ub => rw [hc] at hr; exact hr.elim
  | loop => rw [hc] at hr; exact hr.elim

theorem macBlock_safe (h : SafeBlock c I) {st : MacSt σ} (hs : MacSafe c I st) :
    (macBlock c st).Post (fun _ st' => MacSafe c I st' ∧ st'.used = st.used)
      (fun e st' => e = .error .messageTooLong ∧ MacSafe c I st') := by
  unfold macBlock
  refine Post.bind_get ?_
  refine Post.bind (macXor_safe hs hs.iv) ?_
  rintro - st1 ⟨h1, h2, -⟩
  exact Post.mono (macCall_safe h h1) (fun _ _ x => ⟨x.1, x.2.trans h2⟩) fun _ _ x => x

theorem macAddSubstring_safe (h : SafeBlock c I) (src : Bytes) (ofs len : Int)
    (st : MacSt σ) (hs : MacSafe c I st) :
    (macAddSubstring c src ofs len st).Post
      (fun _ st' => MacSafe c I st' ∧ (InRange src ofs len ∨ (len ≤ 0 ∧ st' = st)))
      (fun e st' => MacSafe c I st' ∧ (e = .invalidArg ∨ e = .error .messageTooLong)) := by
  induction hk : len.toNat * 2 + (if st.used = 0 then 0 else 1) using Nat.strongRecOn
    generalizing ofs len st with
  | _ k ih =>
    have hbs := h.pos
    have hu := hs.used
    rw [macAddSubstring]
    split
    · next hl => exact ⟨hs, .inr ⟨hl, rfl⟩⟩
    · next hl =>
      split
      · next hfit =>
        split
        · exact ⟨hs, .inl rfl⟩
        · next ib hb =>
          have hr : InRange src ofs len := by
            unfold bytesBlit at hb
            split at hb
            · next hc => exact hc.1
            · cases hb
          exact ⟨⟨hs.cst, hs.iv, (bytesBlit_length hb).trans hs.buffer, by simp only; omega⟩, .inl hr⟩
      · next hfit =>
        simp only []
        split
        · exact ⟨hs, .inl rfl⟩
        · next ib hb =>
          have hr : InRange src ofs ((c.blocksize : Int) - st.used) := by
            unfold bytesBlit at hb
            split at hb
            · next hc => exact hc.1
            · cases hb
          have hp := macBlock_safe h (st := { st with buffer := ib })
            ⟨hs.cst, hs.iv, (bytesBlit_length hb).trans hs.buffer, hs.used⟩
          cases hc : macBlock c { st with buffer := ib } with
          | ok a t' =>
            rw [hc] at hp
            simp only []
            rw [dif_neg (by omega)]
            refine Post.mono (ih _ ?_ (ofs + ((c.blocksize : Int) - st.used))
              (len - ((c.blocksize : Int) - st.used)) { t' with used := 0 }
              ⟨hp.1.cst, hp.1.iv, hp.1.buffer, Nat.zero_le _⟩ rfl) ?_ fun _ _ x => x
            · simp only [if_true, Nat.add_zero]; subst hk; split <;> omega
            · rintro - t2 ⟨g1, g2⟩
              refine ⟨g1, .inl ?_⟩
              obtain ⟨r1, r2, r3⟩ := hr
              rcases g2 with ⟨q1, q2, q3⟩ | ⟨q1, -⟩
              · exact ⟨by omega, by omega, by omega⟩
              · omega
          | exn e t' => rw [hc] at hp; exact ⟨hp.2, .inr hp.1⟩
          | ub => rw [hc] at hp; exact hp.elim
          | loop => rw [hc] at hp; exact hp.elim

theorem macAddChar_safe (h : SafeBlock c I) (ch : Byte) (st : MacSt σ) (hs : MacSafe c I st) :
    (macAddChar c ch st).Post (fun _ => MacSafe c I) (fun _ => MacSafe c I) := by
  have hbs := h.pos
  unfold macAddChar
  split
  · split
    · exact hs
    · next hb => exact ⟨hs.cst, hs.iv, (bytesSet_length hb).trans hs.buffer, by simp only; omega⟩
  · refine Post.bind (Post.mono (macBlock_safe h hs) (fun _ _ x => x.1) fun _ _ x => x.2) ?_
    rintro - t1 h1
    refine Post.bind_get ?_
    refine Post.bind_orRaise h1 ?_
    intro ib hb
    exact ⟨h1.cst, h1.iv, (bytesSet_length hb).trans h1.buffer, by simp only; omega⟩

theorem macResult_safe (h : SafeBlock c I) {pad : Option PadScheme} (hp : ∀ p, pad = some p → PadKeeps p)
    (st : MacSt σ) (hs : MacSafe c I st) :
    (macResult c pad st).Post (fun r st' => MacSafe c I st' ∧ r.length = c.blocksize)
      (fun _ => MacSafe c I) := by
  have key : ∀ st, MacSafe c I st →
      ((do
        let st ← M.get
        match pad with
        | none => if st.used ≠ 0 then M.raise (.error .wrongDataLength)
        | some p =>
          let b ← ofExcept (p.pad st.buffer st.used)
          M.modify fun st => { st with buffer := b }
          macBlock c
          M.modify fun st => { st with used := 0 }
        let st ← M.get
        pure st.iv : M (MacSt σ) Bytes) st).Post (fun r st' => MacSafe c I st' ∧ r.length = c.blocksize)
      (fun _ => MacSafe c I) := by
    intro st hs
    refine Post.bind_get ?_
    cases pad with
    | none =>
      simp only []
      split
      · exact hs
      · exact ⟨hs, hs.iv⟩
    | some p =>
      simp only [bind_assoc]
      refine Post.bind_ofExcept (fun _ _ => hs) ?_
      intro b hb
      refine Post.bind_modify ?_
      refine Post.bind (Post.mono (macBlock_safe h (st := { st with buffer := b })
        ⟨hs.cst, hs.iv, (hp p rfl _ _ _ hb).trans hs.buffer, hs.used⟩) (fun _ _ x => x.1)
        fun _ _ x => x.2) ?_
      rintro - t1 h1
      exact ⟨⟨h1.cst, h1.iv, h1.buffer, Nat.zero_le _⟩, h1.iv⟩
  refine Post.bind_get (s := st) ?_
  by_cases hu : st.used = c.blocksize
  · simp only [hu, if_true, bind_assoc]
    refine Post.bind (Post.mono (macBlock_safe h hs) (fun _ _ x => x.1) fun _ _ x => x.2) ?_
    rintro - t1 h1
    exact key _ ⟨h1.cst, h1.iv, h1.buffer, Nat.zero_le _⟩
  · simp only [hu, if_false]
    exact key st hs

theorem mac_safe (h : SafeBlock c I) {pad : Option PadScheme} (hp : ∀ p, pad = some p → PadKeeps p) :
    HSafe (mac c pad) (MacSafe c I) (·.length = c.blocksize) where
  addSubstring b ofs len t ht :=
    Post.mono (macAddSubstring_safe h b ofs len t ht) (fun _ _ x => x.1) fun _ _ x => x.1
  addString s t ht :=
    Post.mono (macAddSubstring_safe h s 0 s.length t ht) (fun _ _ x => x.1) fun _ _ x => x.1
  addChar ch t ht := macAddChar_safe h ch t ht
  addByte b t ht := macAddChar_safe h (BitVec.ofInt 8 b) t ht
  result t ht := macResult_safe h hp t ht

theorem mac_wipe (hw : BWipeSafe c I) (pad : Option PadScheme) :
    HWipeSafe (mac c pad) (MacSafe c I) :=
  fun _ ht => ⟨hw _ ht.cst, by simpa using ht.iv, by simpa using ht.buffer, ht.used⟩

theorem macInit_safe {env : Env} {s : σ} {iv : Option Bytes} {st : MacSt σ} (hs : I s)
    (h : macInit env c s iv = .ok st) : MacSafe c I st := by
  unfold macInit at h
  split at h
  · next hm => cases h; exact ⟨hs, makeInitialIV_length hm, by simp, Nat.zero_le _⟩
  · cases h

theorem onMac3_safe {m : M (MacSt σ) α} {t : Mac3St σ σ2 σ3} {Q : α → MacSt σ → Prop}
    {E : Exn → MacSt σ → Prop} (h : (m t.m).Post Q E) :
    (Mac3St.onMac m t).Post (fun a t' => Q a t'.m ∧ t'.c2 = t.c2 ∧ t'.c3 = t.c3)
      (fun e t' => E e t'.m ∧ t'.c2 = t.c2 ∧ t'.c3 = t.c3) :=
  Post.zoom h (fun _ _ x => ⟨x, rfl, rfl⟩) fun _ _ x => ⟨x, rfl, rfl⟩

/-- Weak invariant of `mac_final_triple`. -/
def Mac3Safe (c : BlockCipher σ) (I : σ → Prop) (I2 : σ2 → Prop) (I3 : σ3 → Prop)
    (t : Mac3St σ σ2 σ3) : Prop := MacSafe c I t.m ∧ I2 t.c2 ∧ I3 t.c3

theorem mac3_safe {c2 : BlockCipher σ2} {c3 : BlockCipher σ3} {I2 : σ2 → Prop} {I3 : σ3 → Prop}
    (h : SafeBlock c I) (h2 : SafeBlock c2 I2) (h3 : SafeBlock c3 I3)
    (e2 : c.blocksize = c2.blocksize) (e3 : c2.blocksize = c3.blocksize)
    {pad : Option PadScheme} (hp : ∀ p, pad = some p → PadKeeps p) :
    HSafe (macFinalTriple c c2 c3 pad) (Mac3Safe c I I2 I3) (·.length = c.blocksize) := by
  have lift : ∀ {m : M (MacSt σ) Unit} {t : Mac3St σ σ2 σ3}, Mac3Safe c I I2 I3 t →
      (m t.m).Post (fun _ => MacSafe c I) (fun _ => MacSafe c I) →
      (Mac3St.onMac m t).Post (fun _ => Mac3Safe c I I2 I3) (fun _ => Mac3Safe c I I2 I3) := by
    intro m t ht hm
    exact Post.mono (onMac3_safe hm) (fun _ _ x => ⟨x.1, x.2.1 ▸ ht.2.1, x.2.2 ▸ ht.2.2⟩)
      fun _ _ x => ⟨x.1, x.2.1 ▸ ht.2.1, x.2.2 ▸ ht.2.2⟩
  have hm := mac_safe h hp
  refine ⟨fun b ofs len t ht => lift ht (hm.addSubstring b ofs len _ ht.1),
    fun s t ht => lift ht (hm.addString s _ ht.1), fun ch t ht => lift ht (hm.addChar ch _ ht.1),
    fun b t ht => lift ht (hm.addByte b _ ht.1), ?_⟩
  intro t ht
  refine Post.bind (Post.mono (onMac3_safe (macResult_safe h hp t.m ht.1))
    (fun _ _ x => x) (fun _ _ x => ⟨x.1, x.2.1 ▸ ht.2.1, x.2.2 ▸ ht.2.2⟩)) ?_
  rintro r t1 ⟨⟨g1, g2⟩, g3, g4⟩
  have i2 : I2 t1.c2 := g3 ▸ ht.2.1
  have i3 : I3 t1.c3 := g4 ▸ ht.2.2
  have r2 := h2.run (src := .self) (so := 0) (dofs := 0) (dst := r) i2
    (by simp only [Src.read]; omega) (by omega)
  unfold mac3Finish
  rw [Int.natCast_zero] at r2
  cases hc : c2.transform .self 0 0 (t1.c2, r) with
  | ok a p =>
    rw [hc] at r2
    obtain ⟨s2, r'⟩ := p
    have r3 := h3.run (src := .self) (so := 0) (dofs := 0) (dst := r') i3
      (by simp only [Src.read]; have := r2.2; simp only at this; omega)
      (by have := r2.2; simp only at this; omega)
    rw [Int.natCast_zero] at r3
    simp only []
    cases hc3 : c3.transform .self 0 0 (t1.c3, r') with
    | ok a p =>
      rw [hc3] at r3
      exact ⟨⟨g1, r2.1, r3.1⟩, r3.2.trans (r2.2.trans g2)⟩
    | exn e p => rw [hc3] at r3; exact ⟨g1, r2.1, r3.2.1⟩
    | ub => rw [hc3] at r3; exact r3.elim
    | loop => rw [hc3] at r3; exact r3.elim
  | exn e p => rw [hc] at r2; exact ⟨g1, r2.2.1, i3⟩
  | ub => rw [hc] at r2; exact r2.elim
  | loop => rw [hc] at r2; exact r2.elim

theorem mac3_wipe {c2 : BlockCipher σ2} {c3 : BlockCipher σ3} {I2 : σ2 → Prop} {I3 : σ3 → Prop}
    (h : BWipeSafe c I) (h2 : BWipeSafe c2 I2) (h3 : BWipeSafe c3 I3) (pad : Option PadScheme) :
    HWipeSafe (macFinalTriple c c2 c3 pad) (Mac3Safe c I I2 I3) :=
  fun t ht => ⟨mac_wipe h pad t.m ht.1, h2 _ ht.2.1, h3 _ ht.2.2⟩

/-- Weak invariant of `cmac`. -/
def CmacSafe (c : BlockCipher σ) (I : σ → Prop) (t : CmacSt σ) : Prop :=
  MacSafe c I t.m ∧ t.k1.length = c.blocksize ∧ t.k2.length = c.blocksize

theorem onCmac_safe {m : M (MacSt σ) α} {t : CmacSt σ} {Q : α → MacSt σ → Prop}
    {E : Exn → MacSt σ → Prop} (h : (m t.m).Post Q E) :
    (CmacSt.onMac m t).Post (fun a t' => Q a t'.m ∧ t'.k1 = t.k1 ∧ t'.k2 = t.k2)
      (fun e t' => E e t'.m ∧ t'.k1 = t.k1 ∧ t'.k2 = t.k2) :=
  Post.zoom h (fun _ _ x => ⟨x, rfl, rfl⟩) fun _ _ x => ⟨x, rfl, rfl⟩

theorem zeroLoop_length : ∀ (k : Nat) (b : Bytes) (i : Int) (b' : Bytes),
    Padding.zeroLoop b i k = .ok b' → b'.length = b.length
  | 0, _, _, _, h => by cases h; rfl
  | k + 1, b, i, b', h => by
    rw [Padding.zeroLoop] at h
    split at h
    · cases h
    · next hb => exact (zeroLoop_length k _ _ _ h).trans (bytesSet_length hb)

theorem padKeeps_8000 : PadKeeps Padding._8000 := by
  intro b used b' h
  change Padding.pad8000 b used = _ at h
  unfold Padding.pad8000 at h
  split at h
  · cases h
  · next hb => exact (zeroLoop_length _ _ _ _ h).trans (bytesSet_length hb)

theorem bytesFill_length {b b' : Bytes} {ofs n : Int} {c : Byte} (h : bytesFill b ofs n c = some b') :
    b'.length = b.length := by
  unfold bytesFill at h
  split at h
  · next hc =>
    cases h
    obtain ⟨_, _, _⟩ := hc
    rw [splice_length]
    simp; omega
  · cases h

theorem padKeeps_length : PadKeeps Padding.length := by
  intro b used b' h
  change Padding.lengthPad b used = _ at h
  unfold Padding.lengthPad at h
  simp only [] at h
  split at h
  · split at h
    · next hb => cases h; exact bytesFill_length hb
    · cases h
  · cases h

theorem cmacResult_safe (h : SafeBlock c I) {k1 k2 : Bytes} (h1 : k1.length = c.blocksize)
    (h2 : k2.length = c.blocksize) (st : MacSt σ) (hs : MacSafe c I st) :
    (cmacResult c k1 k2 st).Post (fun r st' => MacSafe c I st' ∧ r.length = c.blocksize)
      (fun _ => MacSafe c I) := by
  unfold cmacResult
  refine Post.bind_get ?_
  have key : ∀ (k : Bytes) (st1 : MacSt σ), MacSafe c I st1 → k.length = c.blocksize →
      ((do
        let st ← M.get
        macXor c st.iv
        macXor c k
        macCall c
        M.modify fun st => { st with used := 0 }
        let st ← M.get
        pure st.iv : M (MacSt σ) Bytes) st1).Post
          (fun r st' => MacSafe c I st' ∧ r.length = c.blocksize) (fun _ => MacSafe c I) := by
    intro k st1 g1 g2
    refine Post.bind_get ?_
    refine Post.bind (macXor_safe g1 g1.iv) ?_
    rintro - st2 ⟨g3, -⟩
    refine Post.bind (macXor_safe g3 g2) ?_
    rintro - st3 ⟨g4, -⟩
    refine Post.bind (Post.mono (macCall_safe h g4) (fun _ _ x => x.1) fun _ _ x => x.2) ?_
    rintro - st4 g5
    exact ⟨⟨g5.cst, g5.iv, g5.buffer, Nat.zero_le _⟩, g5.iv⟩
  split
  · exact key k1 st hs h1
  · refine Post.bind_ofExcept (fun _ _ => hs) ?_
    intro b hb
    refine Post.bind_modify ?_
    exact key k2 _ ⟨hs.cst, hs.iv, (padKeeps_8000 _ _ _ hb).trans hs.buffer, hs.used⟩ h2

theorem cmac_safe (h : SafeBlock c I) : HSafe (cmac c) (CmacSafe c I) (·.length = c.blocksize) := by
  have lift : ∀ {m : M (MacSt σ) Unit} {t : CmacSt σ}, CmacSafe c I t →
      (m t.m).Post (fun _ => MacSafe c I) (fun _ => MacSafe c I) →
      (CmacSt.onMac m t).Post (fun _ => CmacSafe c I) (fun _ => CmacSafe c I) := by
    intro m t ht hm
    exact Post.mono (onCmac_safe hm) (fun _ _ x => ⟨x.1, x.2.1 ▸ ht.2.1, x.2.2 ▸ ht.2.2⟩)
      fun _ _ x => ⟨x.1, x.2.1 ▸ ht.2.1, x.2.2 ▸ ht.2.2⟩
  have hm := mac_safe h (pad := none) (fun _ hp => nomatch hp)
  refine ⟨fun b ofs len t ht => lift ht (hm.addSubstring b ofs len _ ht.1),
    fun s t ht => lift ht (hm.addString s _ ht.1), fun ch t ht => lift ht (hm.addChar ch _ ht.1),
    fun b t ht => lift ht (hm.addByte b _ ht.1), ?_⟩
  intro t ht
  refine Post.bind_get (s := t) ?_
  exact Post.mono (onCmac_safe (cmacResult_safe h ht.2.1 ht.2.2 t.m ht.1))
    (fun _ _ x => ⟨⟨x.1.1, x.2.1 ▸ ht.2.1, x.2.2 ▸ ht.2.2⟩, x.1.2⟩)
    (fun _ _ x => ⟨x.1, x.2.1 ▸ ht.2.1, x.2.2 ▸ ht.2.2⟩)

/-- An object of class `hash` safe to use, after `wipe` too if `w`. -/
def HashOk (w : Prop) (n : Nat) (A : AnyHash) : Prop :=
  ∃ I : A.τ → Prop, HSafe A.H I (·.length = n) ∧ I A.t ∧ (w → HWipeSafe A.H I) ∧
    (∀ t, I t → ∀ b ofs len, ¬ InRange b ofs len →
      (∃ e t', A.H.addSubstring b ofs len t = .exn e t' ∧ RangeExn e)
        ∨ (len ≤ 0 ∧ A.H.addSubstring b ofs len t = .ok () t))

theorem macAdd_range (h : SafeBlock c I) (t : MacSt σ) (ht : MacSafe c I t) (b : Bytes) (ofs len : Int)
    (hr : ¬ InRange b ofs len) :
    (∃ e t', macAddSubstring c b ofs len t = .exn e t' ∧ RangeExn e)
        ∨ (len ≤ 0 ∧ macAddSubstring c b ofs len t = .ok () t) := by
  have := macAddSubstring_safe h b ofs len t ht
  cases hc : macAddSubstring c b ofs len t with
  | ok a t' =>
    rw [hc] at this
    rcases this.2 with h | ⟨h1, rfl⟩
    · exact absurd h hr
    · exact .inr ⟨h1, rfl⟩
  | exn e t' =>
    rw [hc] at this
    refine .inl ⟨e, t', rfl, ?_⟩
    rcases this.2 with h | h
    · exact .inl h
    · exact .inr (.inl h)
  | ub => rw [hc] at this; exact this.elim
  | loop => rw [hc] at this; exact this.elim

/-- The same, through a lens. -/
theorem range_zoom {get : τ → σ} {set : σ → τ → τ} (hg : ∀ t, set (get t) t = t) {m : M σ Unit} {t : τ}
    {len : Int} (h : (∃ e t', m (get t) = .exn e t' ∧ RangeExn e) ∨ (len ≤ 0 ∧ m (get t) = .ok () (get t))) :
    (∃ e t', M.zoom get set m t = .exn e t' ∧ RangeExn e) ∨ (len ≤ 0 ∧ M.zoom get set m t = .ok () t) := by
  unfold M.zoom
  rcases h with ⟨e, t', h, hr⟩ | ⟨hl, h⟩
  · rw [h]; exact .inl ⟨e, _, rfl, hr⟩
  · rw [h]; exact .inr ⟨hl, by simp only [hg]⟩

namespace MAC
open Cipher

theorem ofBlock_ok {env : Env} {iv : Option Bytes} {pad : Option PadScheme}
    {ob : Option (Except Exn AnyBlock)} {A : AnyHash} {w : Prop} {n : Nat}
    (hp : ∀ p, pad = some p → PadKeeps p)
    (hb : ∀ b, ob = some (.ok b) → BlockOk w b ∧ b.c.blocksize = n)
    (h : ofBlock env iv pad ob = some (.ok A)) : HashOk w n A := by
  unfold ofBlock at h
  cases ob with
  | none => cases h
  | some r =>
    cases r with
    | error e => cases h
    | ok b =>
      simp only [Option.map_some, Except.bind, Option.some.injEq] at h
      obtain ⟨st, hs, rfl⟩ := Except.eq_ok_of_map h
      obtain ⟨⟨I, h1, h2, h3⟩, rfl⟩ := hb b rfl
      exact ⟨_, mac_safe h1 hp, macInit_safe h2 hs, fun x => mac_wipe (h3 x) pad,
        fun t ht => macAdd_range h1 t ht⟩

theorem desFinalTripleDes_ok {env : Env} {iv : Option Bytes} {pad : Option PadScheme} {key : Bytes}
    {A : AnyHash} (hp : ∀ p, pad = some p → PadKeeps p)
    (h : desFinalTripleDes env iv pad key = some (.ok A)) : HashOk True 8 A := by
  unfold desFinalTripleDes at h
  split at h
  · cases h
  · simp only [] at h
    split at h
    · next r1 r2 r3 e1 e2 e3 =>
      cases r1 with
      | error e => cases h
      | ok b1 =>
      cases r2 with
      | error e => cases h
      | ok b2 =>
      cases r3 with
      | error e => cases h
      | ok b3 =>
      obtain ⟨⟨I1, s1, i1, w1⟩, n1⟩ := desBlock_ok e1
      obtain ⟨⟨I2, s2, i2, w2⟩, n2⟩ := desBlock_ok e2
      obtain ⟨⟨I3, s3, i3, w3⟩, n3⟩ := desBlock_ok e3
      obtain ⟨st, hs, rfl⟩ := Except.eq_ok_of_map (Option.some.inj h)
      unfold mac3Init at hs
      split at hs
      · cases hs
      · split at hs
        · next m hm =>
          cases hs
          exact ⟨_, n1 ▸ mac3_safe s1 s2 s3 (n1.trans n2.symm) (n2.trans n3.symm) hp,
            ⟨macInit_safe i1 hm, i2, i3⟩, fun x => mac3_wipe (w1 x) (w2 x) (w3 x) pad,
            fun t ht b ofs len hr => range_zoom (get := Mac3St.m) (set := fun m t => { t with m := m }) (fun _ => rfl)
              (macAdd_range s1 t.m ht.1 b ofs len hr)⟩
        · cases hs
    · cases h

theorem shl1Loop_length (l : Bytes) : ∀ (n : Nat) (d : Bytes) (cy : Nat) (k : Bytes),
    shl1Loop l d cy n = some k → k.length = d.length
  | 0, _, _, _, h => by cases h; rfl
  | n + 1, d, cy, k, h => by
    rw [shl1Loop] at h
    split at h
    · cases h
    · split at h
      · exact (shl1Loop_length l n _ _ k h).trans (by simp)
      · cases h

theorem shl1_length {env : Env} {l k : Bytes} (h : shl1Bytes l (env.create 16) 16 = some k) :
    k.length = 16 := (shl1Loop_length l 16 _ _ k h).trans (by simp)

theorem cmacSubkey_safe {env : Env} {b l : Bytes} (hb : b.length = 16) {s : σ} {I : σ → Prop} (hs : I s) :
    (cmacSubkey env b l s).Post (fun k s' => k.length = 16 ∧ I s') (fun _ => I) := by
  unfold cmacSubkey
  refine Post.bind_orRaise hs ?_
  intro k hk
  refine Post.bind_orRaise hs ?_
  intro l0 _
  have hl := shl1_length hk
  split
  · obtain ⟨d, h1, h2⟩ := xorC_dst_some (x := b) (dst := k) (dofs := 0) (n := 16) (by omega) (by omega)
    rw [Int.natCast_zero] at h1
    change xorC (.other b) 0 k 0 16 = some d at h1
    rw [h1]
    exact ⟨by omega, hs⟩
  · exact ⟨hl, hs⟩

theorem aesCmacNew_safe {env : Env} {iv : Option Bytes} {c : BlockCipher σ} {I : σ → Prop} (h1 : SafeBlock c I)
    (hn : c.blocksize = 16) {s : σ} (h2 : I s) :
    (aesCmacNew env c s iv).Post (fun st _ => CmacSafe c I st) (fun _ _ => True) := by
  have hr := h1.run (src := .other (List.replicate 16 0)) (so := 0) (dofs := 0) (dst := env.create 16) h2
    (by simp [Src.read, hn]) (by simp [hn])
  rw [Int.natCast_zero] at hr
  unfold aesCmacNew
  simp only []
  cases hc : c.transform (.other (List.replicate 16 0)) 0 0 (s, env.create 16) with
  | ok a p =>
    rw [hc] at hr
    obtain ⟨s, l⟩ := p
    simp only []
    refine Post.bind_orRaise trivial ?_
    intro b1 hb1
    have hb1l := bytesSet_length hb1
    rw [List.length_replicate] at hb1l
    refine Post.bind (Post.mono (cmacSubkey_safe hb1l hr.1) (fun _ _ x => x) fun _ _ _ => trivial) ?_
    rintro k1 s1 ⟨l1, i1⟩
    refine Post.bind (Post.mono (cmacSubkey_safe hb1l i1) (fun _ _ x => x) fun _ _ _ => trivial) ?_
    rintro k2 s2 ⟨l2, i2⟩
    cases hm : macInit env c s iv with
    | ok m => exact ⟨macInit_safe hr.1 hm, l1.trans hn.symm, l2.trans hn.symm⟩
    | error e => trivial
  | exn e p => trivial
  | ub => rw [hc] at hr; exact hr.elim
  | loop => rw [hc] at hr; exact hr.elim

theorem aesCmac_ok {env : Env} {host : AesHost} {iv : Option Bytes} {key : Bytes}
    {A : AnyHash} (h : aesCmac env host iv key = some (.ok A)) : HashOk False 16 A := by
  unfold aesCmac at h
  cases ho : aesBlock host .encrypt key with
  | none => rw [ho] at h; cases h
  | some r =>
    rw [ho] at h
    cases r with
    | error e => cases h
    | ok b =>
      obtain ⟨⟨I, h1, h2, h3⟩, hn⟩ := aesBlock_ok ho
      simp only [Option.bind_some] at h
      have hnew := aesCmacNew_safe (env := env) (iv := iv) h1 hn h2
      cases hc : aesCmacNew env b.c b.s iv with
      | ok st s =>
        rw [hc] at h hnew
        cases h
        exact ⟨_, hn ▸ cmac_safe h1, hnew, False.elim,
          fun t ht b ofs len hr => range_zoom (get := CmacSt.m) (set := fun m t => { t with m := m }) (fun _ => rfl)
            (macAdd_range h1 t.m ht.1 b ofs len hr)⟩
      | exn e s => rw [hc] at h; cases h
      | ub => rw [hc] at h; cases h
      | loop => rw [hc] at h; cases h

end MAC

theorem HashOk.any {n : Nat} {A : AnyHash} (h : HashOk True n A) :
    MemorySafe (invokeH A.H) anyCall A.t ∧ RangeChecked (invokeH A.H) anyCall A.t A.H.addSubstring := by
  obtain ⟨I, h1, h2, h3, h4⟩ := h
  have hp := h1.any (h3 trivial)
  exact ⟨hp.safe h2, fun t hr => h4 t (hp.reachable h2 hr)⟩

theorem HashOk.notWipe {n : Nat} {A : AnyHash} (h : HashOk False n A) :
    MemorySafe (invokeH A.H) notWipeH A.t ∧ RangeChecked (invokeH A.H) notWipeH A.t A.H.addSubstring := by
  obtain ⟨I, h1, h2, h3, h4⟩ := h
  have hp := h1.notWipe
  exact ⟨hp.safe h2, fun t hr => h4 t (hp.reachable h2 hr)⟩

end Verif
