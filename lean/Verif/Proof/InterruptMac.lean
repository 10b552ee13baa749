import Verif.Proof.Interrupt
import Verif.Proof.SafeMac
import Verif.Model.InterruptMac
/-
Safety of the interruptible MACs.
-/
namespace Verif

open Spec

variable {σ σ2 σ3 : Type} [Ticking σ] {c : BlockCipher σ} {I : σ → Prop}

abbrev IMacE (c : BlockCipher σ) (I : σ → Prop) : Exn → MacSt σ → Prop := fun _ => MacSafe c I

/-- A point inside of a method. -/
theorem mac_poll (hI : TickStable I) {t : MacSt σ} {k : Unit → M (MacSt σ) β}
    {R : β → MacSt σ → Prop} (ht : MacSafe c I t)
    (hk : ∀ s', MacSafe c I { t with c := s' } → (k () { t with c := s' }).Post R (IMacE c I)) :
    ((poll >>= k) t).Post R (IMacE c I) :=
  Post.bind_poll (P := fun u => I u.c ∧ u = { t with c := u.c }) ⟨hI _ ht.cst, rfl⟩
    (by rintro e ⟨a, b, u, o⟩ ⟨h1, h2⟩; cases h2; exact ⟨h1, ht.iv, ht.buffer, ht.used⟩)
    (by rintro ⟨a, b, u, o⟩ ⟨h1, h2⟩; cases h2; exact hk _ ⟨h1, ht.iv, ht.buffer, ht.used⟩)

theorem mac_end (hI : TickStable I) {t : MacSt σ} (ht : MacSafe c I t) :
    ((poll : M (MacSt σ) Unit) t).Post (fun _ t' => MacSafe c I t' ∧ t'.used = t.used) (IMacE c I) :=
  Post.poll (P := fun u => MacSafe c I u ∧ u.used = t.used)
    ⟨⟨hI _ ht.cst, ht.iv, ht.buffer, ht.used⟩, rfl⟩ (fun _ _ x => x.1) fun _ x => x

theorem macCallI_safe (h : ISafeBlock c I) {st : MacSt σ} (hs : MacSafe c I st) :
    (macCall c st).Post (fun _ st' => MacSafe c I st' ∧ st'.used = st.used) (IMacE c I) := by
  have hr := h.run (src := .other st.buffer) (so := 0) (dofs := 0) (dst := st.iv) hs.cst
    (by simp only [Src.read]; have := hs.buffer; omega) (by have := hs.iv; omega)
  rw [Int.natCast_zero] at hr
  unfold macCall
  cases hc : c.transform (.other st.buffer) 0 0 (st.c, st.iv) with
  | ok a p => rw [hc] at hr; exact ⟨⟨hr.1, hr.2.trans hs.iv, hs.buffer, hs.used⟩, rfl⟩
  | exn e p => rw [hc] at hr; exact ⟨hr.1, hr.2.trans hs.iv, hs.buffer, hs.used⟩
  | ub => rw [hc] at hr; exact hr.elim
  | loop => rw [hc] at hr; exact hr.elim

theorem macBlockI_safe (h : ISafeBlock c I) {st : MacSt σ} (hs : MacSafe c I st) :
    (macBlockI c st).Post (fun _ => MacSafe c I) (IMacE c I) := by
  refine Post.bind_get (s := st) ?_
  refine Post.bind (macXor_safe hs hs.iv) ?_
  rintro - st1 ⟨h1, -, -⟩
  refine mac_poll h.stable h1 ?_
  intro s2 h2
  refine Post.bind (macCallI_safe h h2) ?_
  rintro - st3 ⟨h3, -⟩
  exact Post.mono (mac_end h.stable h3) (fun _ _ x => x.1) fun _ _ x => x

theorem macBlockResetI_safe (h : ISafeBlock c I) {st : MacSt σ} (hs : MacSafe c I st) :
    (macBlockResetI c st).Post (fun _ t' => MacSafe c I t' ∧ t'.used = 0) (IMacE c I) := by
  refine Post.bind (macBlockI_safe h hs) ?_
  rintro - t1 h1
  refine Post.bind_modify ?_
  exact mac_end h.stable ⟨h1.cst, h1.iv, h1.buffer, Nat.zero_le _⟩

theorem macAddSubstringI_safe (h : ISafeBlock c I) (src : Bytes) (ofs len : Int)
    (t : MacSt σ) (ht : MacSafe c I t) :
    (macAddSubstringI c src ofs len t).Post (fun _ => MacSafe c I) (IMacE c I) := by
  induction hk : len.toNat * 2 + (if t.used = 0 then 0 else 1) using Nat.strongRecOn
    generalizing ofs len t with
  | _ k ih =>
    have hbs := h.pos
    have hu := ht.used
    rw [macAddSubstringI]
    split
    · exact Post.mono (mac_end h.stable ht) (fun _ _ x => x.1) fun _ _ x => x
    · next hl =>
      split
      · next hfit =>
        refine mac_poll h.stable ht ?_
        intro s1 h1
        refine Post.bind_get ?_
        refine Post.bind_orRaise h1 ?_
        intro ib hb
        refine Post.bind_modify ?_
        refine mac_poll h.stable ⟨h1.cst, h1.iv, (bytesBlit_length hb).trans h1.buffer, h1.used⟩ ?_
        intro s2 h2
        refine Post.bind_modify ?_
        exact Post.mono (mac_end h.stable ⟨h2.cst, h2.iv, h2.buffer, by simp only; omega⟩)
          (fun _ _ x => x.1) fun _ _ x => x
      · next hfit =>
        simp only []
        split
        · exact mac_poll h.stable ht fun s1 h1 => h1
        · next ib hb =>
          have hp : ((do
              poll
              M.modify fun st => { st with buffer := ib }
              poll
              macBlockResetI c : M (MacSt σ) Unit) t).Post
              (fun _ t' => MacSafe c I t' ∧ t'.used = 0) (IMacE c I) := by
            refine mac_poll h.stable ht ?_
            intro s1 h1
            refine Post.bind_modify ?_
            refine mac_poll h.stable ⟨h1.cst, h1.iv, (bytesBlit_length hb).trans h1.buffer, h1.used⟩ ?_
            intro s2 h2
            exact macBlockResetI_safe h h2
          split
          · next t' hc =>
            rw [hc] at hp
            rw [dif_neg (by have := hp.2; omega)]
            refine ih _ ?_ _ _ t' hp.1 rfl
            have := bytesBlit_len_nonneg hb
            rw [if_pos hp.2, Nat.add_zero]; subst hk; split <;> omega
          · next hc => rw [hc] at hp; exact hp
          · next hc => rw [hc] at hp; exact hp.elim
          · next hc => rw [hc] at hp; exact hp.elim

theorem macAddCharI_safe (h : ISafeBlock c I) (ch : Byte) (t : MacSt σ) (ht : MacSafe c I t) :
    (macAddCharI c ch t).Post (fun _ => MacSafe c I) (IMacE c I) := by
  have hbs := h.pos
  refine mac_poll h.stable ht ?_
  intro s0 h0
  refine Post.bind_get ?_
  simp only []
  split
  · next hlt =>
    refine Post.bind_orRaise h0 ?_
    intro ib hb
    refine Post.bind_modify ?_
    refine mac_poll h.stable ⟨h0.cst, h0.iv, (bytesSet_length hb).trans h0.buffer, h0.used⟩ ?_
    intro s1 h1
    refine Post.bind_modify ?_
    exact Post.mono (mac_end h.stable ⟨h1.cst, h1.iv, h1.buffer, by simp only; omega⟩)
      (fun _ _ x => x.1) fun _ _ x => x
  · refine Post.bind (macBlockI_safe h h0) ?_
    rintro - t1 h1
    refine Post.bind_get ?_
    refine Post.bind_orRaise h1 ?_
    intro ib hb
    refine Post.bind_modify ?_
    refine mac_poll h.stable ⟨h1.cst, h1.iv, (bytesSet_length hb).trans h1.buffer, h1.used⟩ ?_
    intro s1 h1
    refine Post.bind_modify ?_
    exact Post.mono (mac_end h.stable ⟨h1.cst, h1.iv, h1.buffer, by simp only; omega⟩)
      (fun _ _ x => x.1) fun _ _ x => x

theorem macLastI_safe (h : ISafeBlock c I) {pad : Option PadScheme} (hp : ∀ p, pad = some p → PadKeeps p)
    (t : MacSt σ) (ht : MacSafe c I t) :
    (macLastI c pad t).Post (fun r t' => MacSafe c I t' ∧ r.length = c.blocksize) (IMacE c I) := by
  have last : ∀ t, MacSafe c I t → ((do poll; let st ← M.get; pure st.iv : M (MacSt σ) Bytes) t).Post
      (fun r t' => MacSafe c I t' ∧ r.length = c.blocksize) (IMacE c I) := fun t ht =>
    mac_poll h.stable ht fun s1 h1 => ⟨h1, h1.iv⟩
  refine mac_poll h.stable ht ?_
  intro s1 h1
  refine Post.bind_get ?_
  cases pad with
  | none =>
    simp only []
    split
    · exact h1
    · exact last _ h1
  | some p =>
    simp only [bind_assoc]
    refine Post.bind_ofExcept (fun _ _ => h1) ?_
    intro b hb
    refine Post.bind_modify ?_
    refine mac_poll h.stable ⟨h1.cst, h1.iv, (hp p rfl _ _ _ hb).trans h1.buffer, h1.used⟩ ?_
    intro s2 h2
    refine Post.bind (macBlockResetI_safe h h2) ?_
    rintro - t3 ⟨h3, -⟩
    exact last _ h3

theorem macResultI_safe (h : ISafeBlock c I) {pad : Option PadScheme} (hp : ∀ p, pad = some p → PadKeeps p)
    (t : MacSt σ) (ht : MacSafe c I t) :
    (macResultI c pad t).Post (fun r t' => MacSafe c I t' ∧ r.length = c.blocksize) (IMacE c I) := by
  refine mac_poll h.stable ht ?_
  intro s1 h1
  refine Post.bind_get ?_
  simp only []
  split
  · refine Post.bind (macBlockResetI_safe h h1) ?_
    rintro - t2 ⟨h2, -⟩
    exact macLastI_safe h hp _ h2
  · exact macLastI_safe h hp _ h1

theorem macWipeI_safe (hI : TickStable I) (hw : BWipeSafe c I) (t : MacSt σ) (ht : MacSafe c I t) :
    (macWipeI c t).Post (fun _ => MacSafe c I) (IMacE c I) := by
  refine mac_poll hI ht ?_
  intro s1 h1
  refine Post.bind_modify ?_
  refine mac_poll hI ⟨hw _ h1.cst, h1.iv, h1.buffer, h1.used⟩ ?_
  intro s2 h2
  refine Post.bind_modify ?_
  refine mac_poll hI ⟨h2.cst, h2.iv, by simpa using h2.buffer, h2.used⟩ ?_
  intro s3 h3
  refine Post.bind_modify ?_
  exact Post.mono (mac_end hI ⟨h3.cst, by simpa using h3.iv, h3.buffer, h3.used⟩)
    (fun _ _ x => x.1) fun _ _ x => x

theorem macI_safe (h : ISafeBlock c I) {pad : Option PadScheme} (hp : ∀ p, pad = some p → PadKeeps p) :
    HSafe (macI c pad) (MacSafe c I) (·.length = c.blocksize) where
  addSubstring b ofs len t ht := macAddSubstringI_safe h b ofs len t ht
  addString s t ht := macAddSubstringI_safe h s 0 s.length t ht
  addChar ch t ht := macAddCharI_safe h ch t ht
  addByte b t ht := macAddCharI_safe h (BitVec.ofInt 8 b) t ht
  result t ht := macResultI_safe h hp t ht

/-! ### `mac_final_triple` -/

theorem mac3_poll {I2 : σ2 → Prop} {I3 : σ3 → Prop} (hI : TickStable I) {t : Mac3St σ σ2 σ3}
    {k : Unit → M (Mac3St σ σ2 σ3) β} {R : β → Mac3St σ σ2 σ3 → Prop} (ht : Mac3Safe c I I2 I3 t)
    (hk : ∀ t, Mac3Safe c I I2 I3 t → (k () t).Post R (fun _ => Mac3Safe c I I2 I3)) :
    ((poll >>= k) t).Post R (fun _ => Mac3Safe c I I2 I3) :=
  Post.bind_poll (P := Mac3Safe c I I2 I3)
    ⟨⟨hI _ ht.1.cst, ht.1.iv, ht.1.buffer, ht.1.used⟩, ht.2⟩ (fun _ _ x => x) hk

theorem mac3CallI_safe {κ τ : Type} {c' : BlockCipher κ} {J : κ → Prop} (h : SafeBlock c' J)
    {get : τ → κ} {set : κ → τ → τ} {K : τ → Prop} {t : τ} (ht : J (get t))
    (hset : ∀ s, J s → K (set s t)) {r : Bytes} (hr : r.length = c'.blocksize) :
    (mac3CallI c' get set r t).Post (fun r' t' => K t' ∧ r'.length = c'.blocksize) (fun _ => K) := by
  have g := h.run (src := .self) (so := 0) (dofs := 0) (dst := r) ht
    (by simp only [Src.read]; omega) (by omega)
  rw [Int.natCast_zero] at g
  unfold mac3CallI
  cases hc : c'.transform .self 0 0 (get t, r) with
  | ok a p => rw [hc] at g; exact ⟨hset _ g.1, g.2.trans hr⟩
  | exn e p => rw [hc] at g; exact hset _ g.2.1
  | ub => rw [hc] at g; exact g.elim
  | loop => rw [hc] at g; exact g.elim

theorem mac3I_safe {c2 : BlockCipher σ2} {c3 : BlockCipher σ3} {I2 : σ2 → Prop} {I3 : σ3 → Prop}
    (h : ISafeBlock c I) (h2 : SafeBlock c2 I2) (h3 : SafeBlock c3 I3)
    (e2 : c.blocksize = c2.blocksize) (e3 : c2.blocksize = c3.blocksize)
    {pad : Option PadScheme} (hp : ∀ p, pad = some p → PadKeeps p) :
    HSafe (macFinalTripleI c c2 c3 pad) (Mac3Safe c I I2 I3) (·.length = c.blocksize) := by
  have lift : ∀ {m : M (MacSt σ) Unit} {t : Mac3St σ σ2 σ3}, Mac3Safe c I I2 I3 t →
      (m t.m).Post (fun _ => MacSafe c I) (fun _ => MacSafe c I) →
      (Mac3St.onMac m t).Post (fun _ => Mac3Safe c I I2 I3) (fun _ => Mac3Safe c I I2 I3) := by
    intro m t ht hm
    exact Post.mono (onMac3_safe hm) (fun _ _ x => ⟨x.1, x.2.1 ▸ ht.2.1, x.2.2 ▸ ht.2.2⟩)
      fun _ _ x => ⟨x.1, x.2.1 ▸ ht.2.1, x.2.2 ▸ ht.2.2⟩
  have hm := macI_safe h hp
  refine ⟨fun b ofs len t ht => lift ht (hm.addSubstring b ofs len _ ht.1),
    fun s t ht => lift ht (hm.addString s _ ht.1), fun ch t ht => lift ht (hm.addChar ch _ ht.1),
    fun b t ht => lift ht (hm.addByte b _ ht.1), ?_⟩
  intro t ht
  refine Post.bind (Post.mono (onMac3_safe (macResultI_safe h hp t.m ht.1))
    (fun _ _ x => x) (fun _ _ x => ⟨x.1, x.2.1 ▸ ht.2.1, x.2.2 ▸ ht.2.2⟩)) ?_
  rintro r t1 ⟨⟨g1, g2⟩, g3, g4⟩
  have k1 : Mac3Safe c I I2 I3 t1 := ⟨g1, g3 ▸ ht.2.1, g4 ▸ ht.2.2⟩
  refine mac3_poll h.stable k1 ?_
  intro t2 k2
  refine Post.bind (mac3CallI_safe (K := Mac3Safe c I I2 I3) h2 k2.2.1
    (fun s hs => ⟨k2.1, hs, k2.2.2⟩) (g2.trans e2)) ?_
  rintro r2 t3 ⟨k3, l3⟩
  refine mac3_poll h.stable k3 ?_
  intro t4 k4
  refine Post.bind (mac3CallI_safe (K := Mac3Safe c I I2 I3) h3 k4.2.2
    (fun s hs => ⟨k4.1, k4.2.1, hs⟩) (l3.trans e3)) ?_
  rintro r3 t5 ⟨k5, l5⟩
  refine mac3_poll h.stable k5 ?_
  intro t6 k6
  exact ⟨k6, l5.trans (e2.trans e3).symm⟩

theorem mac3I_wipe {c2 : BlockCipher σ2} {c3 : BlockCipher σ3} {I2 : σ2 → Prop} {I3 : σ3 → Prop}
    (hI : TickStable I) (h : BWipeSafe c I) (h2 : BWipeSafe c2 I2) (h3 : BWipeSafe c3 I3)
    (pad : Option PadScheme) : HWipeSafe (macFinalTripleI c c2 c3 pad) (Mac3Safe c I I2 I3) := by
  intro t ht
  refine Post.bind (Post.mono (onMac3_safe (macWipeI_safe hI h t.m ht.1))
    (fun _ _ x => (⟨x.1, x.2.1 ▸ ht.2.1, x.2.2 ▸ ht.2.2⟩ : Mac3Safe c I I2 I3 _))
    fun _ _ x => ⟨x.1, x.2.1 ▸ ht.2.1, x.2.2 ▸ ht.2.2⟩) ?_
  rintro - t1 k1
  refine Post.bind_modify ?_
  refine mac3_poll hI ⟨k1.1, h2 _ k1.2.1, k1.2.2⟩ ?_
  intro t2 k2
  refine Post.bind_modify ?_
  exact Post.poll (P := Mac3Safe c I I2 I3)
    ⟨⟨hI _ k2.1.cst, k2.1.iv, k2.1.buffer, k2.1.used⟩, k2.2.1, h3 _ k2.2.2⟩ (fun _ _ x => x) fun _ x => x

/-! ### `cmac` -/

theorem cmacLastI_safe (h : ISafeBlock c I) {k : Bytes} (hk : k.length = c.blocksize)
    (t : MacSt σ) (ht : MacSafe c I t) :
    (cmacLastI c k t).Post (fun r t' => MacSafe c I t' ∧ r.length = c.blocksize) (IMacE c I) := by
  refine mac_poll h.stable ht ?_
  intro s1 h1
  refine Post.bind_get ?_
  refine Post.bind (macXor_safe h1 h1.iv) ?_
  rintro - t2 ⟨h2, -, -⟩
  refine mac_poll h.stable h2 ?_
  intro s3 h3
  refine Post.bind (macXor_safe h3 hk) ?_
  rintro - t4 ⟨h4, -, -⟩
  refine mac_poll h.stable h4 ?_
  intro s5 h5
  refine Post.bind (macCallI_safe h h5) ?_
  rintro - t6 ⟨h6, -⟩
  refine mac_poll h.stable h6 ?_
  intro s7 h7
  refine Post.bind_modify ?_
  refine mac_poll h.stable ⟨h7.cst, h7.iv, h7.buffer, Nat.zero_le _⟩ ?_
  intro s8 h8
  exact ⟨h8, h8.iv⟩

theorem cmacResultI_safe (h : ISafeBlock c I) {k1 k2 : Bytes} (h1 : k1.length = c.blocksize)
    (h2 : k2.length = c.blocksize) (t : MacSt σ) (ht : MacSafe c I t) :
    (cmacResultI c k1 k2 t).Post (fun r t' => MacSafe c I t' ∧ r.length = c.blocksize) (IMacE c I) := by
  refine mac_poll h.stable ht ?_
  intro s1 g1
  refine Post.bind_get ?_
  simp only []
  split
  · exact cmacLastI_safe h h1 _ g1
  · refine Post.bind_ofExcept (fun _ _ => g1) ?_
    intro b hb
    refine Post.bind_modify ?_
    exact cmacLastI_safe h h2 _ ⟨g1.cst, g1.iv, (padKeeps_8000 _ _ _ hb).trans g1.buffer, g1.used⟩

theorem cmacI_safe (h : ISafeBlock c I) : HSafe (cmacI c) (CmacSafe c I) (·.length = c.blocksize) := by
  have lift : ∀ {m : M (MacSt σ) Unit} {t : CmacSt σ}, CmacSafe c I t →
      (m t.m).Post (fun _ => MacSafe c I) (fun _ => MacSafe c I) →
      (CmacSt.onMac m t).Post (fun _ => CmacSafe c I) (fun _ => CmacSafe c I) := by
    intro m t ht hm
    exact Post.mono (onCmac_safe hm) (fun _ _ x => ⟨x.1, x.2.1 ▸ ht.2.1, x.2.2 ▸ ht.2.2⟩)
      fun _ _ x => ⟨x.1, x.2.1 ▸ ht.2.1, x.2.2 ▸ ht.2.2⟩
  have hm := macI_safe h (pad := none) (fun _ hp => nomatch hp)
  refine ⟨fun b ofs len t ht => lift ht (hm.addSubstring b ofs len _ ht.1),
    fun s t ht => lift ht (hm.addString s _ ht.1), fun ch t ht => lift ht (hm.addChar ch _ ht.1),
    fun b t ht => lift ht (hm.addByte b _ ht.1), ?_⟩
  intro t ht
  refine Post.bind_get (s := t) ?_
  exact Post.mono (onCmac_safe (cmacResultI_safe h ht.2.1 ht.2.2 t.m ht.1))
    (fun _ _ x => ⟨⟨x.1.1, x.2.1 ▸ ht.2.1, x.2.2 ▸ ht.2.2⟩, x.1.2⟩)
    (fun _ _ x => ⟨x.1, x.2.1 ▸ ht.2.1, x.2.2 ▸ ht.2.2⟩)

/-! ### The entry points -/

theorem SafeBlock.atomic' {τ : Type} {c : BlockCipher τ} {I : τ → Prop} (h : SafeBlock c I) :
    SafeBlock c.atomic (fun p => I p.2) where
  pos := h.pos
  run {s src so dofs dst} hi hs hd :=
    Post.zoom (get := fun p : (Sched × τ) × Bytes => (p.1.2, p.2)) (set := fun r p => ((p.1.1, r.1), r.2))
      (t := (s, dst)) (h.run (s := s.2) (dst := dst) hi hs hd) (fun _ _ x => x) fun _ _ x => x

/-- An object of class `hash` safe to use, with results of `n` bytes, after `wipe` too if `w`. -/
def HashOkI (w : Prop) (n : Nat) (A : AnyHash) : Prop :=
  ∃ I : A.τ → Prop, HSafe A.H I (·.length = n) ∧ I A.t ∧ (w → HWipeSafe A.H I)

namespace MAC
open Cipher

theorem ofBlockI_ok {env : Env} {iv : Option Bytes} {pad : Option PadScheme} {sched : Sched}
    {ob : Option (Except Exn AnyBlock)} {A : AnyHash} {w : Prop} {n : Nat}
    (hp : ∀ p, pad = some p → PadKeeps p)
    (hb : ∀ b, ob = some (.ok b) → BlockOk w b ∧ b.c.blocksize = n)
    (h : ofBlockI env iv pad ob sched = some (.ok A)) : HashOkI w n A := by
  unfold ofBlockI at h
  cases ob with
  | none => cases h
  | some r =>
    cases r with
    | error e => cases h
    | ok b =>
      simp only [Option.map_some, Except.bind, Option.some.injEq] at h
      obtain ⟨st, hs, rfl⟩ := Except.eq_ok_of_map h
      obtain ⟨⟨I, h1, h2, h3⟩, rfl⟩ := hb b rfl
      refine ⟨_, macI_safe h1.atomic hp, macInit_safe (I := fun p : Sched × _ => I p.2) h2 hs, fun x => ?_⟩
      exact fun t ht => macWipeI_safe h1.atomic.stable (fun s hs => h3 x s.2 hs) t ht

theorem desFinalTripleDesI_ok {env : Env} {iv : Option Bytes} {pad : Option PadScheme} {key : Bytes}
    {sched : Sched} {A : AnyHash} (hp : ∀ p, pad = some p → PadKeeps p)
    (h : desFinalTripleDesI env iv pad key sched = some (.ok A)) : HashOkI True 8 A := by
  unfold desFinalTripleDesI at h
  split at h
  · cases h
  · simp only [] at h
    split at h
    · next r1 r2 r3 e1 e2 e3 =>
      cases r1 with
      | error e => cases h
      | ok b1 =>
      cases r2 with
      | error e => cases h
      | ok b2 =>
      cases r3 with
      | error e => cases h
      | ok b3 =>
      obtain ⟨⟨I1, s1, i1, w1⟩, n1⟩ := desBlock_ok e1
      obtain ⟨⟨I2, s2, i2, w2⟩, n2⟩ := desBlock_ok e2
      obtain ⟨⟨I3, s3, i3, w3⟩, n3⟩ := desBlock_ok e3
      obtain ⟨st, hs, rfl⟩ := Except.eq_ok_of_map (Option.some.inj h)
      unfold mac3Init at hs
      split at hs
      · cases hs
      · split at hs
        · next m hm =>
          cases hs
          have n1' : b1.c.atomic.blocksize = 8 := n1
          exact ⟨_, n1' ▸ mac3I_safe s1.atomic s2 s3 (n1.trans n2.symm) (n2.trans n3.symm) hp,
            ⟨macInit_safe (I := fun p : Sched × _ => I1 p.2) i1 hm, i2, i3⟩,
            fun x => mac3I_wipe s1.atomic.stable (fun s hs => w1 x s.2 hs) (w2 x) (w3 x) pad⟩
        · cases hs
    · cases h

theorem aesCmacI_ok {env : Env} {host : AesHost} {iv : Option Bytes} {key : Bytes} {sched : Sched}
    {A : AnyHash} (h : aesCmacI env host iv key sched = some (.ok A)) : HashOkI False 16 A := by
  unfold aesCmacI at h
  cases ho : aesBlock host .encrypt key with
  | none => rw [ho] at h; cases h
  | some r =>
    rw [ho] at h
    cases r with
    | error e => cases h
    | ok b =>
      obtain ⟨⟨I, h1, h2, h3⟩, hn⟩ := aesBlock_ok ho
      simp only [Option.bind_some] at h
      have hnew := aesCmacNew_safe (env := env) (iv := iv) h1.atomic' hn (s := (sched, b.s)) h2
      cases hc : aesCmacNew env b.c.atomic (sched, b.s) iv with
      | ok st s =>
        rw [hc] at h hnew
        cases h
        have hn' : b.c.atomic.blocksize = 16 := hn
        exact ⟨_, hn' ▸ cmacI_safe h1.atomic, hnew, False.elim⟩
      | exn e s => rw [hc] at h; cases h
      | ub => rw [hc] at h; cases h
      | loop => rw [hc] at h; cases h

end MAC

theorem HashOkI.any {n : Nat} {A : AnyHash} (h : HashOkI True n A) :
    MemorySafe (invokeH A.H) anyCall A.t := by
  obtain ⟨I, h1, h2, h3⟩ := h
  exact (h1.any (h3 trivial)).safe h2

theorem HashOkI.notWipe {n : Nat} {A : AnyHash} (h : HashOkI False n A) :
    MemorySafe (invokeH A.H) notWipeH A.t := by
  obtain ⟨I, h1, h2, h3⟩ := h
  exact h1.notWipe.safe h2

end Verif
