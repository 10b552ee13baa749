import Verif.Model.MachineInt
import Verif.Spec.MachineInt
import Verif.Proof.SafeStream
/-
The methods computed with the machine's integers against the same methods computed with
mathematical integers.
-/
namespace Verif

open Spec CipherSt

theorem pow_half {w : Nat} (hw : 0 < w) : (2 : Int) ^ w = 2 * 2 ^ (w - 1) := by
  obtain ⟨v, rfl⟩ : ∃ v, w = v + 1 := ⟨w - 1, by omega⟩
  rw [Int.pow_succ, Nat.add_sub_cancel]; omega

theorem pow_pos' (w : Nat) : (0 : Int) < 2 ^ w := Int.pow_pos (by decide)

theorem wrapInt_of {w : Nat} (hw : 0 < w) {x : Int} (h : IsInt w x) : wrapInt w x = x := by
  have h1 := pow_half hw
  have h2 := pow_pos' (w - 1)
  obtain ⟨ha, hb⟩ := h
  unfold wrapInt
  rw [Int.emod_eq_of_lt (by omega) (by omega)]
  omega

theorem wrapInt_above {w : Nat} (hw : 0 < w) {x : Int} (h1 : 2 ^ (w - 1) ≤ x) (h2 : x < 2 ^ w + 2 ^ (w - 1)) :
    wrapInt w x = x - 2 ^ w := by
  have h3 := pow_half hw
  unfold wrapInt
  have : (x + 2 ^ (w - 1)) % 2 ^ w = x + 2 ^ (w - 1) - 2 ^ w := by
    rw [← Int.sub_emod_right, Int.emod_eq_of_lt (by omega) (by omega)]
  omega

theorem wrapInt_below {w : Nat} (hw : 0 < w) {x : Int} (h1 : x < -2 ^ (w - 1)) (h2 : -2 ^ w - 2 ^ (w - 1) ≤ x) :
    wrapInt w x = x + 2 ^ w := by
  have h3 := pow_half hw
  unfold wrapInt
  have : (x + 2 ^ (w - 1)) % 2 ^ w = x + 2 ^ (w - 1) + 2 ^ w := by
    rw [← Int.add_emod_right, Int.emod_eq_of_lt (by omega) (by omega)]
  omega

/-- The value after `k` doublings. -/
theorem doubled_eq (w : Nat) (x : Int) : ∀ k, doubled w x (k + 1) = wrapInt w (x * 2 ^ (k + 1))
  | 0 => by rw [doubled, doubled, wrapInt]; rfl
  | k + 1 => by
    rw [doubled, doubled_eq w x k]
    have key : ∀ y : Int, wrapInt w (wrapInt w y * 2) = wrapInt w (y * 2) := by
      intro y
      unfold wrapInt
      congr 1
      have hd : (y + 2 ^ (w - 1)) % 2 ^ w = y + 2 ^ (w - 1) - 2 ^ w * ((y + 2 ^ (w - 1)) / 2 ^ w) := by
        have := Int.mul_ediv_add_emod (y + 2 ^ (w - 1)) (2 ^ w); omega
      rw [hd]
      generalize (y + 2 ^ (w - 1)) / 2 ^ w = q
      rw [show (y + 2 ^ (w - 1) - 2 ^ w * q - 2 ^ (w - 1)) * 2 + 2 ^ (w - 1)
        = y * 2 + 2 ^ (w - 1) + 2 ^ w * (-(2 * q)) by
          rw [Int.mul_neg, Int.mul_left_comm]; omega]
      rw [Int.add_mul_emod_self_left]
    have := key (x * 2 ^ (k + 1))
    rw [Int.pow_succ 2 (k + 1), ← Int.mul_assoc, ← this]
    rfl

theorem wrapInt_zero_of_dvd {w : Nat} (hw : 0 < w) {x : Int} (h : (2 : Int) ^ w ∣ x) : wrapInt w x = 0 := by
  obtain ⟨q, rfl⟩ := h
  have h1 := pow_half hw
  have h2 := pow_pos' (w - 1)
  unfold wrapInt
  rw [Int.add_comm, Int.add_mul_emod_self_left, Int.emod_eq_of_lt (by omega) (by omega)]
  omega

theorem doubled_zero {w : Nat} (hw : 0 < w) (x : Int) {k : Nat} (hk : w ≤ k) : doubled w x k = 0 := by
  obtain ⟨j, rfl⟩ : ∃ j, k = j + 1 := ⟨k - 1, by omega⟩
  rw [doubled_eq]
  refine wrapInt_zero_of_dvd hw ⟨x * 2 ^ (j + 1 - w), ?_⟩
  rw [Int.mul_left_comm, ← Int.pow_add]
  congr 2; omega

theorem doubled_step (w : Nat) (x : Int) : ∀ k, doubled w (wrapInt w (x * 2)) k = doubled w x (k + 1)
  | 0 => rfl
  | k + 1 => by rw [doubled, doubled_step w x k]; rfl

theorem growLoopW_none (w : Nat) (need : Int) : ∀ (k : Nat) (x : Int),
    growLoopW w need k x = none ↔ ∀ j, j ≤ k → need > doubled w x j
  | 0, x => by
    rw [growLoopW]
    constructor
    · intro h j hj
      obtain rfl : j = 0 := by omega
      split at h
      · assumption
      · cases h
    · intro h
      rw [if_pos (show need > x from h 0 (Nat.le_refl _))]
  | k + 1, x => by
    rw [growLoopW]
    constructor
    · intro h j hj
      split at h
      · next hc =>
        cases j with
        | zero => exact hc
        | succ j =>
          have := (growLoopW_none w need k _).mp h j (by omega)
          rwa [doubled_step] at this
      · cases h
    · intro h
      rw [if_pos (show need > x from h 0 (Nat.zero_le _))]
      refine (growLoopW_none w need k _).mpr fun j hj => ?_
      rw [doubled_step]
      exact h (j + 1) (by omega)

/-- The loop, as modelled, runs forever exactly when the test never becomes false. -/
theorem growLoopW_none_iff {w : Nat} (hw : 0 < w) (need x : Int) :
    growLoopW w need w x = none ↔ ∀ j, need > doubled w x j := by
  rw [growLoopW_none]
  refine ⟨fun h j => ?_, fun h j _ => h j⟩
  by_cases hj : j ≤ w
  · exact h j hj
  · have := h w (Nat.le_refl _)
    rw [doubled_zero hw x (Nat.le_refl _)] at this
    rw [doubled_zero hw x (by omega)]
    exact this

theorem growLoopW_eq {w : Nat} (hw : 2 ≤ w) {need : Int} (hn : need ≤ 2 ^ (w - 2)) : ∀ (k m : Nat), 0 < m →
    need ≤ m * 2 ^ k → growLoopW w need k m = Option.map Int.ofNat (OBuf.growLoop need m)
  | 0, m, hm, h => by
    rw [growLoopW, OBuf.growLoop, if_neg (by omega), if_neg (by omega)]; rfl
  | k + 1, m, hm, h => by
    rw [growLoopW, OBuf.growLoop]
    split
    · next hc =>
      rw [if_neg (by omega)]
      have h1 : (2 : Int) ^ (w - 1) = 2 * 2 ^ (w - 2) := pow_half (w := w - 1) (by omega)
      rw [wrapInt_of (by omega) ⟨by omega, by omega⟩]
      have := growLoopW_eq hw hn k (m * 2) (by omega) (by
        rw [Int.pow_succ] at h
        rw [show ((m * 2 : Nat) : Int) = (m : Int) * 2 by omega, Int.mul_assoc, Int.mul_comm 2]
        exact h)
      rw [← this]; congr 1
    · rfl

/-- Within the bounds, `ensure_capacity` does what it does with mathematical integers. -/
theorem ensureCapacityW_eq {w : Nat} (hw : 3 ≤ w) {env : Env} (hm : (env.maxLen : Int) ≤ 2 ^ (w - 3)) {n : Int}
    (hn : Moderate w n) {o : OBuf} (h : o.Safe) (hl : o.obuf.length ≤ env.maxLen) :
    OBuf.ensureCapacityW w env n o = OBuf.ensureCapacity env n o := by
  obtain ⟨hp, hb, he⟩ := h
  obtain ⟨n1, n2⟩ := hn
  have e1 : (2 : Int) ^ (w - 1) = 2 * 2 ^ (w - 2) := pow_half (w := w - 1) (by omega)
  have e2 : (2 : Int) ^ (w - 2) = 2 * 2 ^ (w - 3) := pow_half (w := w - 2) (by omega)
  have e3 := pow_pos' (w - 3)
  unfold OBuf.ensureCapacityW OBuf.ensureCapacity
  simp only []
  rw [wrapInt_of (x := (o.oend : Int) + n) (by omega) ⟨by omega, by omega⟩,
    wrapInt_of (x := (o.oend : Int) - o.obeg) (by omega) ⟨by omega, by omega⟩,
    wrapInt_of (x := (o.oend : Int) - o.obeg + n) (by omega) ⟨by omega, by omega⟩,
    wrapInt_of (x := 2 * (o.obuf.length : Int)) (by omega) ⟨by omega, by omega⟩]
  split
  · split
    · rfl
    · have hg := growLoopW_eq (w := w) (by omega) (need := (o.oend : Int) - o.obeg + n) (by omega) w
        (2 * o.obuf.length) (by omega) (by
          have h1 : (2 : Int) ^ (w - 2) ≤ 2 ^ w := by
            have := pow_half (w := w) (by omega); omega
          have h2 : (1 : Int) * 2 ^ w ≤ ((2 * o.obuf.length : Nat) : Int) * 2 ^ w :=
            Int.mul_le_mul_of_nonneg_right (by omega) (Int.le_of_lt (pow_pos' w))
          omega)
      rw [show ((2 * o.obuf.length : Nat) : Int) = 2 * (o.obuf.length : Int) by omega] at hg
      rw [hg]
      obtain ⟨r, hr, h1, h2⟩ := OBuf.growLoop_spec ((o.oend : Int) - o.obeg + n) (2 * o.obuf.length) (by omega)
      rw [hr]
      simp only [Option.map_some, Int.ofNat_eq_natCast]
      by_cases hc : r > env.maxLen ∧ ¬ ((o.oend : Int) - o.obeg + n ≤ env.maxLen)
      · rw [if_pos ⟨by omega, hc.2⟩, if_pos hc]
      · rw [if_neg (fun x => hc ⟨by omega, x.2⟩), if_neg hc]
        by_cases hd : r > env.maxLen
        · rw [if_pos (show (r : Int) > env.maxLen by omega), if_pos hd, if_neg (by omega)]
          rfl
        · rw [if_neg (show ¬ (r : Int) > env.maxLen by omega), if_neg hd, if_neg (by omega)]
          rfl
  · rfl

/-! ### The length of the output buffer -/

def Fits (env : Env) (o : OBuf) : Prop := o.obuf.length ≤ env.maxLen

theorem ensureCapacity_fits {env : Env} {n : Int} {o : OBuf} (h : o.Safe) (hl : Fits env o) :
    (OBuf.ensureCapacity env n o).Post
      (fun _ o' => (o'.Safe ∧ (o'.oend : Int) + n ≤ o'.obuf.length) ∧ Fits env o')
      (fun e o' => e = .error .outputBufferOverflow ∧ o' = o) := by
  have hs := OBuf.ensureCapacity_safe env n o h
  cases hc : OBuf.ensureCapacity env n o with
  | exn e o' => rw [hc] at hs; exact hs
  | ub => rw [hc] at hs; exact hs
  | loop => rw [hc] at hs; exact hs
  | ok a o' =>
    rw [hc] at hs
    refine ⟨hs, ?_⟩
    unfold OBuf.ensureCapacity at hc
    simp only [] at hc
    split at hc
    · split at hc
      · split at hc
        · cases hc
        · next b hb =>
          cases hc
          exact (bytesBlit_length hb).trans_le hl
      · split at hc
        · cases hc
        · split at hc
          · cases hc
          · split at hc
            · cases hc
            · next b hb =>
              cases hc
              refine (bytesBlit_length hb).trans_le ?_
              rw [Env.create_length]
              split <;> omega
    · cases hc; exact hl

theorem obuf_ops_fit {env : Env} {o : OBuf} (h : o.Safe) (hl : Fits env o) :
    (OBuf.availableOutput o).Post (fun _ o' => o'.Safe ∧ Fits env o') (fun _ o' => o'.Safe ∧ Fits env o')
    ∧ (OBuf.getString o).Post (fun _ o' => o'.Safe ∧ Fits env o') (fun _ o' => o'.Safe ∧ Fits env o')
    ∧ (OBuf.getSubstring o).Post (fun _ o' => o'.Safe ∧ Fits env o') (fun _ o' => o'.Safe ∧ Fits env o')
    ∧ (OBuf.getChar o).Post (fun _ o' => o'.Safe ∧ Fits env o') (fun _ o' => o'.Safe ∧ Fits env o')
    ∧ (OBuf.getByte o).Post (fun _ o' => o'.Safe ∧ Fits env o') (fun _ o' => o'.Safe ∧ Fits env o')
    ∧ (OBuf.wipe o).Post (fun _ o' => o'.Safe ∧ Fits env o') (fun _ o' => o'.Safe ∧ Fits env o') := by
  obtain ⟨hp, hb, he⟩ := h
  have hc : (OBuf.getChar o).Post (fun _ o' => o'.Safe ∧ Fits env o') (fun _ o' => o'.Safe ∧ Fits env o') := by
    unfold OBuf.getChar
    split
    · exact ⟨⟨hp, hb, he⟩, hl⟩
    · split
      · exact ⟨⟨hp, hb, he⟩, hl⟩
      · exact ⟨⟨hp, by simp only; omega, he⟩, hl⟩
  refine ⟨⟨⟨hp, hb, he⟩, hl⟩, ?_, ⟨⟨hp, Nat.le_refl 0, Nat.zero_le _⟩, hl⟩, hc, ?_, ?_⟩
  · unfold OBuf.getString
    split
    · exact ⟨⟨hp, hb, he⟩, hl⟩
    · exact ⟨⟨hp, Nat.le_refl 0, Nat.zero_le _⟩, hl⟩
  · exact Post.bind hc fun _ _ hs => Post.pure hs
  · refine ⟨OBuf.wipe_safe o ⟨hp, hb, he⟩, ?_⟩
    show (wipeBytes o.obuf).length ≤ _
    simpa [Fits] using hl

/-! ### Agreement -/

theorem agree_of {run run' : μ → M τ Unit} {allowed : μ → Prop} {I : τ → Prop} {t0 : τ} (h0 : I t0)
    (h : ∀ c, allowed c → ∀ t, I t → run c t = run' c t ∧ (run' c t).Post (fun _ => I) (fun _ => I)) :
    Agree run run' allowed t0 := by
  have hI : ∀ t, Reachable run allowed t0 t → I t :=
    fun t hr => Preserves.reachable (fun c hc t ht => by rw [(h c hc t ht).1]; exact (h c hc t ht).2) h0 hr
  exact fun t hr c hc => (h c hc t (hI t hr)).1

theorem agreeOrReject_of {run run' : μ → M τ Unit} {isPut : μ → Bytes → Int → Int → Prop} {allowed : μ → Prop}
    {I : τ → Prop} {t0 : τ} (h0 : I t0)
    (h : ∀ c, allowed c → ∀ t, I t → (run c t = run' c t ∧ (run' c t).Post (fun _ => I) (fun _ => I)) ∨
      ((∃ b ofs len, isPut c b ofs len ∧ ¬ InRange b ofs len) ∧ run c t = .exn .invalidArg t)) :
    AgreeOrReject run run' isPut allowed t0 := by
  have hI : ∀ t, Reachable run allowed t0 t → I t := by
    refine fun t hr => Preserves.reachable (fun c hc t ht => ?_) h0 hr
    rcases h c hc t ht with g | g
    · rw [g.1]; exact g.2
    · rw [g.2]; exact ht
  intro t hr c hc
  rcases h c hc t (hI t hr) with g | g
  · exact .inl g.1
  · exact .inr g

/-! ### `Stream.cipher` -/

variable {σ : Type}

section stream
variable {c : StreamCipher σ} {I : σ → Prop}

def StreamFits (env : Env) (I : σ → Prop) (t : StreamSt σ) : Prop := StreamSafe I t ∧ Fits env t.ob

theorem streamPut_fits {ok : Src → Bytes → Int → Int → Int → Prop} (h : SafeStream c I ok) {env : Env}
    (src : Bytes) (ofs len : Int) (hok : ∀ d o, ok (.other src) d ofs o len) (t : StreamSt σ)
    (ht : StreamFits env I t) :
    (streamPut env c src ofs len t).Post (fun _ => StreamFits env I) (fun _ => StreamFits env I) := by
  obtain ⟨ht, hf⟩ := ht
  unfold streamPut
  refine Post.bind (Q := fun _ t' => StreamFits env I t' ∧ (t'.ob.oend : Int) + len ≤ t'.ob.obuf.length)
    (Post.zoom (ensureCapacity_fits (n := len) ht.ob hf)
      (fun _ o x => ⟨⟨⟨ht.cst, ht.charbuf, x.1.1⟩, x.2⟩, x.1.2⟩)
      fun e o x => ⟨⟨ht.cst, ht.charbuf, x.2 ▸ ht.ob⟩, x.2 ▸ hf⟩) ?_
  rintro - t1 ⟨⟨h1, hf1⟩, hcap⟩
  have hr := h.run (src := .other src) (so := ofs) (dofs := t1.ob.oend) (len := len) (dst := t1.ob.obuf)
    h1.cst (hok _ _)
  refine Post.bind (Q := fun _ t' => (StreamFits env I t' ∧ (t'.ob.oend : Int) + len ≤ t'.ob.obuf.length)
    ∧ 0 ≤ len) ?_ ?_
  · cases hc : c.transform (.other src) ofs t1.ob.oend len (t1.c, t1.ob.obuf) with
    | ok a p =>
      rw [hc] at hr
      obtain ⟨r1, r2, r3, r4, r5, -⟩ := hr
      refine ⟨⟨⟨⟨r1, h1.charbuf, h1.ob.set r2 (Nat.le_refl _) h1.ob.le⟩, ?_⟩, ?_⟩, r3⟩
      · show p.2.length ≤ _
        rw [r2]; exact hf1
      · show (t1.ob.oend : Int) + len ≤ p.2.length
        rw [r2]; exact hcap
    | exn e p =>
      rw [hc] at hr
      refine ⟨⟨hr.2.1, h1.charbuf, h1.ob.set hr.2.2 (Nat.le_refl _) h1.ob.le⟩, ?_⟩
      show p.2.length ≤ _
      rw [hr.2.2]; exact hf1
    | ub => rw [hc] at hr; exact hr.elim
    | loop => rw [hc] at hr; exact hr.elim
  · rintro - t2 ⟨⟨⟨h2, hf2⟩, hcap2⟩, hin⟩
    exact ⟨⟨h2.cst, h2.charbuf, h2.ob.set rfl (Nat.le_add_right _ _) (by omega)⟩, hf2⟩

theorem M.zoom_congr {get : τ → σ} {set : σ → τ → τ} {m m' : M σ α} {t : τ} (h : m (get t) = m' (get t)) :
    M.zoom get set m t = M.zoom get set m' t := by
  rw [M.zoom, M.zoom, h]

theorem streamPutW_eq {w : Nat} (hw : 3 ≤ w) {env : Env} (hm : (env.maxLen : Int) ≤ 2 ^ (w - 3))
    (src : Bytes) (ofs : Int) {len : Int} (hn : Moderate w len) (t : StreamSt σ) (ht : StreamFits env I t) :
    streamPutW w env c src ofs len t = streamPut env c src ofs len t := by
  unfold streamPutW streamPut
  rw [M.bind_def, M.bind_def]
  rw [M.zoom_congr (ensureCapacityW_eq hw hm hn ht.1.ob ht.2)]
  rfl

theorem moderate_len {w : Nat} {env : Env} (hm : (env.maxLen : Int) ≤ 2 ^ (w - 3)) {n : Nat}
    (hn : n ≤ env.maxLen) : Moderate w n := by
  have := pow_pos' (w - 3)
  exact ⟨by omega, by omega⟩

theorem moderate_one (w : Nat) : Moderate w 1 := by
  have := pow_pos' (w - 3)
  exact ⟨by omega, by omega⟩

theorem streamPutCharW_eq {w : Nat} (hw : 3 ≤ w) {env : Env} (hm : (env.maxLen : Int) ≤ 2 ^ (w - 3))
    {ok : Src → Bytes → Int → Int → Int → Prop} (h : SafeStream c I ok)
    (hok : ∀ src ofs len, InRange src ofs len → ∀ d o, ok (.other src) d ofs o len)
    (ch : Byte) (t : StreamSt σ) (ht : StreamFits env I t) :
    streamPutCharW w env c ch t = streamPutChar env c ch t
      ∧ (streamPutChar env c ch t).Post (fun _ => StreamFits env I) (fun _ => StreamFits env I) := by
  unfold streamPutCharW streamPutChar
  cases hb : bytesSet t.charbuf 0 ch with
  | none =>
    simp only [M.bind_def, M.get_def, hb]
    exact ⟨rfl, ht⟩
  | some cb =>
    have hl := (bytesSet_length hb).trans ht.1.charbuf
    have ht' : StreamFits env I { t with charbuf := cb } := ⟨⟨ht.1.cst, hl, ht.1.ob⟩, ht.2⟩
    have h1 := streamPutW_eq (c := c) hw hm cb 0 (moderate_one w) { t with charbuf := cb } ht'
    have h2 := streamPut_fits h cb 0 1 (hok _ _ _ ⟨by decide, by decide, by omega⟩) { t with charbuf := cb } ht'
    simp only [M.bind_def, M.get_def, hb, M.orRaise_some, M.modify_def]
    exact ⟨h1, h2⟩

/-- The methods common to all objects made from `Stream.cipher`. -/
theorem stream_buf_agree {ok : Src → Bytes → Int → Int → Int → Prop} (h : SafeStream c I ok)
    (hok : ∀ src ofs len, InRange src ofs len → ∀ d o, ok (.other src) d ofs o len)
    (hwp : SWipeSafe c I) {w : Nat} (hw : 3 ≤ w) {env : Env}
    (hm : (env.maxLen : Int) ≤ 2 ^ (w - 3)) (cl : BufCall) (hc : moderateT w env (.buf cl))
    (hr : ∀ b ofs len, cl = .putSubstring b ofs len → ∀ d o, ok (.other b) d ofs o len)
    (t : StreamSt σ) (ht : StreamFits env I t) :
    invokeBuf (streamTransformW w env c) cl t = invokeBuf (streamTransform env c) cl t
      ∧ (invokeBuf (streamTransform env c) cl t).Post (fun _ => StreamFits env I) (fun _ => StreamFits env I) := by
  have lift : ∀ {α : Type} {m : M OBuf α}, (m t.ob).Post (fun _ o' => o'.Safe ∧ Fits env o')
      (fun _ o' => o'.Safe ∧ Fits env o') →
      (M.zoom (fun t : StreamSt σ => t.ob) (fun o (t : StreamSt σ) => { t with ob := o }) m t).Post (fun _ => StreamFits env I)
        (fun _ => StreamFits env I) := fun hm => Post.zoom hm
    (fun _ _ x => ⟨⟨ht.1.cst, ht.1.charbuf, x.1⟩, x.2⟩) (fun _ _ x => ⟨⟨ht.1.cst, ht.1.charbuf, x.1⟩, x.2⟩)
  obtain ⟨q1, q2, q3, q4, q5, q6⟩ := obuf_ops_fit (env := env) ht.1.ob ht.2
  match cl, hc, hr with
  | .putSubstring b ofs len, hc, hr =>
    exact ⟨streamPutW_eq hw hm b ofs hc.2.2 t ht, streamPut_fits h b ofs len (hr _ _ _ rfl) t ht⟩
  | .putString b, hc, _ =>
    exact ⟨streamPutW_eq hw hm b 0 (moderate_len hm hc) t ht,
      streamPut_fits h b 0 b.length (hok _ _ _ ⟨by omega, by omega, by omega⟩) t ht⟩
  | .putChar ch, _, _ => exact streamPutCharW_eq hw hm h hok ch t ht
  | .putByte b, _, _ => exact streamPutCharW_eq hw hm h hok _ t ht
  | .availableOutput, _, _ => exact ⟨rfl, Post.discard (lift q1)⟩
  | .getString, _, _ => exact ⟨rfl, Post.discard (lift q2)⟩
  | .getSubstring, _, _ => exact ⟨rfl, Post.discard (lift q3)⟩
  | .getChar, _, _ => exact ⟨rfl, Post.discard (lift q4)⟩
  | .getByte, _, _ => exact ⟨rfl, Post.discard (lift q5)⟩
  | .wipe, _, _ =>
    refine ⟨rfl, ⟨hwp _ ht.1.cst, by simpa using ht.1.charbuf, OBuf.wipe_safe _ ht.1.ob⟩, ?_⟩
    show (wipeBytes t.ob.obuf).length ≤ _
    simpa [Fits] using ht.2

theorem stream_agree (h : SafeStream c I anyArgs) (hwp : SWipeSafe c I) {w : Nat} (hw : 3 ≤ w) {env : Env}
    (hm : (env.maxLen : Int) ≤ 2 ^ (w - 3)) (h0 : 256 ≤ env.maxLen) {s : σ} (hs : I s) :
    Agree (invoke (streamTransformW w env c)) (invoke (streamTransform env c)) (moderateT w env)
      (streamInit env s) := by
  refine agree_of (I := StreamFits env I) ⟨streamInit_safe env hs, ?_⟩ ?_
  · show (env.create 256).length ≤ _
    rw [Env.create_length]; exact h0
  · intro cl hc t ht
    match cl, hc with
    | .flush, _ => exact ⟨rfl, ht⟩
    | .finish, _ => exact ⟨rfl, ht⟩
    | .buf cl, hc =>
      exact stream_buf_agree h (fun _ _ _ _ _ _ => trivial) hwp hw hm cl hc (fun _ _ _ _ _ _ => trivial) t ht

end stream

/-! ### `Block.cipher` -/

section block
variable {c : BlockCipher σ} {I : σ → Prop}

theorem cipherPut_none {env : Env} {src : Bytes} {ofs len : Int} {t : CipherSt σ} (h0 : ¬ len ≤ 0)
    (h1 : ¬ (t.used : Int) + len ≤ c.blocksize)
    (h : bytesBlit src ofs t.ibuf t.used ((c.blocksize : Int) - t.used) = none) :
    cipherPutSubstring env c src ofs len t = .exn .invalidArg t := by
  rw [cipherPutSubstring, if_neg h0, if_neg h1]
  simp only []
  split
  · rfl
  · next hb => rw [h] at hb; cases hb

theorem cipherPut_some {env : Env} {src : Bytes} {ofs len : Int} {t : CipherSt σ} {ib : Bytes} (h0 : ¬ len ≤ 0)
    (h1 : ¬ (t.used : Int) + len ≤ c.blocksize)
    (h : bytesBlit src ofs t.ibuf t.used ((c.blocksize : Int) - t.used) = some ib) :
    cipherPutSubstring env c src ofs len t = match pushBlock env c { t with ibuf := ib } with
      | .ok () st' =>
        if c.blocksize = 0 then .loop
        else cipherPutSubstring env c src (ofs + ((c.blocksize : Int) - t.used)) (len - ((c.blocksize : Int) - t.used))
          { st' with used := 0 }
      | .exn e st' => .exn e st'
      | .ub => .ub
      | .loop => .loop := by
  rw [cipherPutSubstring, if_neg h0, if_neg h1]
  simp only []
  split
  · next hb => rw [h] at hb; cases hb
  · next ib' hb =>
    rw [h] at hb
    cases hb
    cases pushBlock env c { t with ibuf := ib } <;> rfl

theorem cipherPutW_none {w : Nat} {env : Env} {src : Bytes} {ofs len : Int} {t : CipherSt σ} (h0 : ¬ len ≤ 0)
    (h1 : ¬ wrapInt w ((t.used : Int) + len) ≤ c.blocksize)
    (h : bytesBlit src ofs t.ibuf t.used ((c.blocksize : Int) - t.used) = none) :
    cipherPutSubstringW w env c src ofs len t = .exn .invalidArg t := by
  rw [cipherPutSubstringW, if_neg h0, if_neg h1]
  simp only []
  split
  · rfl
  · next hb => rw [h] at hb; cases hb

theorem cipherPutW_some {w : Nat} {env : Env} {src : Bytes} {ofs len : Int} {t : CipherSt σ} {ib : Bytes} (h0 : ¬ len ≤ 0)
    (h1 : ¬ wrapInt w ((t.used : Int) + len) ≤ c.blocksize)
    (h : bytesBlit src ofs t.ibuf t.used ((c.blocksize : Int) - t.used) = some ib) :
    cipherPutSubstringW w env c src ofs len t = match pushBlockW w env c { t with ibuf := ib } with
      | .ok () st' =>
        if c.blocksize = 0 then .loop
        else cipherPutSubstringW w env c src (ofs + ((c.blocksize : Int) - t.used)) (len - ((c.blocksize : Int) - t.used))
          { st' with used := 0 }
      | .exn e st' => .exn e st'
      | .ub => .ub
      | .loop => .loop := by
  rw [cipherPutSubstringW, if_neg h0, if_neg h1]
  simp only []
  split
  · next hb => rw [h] at hb; cases hb
  · next ib' hb =>
    rw [h] at hb
    cases hb
    cases pushBlockW w env c { t with ibuf := ib } <;> rfl

theorem macAdd_none {src : Bytes} {ofs len : Int} {t : MacSt σ} (h0 : ¬ len ≤ 0)
    (h1 : ¬ (t.used : Int) + len ≤ c.blocksize)
    (h : bytesBlit src ofs t.buffer t.used ((c.blocksize : Int) - t.used) = none) :
    macAddSubstring c src ofs len t = .exn .invalidArg t := by
  rw [macAddSubstring, if_neg h0, if_neg h1]
  simp only []
  split
  · rfl
  · next hb => rw [h] at hb; cases hb

theorem macAdd_some {src : Bytes} {ofs len : Int} {t : MacSt σ} {ib : Bytes} (h0 : ¬ len ≤ 0)
    (h1 : ¬ (t.used : Int) + len ≤ c.blocksize)
    (h : bytesBlit src ofs t.buffer t.used ((c.blocksize : Int) - t.used) = some ib) :
    macAddSubstring c src ofs len t = match macBlock c { t with buffer := ib } with
      | .ok () st' =>
        if c.blocksize = 0 then .loop
        else macAddSubstring c src (ofs + ((c.blocksize : Int) - t.used)) (len - ((c.blocksize : Int) - t.used))
          { st' with used := 0 }
      | .exn e st' => .exn e st'
      | .ub => .ub
      | .loop => .loop := by
  rw [macAddSubstring, if_neg h0, if_neg h1]
  simp only []
  split
  · next hb => rw [h] at hb; cases hb
  · next ib' hb =>
    rw [h] at hb
    cases hb
    cases macBlock c { t with buffer := ib } <;> rfl

theorem macAddW_none {w : Nat} {src : Bytes} {ofs len : Int} {t : MacSt σ} (h0 : ¬ len ≤ 0)
    (h1 : ¬ wrapInt w ((t.used : Int) + len) ≤ c.blocksize)
    (h : bytesBlit src ofs t.buffer t.used ((c.blocksize : Int) - t.used) = none) :
    macAddSubstringW w c src ofs len t = .exn .invalidArg t := by
  rw [macAddSubstringW, if_neg h0, if_neg h1]
  simp only []
  split
  · rfl
  · next hb => rw [h] at hb; cases hb

theorem macAddW_some {w : Nat} {src : Bytes} {ofs len : Int} {t : MacSt σ} {ib : Bytes} (h0 : ¬ len ≤ 0)
    (h1 : ¬ wrapInt w ((t.used : Int) + len) ≤ c.blocksize)
    (h : bytesBlit src ofs t.buffer t.used ((c.blocksize : Int) - t.used) = some ib) :
    macAddSubstringW w c src ofs len t = match macBlock c { t with buffer := ib } with
      | .ok () st' =>
        if c.blocksize = 0 then .loop
        else macAddSubstringW w c src (ofs + ((c.blocksize : Int) - t.used)) (len - ((c.blocksize : Int) - t.used))
          { st' with used := 0 }
      | .exn e st' => .exn e st'
      | .ub => .ub
      | .loop => .loop := by
  rw [macAddSubstringW, if_neg h0, if_neg h1]
  simp only []
  split
  · next hb => rw [h] at hb; cases hb
  · next ib' hb =>
    rw [h] at hb
    cases hb
    cases macBlock c { t with buffer := ib } <;> rfl

def CipherFits (env : Env) (c : BlockCipher σ) (I : σ → Prop) (t : CipherSt σ) : Prop :=
  CipherSafe c I t ∧ Fits env t.ob

theorem pushBlock_fits (h : SafeBlock c I) {env : Env} (t : CipherSt σ) (ht : CipherFits env c I t) :
    (pushBlock env c t).Post (fun _ => CipherFits env c I) (fun _ => CipherFits env c I) := by
  obtain ⟨ht, hf⟩ := ht
  unfold pushBlock
  refine Post.bind (Q := fun _ t' => CipherFits env c I t' ∧ t'.ob.oend + c.blocksize ≤ t'.ob.obuf.length)
    (Post.zoom (ensureCapacity_fits (n := c.blocksize) ht.ob hf)
      (fun _ o x => ⟨⟨⟨ht.cst, ht.ibuf, ht.used, x.1.1⟩, x.2⟩, by have := x.1.2; simp only; omega⟩)
      fun e o x => ⟨⟨ht.cst, ht.ibuf, ht.used, x.2 ▸ ht.ob⟩, x.2 ▸ hf⟩) ?_
  rintro - t1 ⟨⟨h1, hf1⟩, hcap⟩
  refine Post.bind (Q := fun _ t' => CipherFits env c I t'
      ∧ t'.ob.oend + c.blocksize ≤ t'.ob.obuf.length) ?_ ?_
  · have hr := h.run (src := .other t1.ibuf) (so := 0) (dofs := t1.ob.oend) (dst := t1.ob.obuf) h1.cst
      (by simp only [Src.read]; have := h1.ibuf; omega) hcap
    unfold callOut
    rw [Int.natCast_zero] at hr
    cases hc : c.transform (.other t1.ibuf) 0 t1.ob.oend (t1.c, t1.ob.obuf) with
    | ok a p =>
      rw [hc] at hr
      refine ⟨⟨⟨hr.1, h1.ibuf, h1.used, h1.ob.set hr.2 (Nat.le_refl _) h1.ob.le⟩, ?_⟩, ?_⟩
      · show p.2.length ≤ _
        rw [hr.2]; exact hf1
      · show t1.ob.oend + c.blocksize ≤ p.2.length
        rw [hr.2]; exact hcap
    | exn e p =>
      rw [hc] at hr
      refine ⟨⟨hr.2.1, h1.ibuf, h1.used, h1.ob.set hr.2.2 (Nat.le_refl _) h1.ob.le⟩, ?_⟩
      show p.2.length ≤ _
      rw [hr.2.2]; exact hf1
    | ub => rw [hc] at hr; exact hr.elim
    | loop => rw [hc] at hr; exact hr.elim
  · rintro - t2 ⟨⟨h2, hf2⟩, hcap2⟩
    exact ⟨⟨h2.cst, h2.ibuf, h2.used, h2.ob.set rfl (Nat.le_add_right _ _) hcap2⟩, hf2⟩

theorem pushBlockW_eq {w : Nat} (hw : 3 ≤ w) {env : Env} (hm : (env.maxLen : Int) ≤ 2 ^ (w - 3))
    (hb : c.blocksize ≤ env.maxLen) (t : CipherSt σ) (ht : CipherFits env c I t) :
    pushBlockW w env c t = pushBlock env c t := by
  unfold pushBlockW pushBlock
  rw [M.bind_def, M.bind_def]
  unfold onBuf
  rw [M.zoom_congr (ensureCapacityW_eq hw hm (moderate_len hm hb) ht.1.ob ht.2)]

/-- `used + len` does not wrap around, or `len` is larger than any string. -/
theorem cipherPutSubstringW_eq (h : SafeBlock c I) {w : Nat} (hw : 3 ≤ w) {env : Env}
    (hm : (env.maxLen : Int) ≤ 2 ^ (w - 3)) (hb : c.blocksize ≤ env.maxLen) (src : Bytes) (ofs len : Int)
    (t : CipherSt σ) (ht : CipherFits env c I t) (hl : (t.used : Int) + len < 2 ^ (w - 1)) :
    cipherPutSubstringW w env c src ofs len t = cipherPutSubstring env c src ofs len t
      ∧ (cipherPutSubstring env c src ofs len t).Post (fun _ => CipherFits env c I)
        (fun _ => CipherFits env c I) := by
  induction hk : len.toNat * 2 + (if t.used = 0 then 0 else 1) using Nat.strongRecOn
    generalizing ofs len t with
  | _ k ih =>
    have hbs := h.pos
    have hu := ht.1.used
    by_cases hl0 : len ≤ 0
    · rw [cipherPutSubstring, cipherPutSubstringW, if_pos hl0, if_pos hl0]
      exact ⟨rfl, ht⟩
    · have e3 := pow_pos' (w - 1)
      have hwr : wrapInt w ((t.used : Int) + len) = (t.used : Int) + len :=
        wrapInt_of (by omega) ⟨by omega, by omega⟩
      by_cases hfit : (t.used : Int) + len ≤ c.blocksize
      · rw [cipherPutSubstring, cipherPutSubstringW, if_neg hl0, if_neg hl0, hwr, if_pos hfit, if_pos hfit]
        refine ⟨rfl, ?_⟩
        split
        · exact ht
        · next ib hbl =>
          exact ⟨⟨ht.1.cst, (bytesBlit_length hbl).trans ht.1.ibuf, by simp only; omega, ht.1.ob⟩, ht.2⟩
      · cases hbl : bytesBlit src ofs t.ibuf t.used ((c.blocksize : Int) - t.used) with
        | none =>
          rw [cipherPut_none hl0 hfit hbl, cipherPutW_none hl0 (by rw [hwr]; exact hfit) hbl]
          exact ⟨rfl, ht⟩
        | some ib =>
          rw [cipherPut_some hl0 hfit hbl, cipherPutW_some hl0 (by rw [hwr]; exact hfit) hbl]
          have ht' : CipherFits env c I { t with ibuf := ib } :=
            ⟨⟨ht.1.cst, (bytesBlit_length hbl).trans ht.1.ibuf, ht.1.used, ht.1.ob⟩, ht.2⟩
          rw [pushBlockW_eq hw hm hb _ ht']
          have hp := pushBlock_fits h _ ht'
          cases hc : pushBlock env c { t with ibuf := ib } with
          | ok a t' =>
            rw [hc] at hp
            simp only []
            rw [if_neg (by omega), if_neg (by omega)]
            refine ih _ ?_ (ofs + ((c.blocksize : Int) - t.used))
              (len - ((c.blocksize : Int) - t.used)) { t' with used := 0 }
              ⟨⟨hp.1.cst, hp.1.ibuf, Nat.zero_le _, hp.1.ob⟩, hp.2⟩ ?_ rfl
            · simp only [if_true, Nat.add_zero]; subst hk; split <;> omega
            · simp only; omega
          | exn e t' => rw [hc] at hp; exact ⟨rfl, hp⟩
          | ub => rw [hc] at hp; exact hp.elim
          | loop => rw [hc] at hp; exact hp.elim

theorem bytesBlit_none_of_long {src dst : Bytes} {so dofs n : Int} (h : src.length < n) :
    bytesBlit src so dst dofs n = none := by
  unfold bytesBlit
  rw [if_neg]
  rintro ⟨⟨h1, h2, h3⟩, -⟩
  omega

theorem cipherPutSubstringW_long {w : Nat} (hw : 3 ≤ w) {env : Env}
    (hm : (env.maxLen : Int) ≤ 2 ^ (w - 3)) (hb : c.blocksize ≤ env.maxLen) (src : Bytes) (ofs len : Int)
    (hs : src.length ≤ env.maxLen) (hlen : IsInt w len)
    (t : CipherSt σ) (hu : t.used ≤ c.blocksize) (hl : 2 ^ (w - 1) ≤ (t.used : Int) + len) :
    ¬ InRange src ofs len ∧ cipherPutSubstringW w env c src ofs len t = .exn .invalidArg t := by
  have e0 : (2 : Int) ^ w = 2 * 2 ^ (w - 1) := pow_half (w := w) (by omega)
  have e1 : (2 : Int) ^ (w - 1) = 2 * 2 ^ (w - 2) := pow_half (w := w - 1) (by omega)
  have e2 : (2 : Int) ^ (w - 2) = 2 * 2 ^ (w - 3) := pow_half (w := w - 2) (by omega)
  have e3 := pow_pos' (w - 3)
  obtain ⟨l1, l2⟩ := hlen
  refine ⟨fun ⟨r1, r2, r3⟩ => by omega, ?_⟩
  rw [cipherPutSubstringW, if_neg (by omega), wrapInt_above (by omega) (by omega) (by omega), if_pos (by omega),
    bytesBlit_none_of_long (by omega)]

theorem cipherPutCharW_eq (h : SafeBlock c I) {w : Nat} (hw : 3 ≤ w) {env : Env}
    (hm : (env.maxLen : Int) ≤ 2 ^ (w - 3)) (hb : c.blocksize ≤ env.maxLen) (ch : Byte)
    (t : CipherSt σ) (ht : CipherFits env c I t) :
    cipherPutCharW w env c ch t = cipherPutChar env c ch t
      ∧ (cipherPutChar env c ch t).Post (fun _ => CipherFits env c I) (fun _ => CipherFits env c I) := by
  have hbs := h.pos
  unfold cipherPutCharW cipherPutChar
  split
  · refine ⟨rfl, ?_⟩
    split
    · exact ht
    · next hb => exact ⟨⟨ht.1.cst, (bytesSet_length hb).trans ht.1.ibuf, by simp only; omega, ht.1.ob⟩, ht.2⟩
  · refine ⟨by rw [M.bind_def, M.bind_def, pushBlockW_eq hw hm hb _ ht], ?_⟩
    refine Post.bind (pushBlock_fits h t ht) ?_
    rintro - t1 h1
    refine Post.bind_get ?_
    refine Post.bind_orRaise h1 ?_
    intro ib hb
    exact ⟨⟨h1.1.cst, (bytesSet_length hb).trans h1.1.ibuf, by simp only; omega, h1.1.ob⟩, h1.2⟩

theorem cipherFlushW_eq (h : SafeBlock c I) {w : Nat} (hw : 3 ≤ w) {env : Env}
    (hm : (env.maxLen : Int) ≤ 2 ^ (w - 3)) (hb : c.blocksize ≤ env.maxLen)
    (t : CipherSt σ) (ht : CipherFits env c I t) :
    cipherFlushW w env c t = cipherFlush env c t
      ∧ (cipherFlush env c t).Post (fun _ => CipherFits env c I) (fun _ => CipherFits env c I) := by
  unfold cipherFlushW cipherFlush
  split
  · exact ⟨rfl, ht⟩
  · split
    · refine ⟨by rw [M.bind_def, M.bind_def, pushBlockW_eq hw hm hb _ ht], ?_⟩
      refine Post.bind (pushBlock_fits h t ht) ?_
      rintro - t1 h1
      exact ⟨⟨h1.1.cst, h1.1.ibuf, Nat.zero_le _, h1.1.ob⟩, h1.2⟩
    · exact ⟨rfl, ht⟩

/-- The methods common to all objects made from `Block.cipher`. -/
theorem block_buf_agree (h : SafeBlock c I) {w : Nat} (hw : 3 ≤ w) {env : Env}
    (hm : (env.maxLen : Int) ≤ 2 ^ (w - 3)) (hb : c.blocksize ≤ env.maxLen)
    (cl : BufCall) (hwp : cl = .wipe → BWipeSafe c I) (hc : machineT w env (.buf cl)) (t : CipherSt σ)
    (ht : CipherFits env c I t) :
    (invokeBuf (blockTransformW w env c) cl t = invokeBuf (blockTransform env c) cl t
      ∧ (invokeBuf (blockTransform env c) cl t).Post (fun _ => CipherFits env c I) (fun _ => CipherFits env c I))
    ∨ ((∃ b ofs len, cl = .putSubstring b ofs len ∧ ¬ InRange b ofs len)
      ∧ invokeBuf (blockTransformW w env c) cl t = .exn .invalidArg t) := by
  have lift : ∀ {α : Type} {m : M OBuf α}, (m t.ob).Post (fun _ o' => o'.Safe ∧ Fits env o')
      (fun _ o' => o'.Safe ∧ Fits env o') →
      (onBuf m t).Post (fun _ => CipherFits env c I)
        (fun _ => CipherFits env c I) := fun hm => Post.zoom hm
    (fun _ _ x => ⟨⟨ht.1.cst, ht.1.ibuf, ht.1.used, x.1⟩, x.2⟩)
    (fun _ _ x => ⟨⟨ht.1.cst, ht.1.ibuf, ht.1.used, x.1⟩, x.2⟩)
  obtain ⟨q1, q2, q3, q4, q5, q6⟩ := obuf_ops_fit (env := env) ht.1.ob ht.2
  match cl, hc, hwp with
  | .putSubstring b ofs len, hc, _ =>
    by_cases hl : (t.used : Int) + len < 2 ^ (w - 1)
    · exact .inl (cipherPutSubstringW_eq h hw hm hb b ofs len t ht hl)
    · have := cipherPutSubstringW_long hw hm hb b ofs len hc.1 hc.2.2 t ht.1.used (by omega)
      exact .inr ⟨⟨b, ofs, len, rfl, this.1⟩, this.2⟩
  | .putString b, hc, _ =>
    have e1 : (2 : Int) ^ (w - 1) = 2 * 2 ^ (w - 2) := pow_half (w := w - 1) (by omega)
    have e2 : (2 : Int) ^ (w - 2) = 2 * 2 ^ (w - 3) := pow_half (w := w - 2) (by omega)
    have hc' : b.length ≤ env.maxLen := hc
    have hu := ht.1.used
    exact .inl (cipherPutSubstringW_eq h hw hm hb b 0 b.length t ht (by
      have := pow_pos' (w - 3); omega))
  | .putChar ch, _, _ => exact .inl (cipherPutCharW_eq h hw hm hb ch t ht)
  | .putByte b, _, _ => exact .inl (cipherPutCharW_eq h hw hm hb _ t ht)
  | .availableOutput, _, _ => exact .inl ⟨rfl, Post.discard (lift q1)⟩
  | .getString, _, _ => exact .inl ⟨rfl, Post.discard (lift q2)⟩
  | .getSubstring, _, _ => exact .inl ⟨rfl, Post.discard (lift q3)⟩
  | .getChar, _, _ => exact .inl ⟨rfl, Post.discard (lift q4)⟩
  | .getByte, _, _ => exact .inl ⟨rfl, Post.discard (lift q5)⟩
  | .wipe, _, hwp =>
    refine .inl ⟨rfl, ⟨hwp rfl _ ht.1.cst, by simpa using ht.1.ibuf, ht.1.used, OBuf.wipe_safe _ ht.1.ob⟩, ?_⟩
    show (wipeBytes t.ob.obuf).length ≤ _
    simpa [Fits] using ht.2

theorem cipherInit_fits (h : SafeBlock c I) {env : Env} (h0 : max 256 (2 * c.blocksize) ≤ env.maxLen) {s : σ}
    (hs : I s) : CipherFits env c I (cipherInit env c s) := by
  refine ⟨cipherInit_safe h hs env, ?_⟩
  show (env.create _).length ≤ _
  rw [Env.create_length]; exact h0

/-- An object made from `Block.cipher` by changing `finish`. -/
theorem block_agree' (h : SafeBlock c I) {allowed : TCall → Prop} (hwp : allowed (.buf .wipe) → BWipeSafe c I)
    {w : Nat} (hw : 3 ≤ w) {env : Env} (ha : ∀ c, allowed c → machineT w env c)
    (hm : (env.maxLen : Int) ≤ 2 ^ (w - 3)) (h0 : max 256 (2 * c.blocksize) ≤ env.maxLen) {s : σ} (hs : I s)
    {fin finW : M (CipherSt σ) Unit}
    (hf : ∀ t, CipherFits env c I t → finW t = fin t
      ∧ (fin t).Post (fun _ => CipherFits env c I) (fun _ => CipherFits env c I)) :
    AgreeOrReject (invoke { blockTransformW w env c with finish := finW })
      (invoke { blockTransform env c with finish := fin }) isPutSubstring
      allowed (cipherInit env c s) := by
  have hb : c.blocksize ≤ env.maxLen := by omega
  refine agreeOrReject_of (I := CipherFits env c I) (cipherInit_fits h h0 hs) ?_
  intro cl hc t ht
  match cl, hc with
  | .flush, _ => exact .inl (cipherFlushW_eq h hw hm hb t ht)
  | .finish, _ => exact .inl (hf t ht)
  | .buf cl, hc =>
    rcases block_buf_agree h hw hm hb cl (fun e => hwp (e ▸ hc)) (ha _ hc) t ht with g | ⟨⟨b, o, l, e, g⟩, g'⟩
    · exact .inl g
    · exact .inr ⟨⟨b, o, l, by rw [e]; rfl, g⟩, g'⟩

theorem block_agree (h : SafeBlock c I) {allowed : TCall → Prop} (hwp : allowed (.buf .wipe) → BWipeSafe c I)
    {w : Nat} (hw : 3 ≤ w) {env : Env} (ha : ∀ c, allowed c → machineT w env c)
    (hm : (env.maxLen : Int) ≤ 2 ^ (w - 3)) (h0 : max 256 (2 * c.blocksize) ≤ env.maxLen) {s : σ} (hs : I s) :
    AgreeOrReject (invoke (blockTransformW w env c)) (invoke (blockTransform env c)) isPutSubstring
      allowed (cipherInit env c s) :=
  block_agree' h hwp hw ha hm h0 hs (fun t ht => cipherFlushW_eq h hw hm (by omega) t ht)

/-! ### `Block.mac` -/

theorem macAddSubstringW_eq (h : SafeBlock c I) {w : Nat} (hw : 3 ≤ w) (src : Bytes) (ofs len : Int)
    (t : MacSt σ) (ht : MacSafe c I t) (hl : (t.used : Int) + len < 2 ^ (w - 1)) :
    macAddSubstringW w c src ofs len t = macAddSubstring c src ofs len t := by
  induction hk : len.toNat * 2 + (if t.used = 0 then 0 else 1) using Nat.strongRecOn
    generalizing ofs len t with
  | _ k ih =>
    have hbs := h.pos
    have hu := ht.used
    by_cases hl0 : len ≤ 0
    · rw [macAddSubstring, macAddSubstringW, if_pos hl0, if_pos hl0]
    · have e3 := pow_pos' (w - 1)
      have hwr : wrapInt w ((t.used : Int) + len) = (t.used : Int) + len :=
        wrapInt_of (by omega) ⟨by omega, by omega⟩
      by_cases hfit : (t.used : Int) + len ≤ c.blocksize
      · rw [macAddSubstring, macAddSubstringW, if_neg hl0, if_neg hl0, hwr, if_pos hfit, if_pos hfit]
        rfl
      · cases hbl : bytesBlit src ofs t.buffer t.used ((c.blocksize : Int) - t.used) with
        | none => rw [macAdd_none hl0 hfit hbl, macAddW_none hl0 (by rw [hwr]; exact hfit) hbl]
        | some ib =>
          rw [macAdd_some hl0 hfit hbl, macAddW_some hl0 (by rw [hwr]; exact hfit) hbl]
          have hp := macBlock_safe (st := { t with buffer := ib }) h
            ⟨ht.cst, ht.iv, (bytesBlit_length hbl).trans ht.buffer, ht.used⟩
          cases hc : macBlock c { t with buffer := ib } with
          | ok a t' =>
            rw [hc] at hp
            simp only []
            rw [if_neg (by omega), if_neg (by omega)]
            refine ih _ ?_ (ofs + ((c.blocksize : Int) - t.used))
              (len - ((c.blocksize : Int) - t.used)) { t' with used := 0 }
              ⟨hp.1.cst, hp.1.iv, hp.1.buffer, Nat.zero_le _⟩ ?_ rfl
            · simp only [if_true, Nat.add_zero]; subst hk; split <;> omega
            · simp only; omega
          | exn e t' => rfl
          | ub => rfl
          | loop => rfl

theorem macAddSubstringW_long {w : Nat} (hw : 3 ≤ w) {maxLen : Nat}
    (hm : (maxLen : Int) ≤ 2 ^ (w - 3)) (hb : c.blocksize ≤ maxLen) (src : Bytes) (ofs len : Int)
    (hs : src.length ≤ maxLen) (hlen : IsInt w len)
    (t : MacSt σ) (hu : t.used ≤ c.blocksize) (hl : 2 ^ (w - 1) ≤ (t.used : Int) + len) :
    ¬ InRange src ofs len ∧ macAddSubstringW w c src ofs len t = .exn .invalidArg t := by
  have e0 : (2 : Int) ^ w = 2 * 2 ^ (w - 1) := pow_half (w := w) (by omega)
  have e1 : (2 : Int) ^ (w - 1) = 2 * 2 ^ (w - 2) := pow_half (w := w - 1) (by omega)
  have e2 : (2 : Int) ^ (w - 2) = 2 * 2 ^ (w - 3) := pow_half (w := w - 2) (by omega)
  have e3 := pow_pos' (w - 3)
  obtain ⟨l1, l2⟩ := hlen
  refine ⟨fun ⟨r1, r2, r3⟩ => by omega, ?_⟩
  rw [macAddSubstringW, if_neg (by omega), wrapInt_above (by omega) (by omega) (by omega), if_pos (by omega),
    bytesBlit_none_of_long (by omega)]

theorem mac_agree (h : SafeBlock c I) {allowed : HCall → Prop} (hwp : allowed .wipe → BWipeSafe c I)
    {w : Nat} (hw : 3 ≤ w) {env : Env} (ha : ∀ c, allowed c → machineH w env c)
    (hm : (env.maxLen : Int) ≤ 2 ^ (w - 3)) (hb : c.blocksize ≤ env.maxLen) {pad : Option PadScheme}
    (hp : ∀ p, pad = some p → PadKeeps p) {s : σ} (hs : I s) {iv : Option Bytes} {st : MacSt σ}
    (hi : macInit env c s iv = .ok st) :
    AgreeOrReject (invokeH (macW w c pad)) (invokeH (mac c pad)) isAddSubstring allowed st := by
  refine agreeOrReject_of (I := MacSafe c I) (macInit_safe hs hi) ?_
  intro cl hc t ht
  have hpost : (invokeH (mac c pad) cl t).Post (fun _ => MacSafe c I) (fun _ => MacSafe c I) :=
    by
    by_cases hcl : cl = .wipe
    · subst hcl
      exact mac_wipe (hwp hc) pad t ht
    · exact (mac_safe h hp).notWipe cl hcl t ht
  replace hc := ha _ hc
  match cl, hc with
  | .addSubstring b ofs len, hc =>
    by_cases hl : (t.used : Int) + len < 2 ^ (w - 1)
    · exact .inl ⟨macAddSubstringW_eq h hw b ofs len t ht hl, hpost⟩
    · have := macAddSubstringW_long hw hm hb b ofs len hc.1 hc.2.2 t ht.used (by omega)
      exact .inr ⟨⟨b, ofs, len, rfl, this.1⟩, this.2⟩
  | .addString b, hc =>
    have e1 : (2 : Int) ^ (w - 1) = 2 * 2 ^ (w - 2) := pow_half (w := w - 1) (by omega)
    have e2 : (2 : Int) ^ (w - 2) = 2 * 2 ^ (w - 3) := pow_half (w := w - 2) (by omega)
    have hc' : b.length ≤ env.maxLen := hc
    have hu := ht.used
    exact .inl ⟨macAddSubstringW_eq h hw b 0 b.length t ht (by have := pow_pos' (w - 3); omega), hpost⟩
  | .addChar ch, _ => exact .inl ⟨rfl, hpost⟩
  | .addByte b, _ => exact .inl ⟨rfl, hpost⟩
  | .result, _ => exact .inl ⟨rfl, hpost⟩
  | .wipe, _ => exact .inl ⟨rfl, hpost⟩

end block

/-! ### Module `Cipher` -/

namespace Cipher

theorem chained_blocksize {env : Env} {mode : Mode} {iv : Option Bytes} {dir : Dir} {b m : AnyBlock}
    (h : chained env mode iv dir b = .ok m) : m.c.blocksize ≤ b.c.blocksize := by
  have hc : ∀ {n : Int} {st : ModeSt b.σ}, modeInitChunk env b.c b.s iv n = .ok st →
      n.toNat ≤ b.c.blocksize := fun h => (modeInitChunk_safe (I := fun _ => True) trivial h).2.2
  unfold chained at h
  split at h
  · cases h; exact Nat.le_refl _
  · obtain ⟨st, hs, rfl⟩ := Except.eq_ok_of_map h; exact Nat.le_refl _
  · obtain ⟨st, hs, rfl⟩ := Except.eq_ok_of_map h; exact Nat.le_refl _
  · obtain ⟨st, hs, rfl⟩ := Except.eq_ok_of_map h; exact hc hs
  · obtain ⟨st, hs, rfl⟩ := Except.eq_ok_of_map h; exact hc hs
  · obtain ⟨st, hs, rfl⟩ := Except.eq_ok_of_map h; exact hc hs
  · obtain ⟨st, hs, rfl⟩ := Except.eq_ok_of_map h; exact Nat.le_refl _
  · obtain ⟨st, hs, rfl⟩ := Except.eq_ok_of_map h; exact Nat.le_refl _

end Cipher

/-! ### `ensure_capacity` on a new buffer -/

theorem wrapInt_isInt {w : Nat} (hw : 0 < w) (x : Int) : IsInt w (wrapInt w x) := by
  have h1 := pow_half hw
  have h2 := pow_pos' (w - 1)
  have h3 := Int.emod_nonneg (x + 2 ^ (w - 1)) (show (2 : Int) ^ w ≠ 0 by omega)
  have h4 := Int.emod_lt_of_pos (x + 2 ^ (w - 1)) (show (0 : Int) < 2 ^ w by omega)
  unfold wrapInt
  exact ⟨by omega, by omega⟩

theorem pow_mono {a b : Nat} (h : a ≤ b) : (2 : Int) ^ a ≤ 2 ^ b := by
  have := Nat.pow_le_pow_right (n := 2) (by decide) h
  have h2 : ((2 ^ a : Nat) : Int) ≤ ((2 ^ b : Nat) : Int) := by omega
  rw [Int.natCast_pow, Int.natCast_pow] at h2
  exact h2

/-- The powers of two, doubled, stay below `2 ^ (w - 2) + 1`, become `min_int`, then 0. -/
theorem doubled_pow {w a : Nat} (ha : a ≤ w - 2) (hw : 3 ≤ w) (j : Nat) :
    doubled w (2 ^ a) j ≤ 2 ^ (w - 2) := by
  have e1 : (2 : Int) ^ (w - 1) = 2 * 2 ^ (w - 2) := pow_half (w := w - 1) (by omega)
  have e0 : (2 : Int) ^ w = 2 * 2 ^ (w - 1) := pow_half (w := w) (by omega)
  have e3 := pow_pos' (w - 2)
  cases j with
  | zero => exact pow_mono ha
  | succ j =>
    rw [doubled_eq, ← Int.pow_add]
    by_cases h1 : a + (j + 1) ≤ w - 2
    · have h2 := pow_mono h1
      have h3 := pow_pos' (a + (j + 1))
      rw [wrapInt_of (by omega) ⟨by omega, by omega⟩]
      exact h2
    · by_cases h2 : a + (j + 1) = w - 1
      · rw [h2, wrapInt_above (by omega) (by omega) (by omega)]
        omega
      · rw [wrapInt_zero_of_dvd (by omega) ⟨2 ^ (a + (j + 1) - w), by
          rw [← Int.pow_add]; congr 1; omega⟩]
        omega

theorem ensureCapacityW_loop {w a : Nat} (ha : a + 1 ≤ w - 2) (hw : 3 ≤ w) (env : Env) {n : Int}
    (h1 : 2 ^ (w - 2) < n) (h2 : n < 2 ^ (w - 1)) {o : OBuf} (hl : o.obuf.length = 2 ^ a) (hb : o.obeg = 0)
    (he : o.oend = 0) : OBuf.ensureCapacityW w env n o = .loop := by
  have e1 : (2 : Int) ^ (w - 1) = 2 * 2 ^ (w - 2) := pow_half (w := w - 1) (by omega)
  have e3 := pow_pos' (w - 2)
  have e4 := pow_mono (show a + 1 ≤ w - 2 from ha)
  have e5 : (2 : Int) ^ (a + 1) = 2 * 2 ^ a := pow_half (w := a + 1) (by omega)
  have e6 := pow_pos' a
  have hl' : (o.obuf.length : Int) = 2 ^ a := by rw [hl, Int.natCast_pow]; rfl
  unfold OBuf.ensureCapacityW
  simp only [hb, he, hl', Int.natCast_zero, Int.sub_self, Int.zero_add]
  rw [wrapInt_of (x := 0) (by omega) ⟨by omega, by omega⟩, Int.zero_add,
    wrapInt_of (x := n) (by omega) ⟨by omega, by omega⟩,
    wrapInt_of (x := 2 * 2 ^ a) (by omega) ⟨by omega, by omega⟩, if_pos (by omega), if_neg (by omega)]
  have hg : growLoopW w n w (2 * 2 ^ a) = none := by
    rw [growLoopW_none_iff (by omega), ← e5]
    intro j
    have := doubled_pow ha hw j
    omega
  rw [hg]

/-! ### The loops of the encoders and decoders -/

theorem putLoop_all (put : Byte → M τ Unit) (s : Bytes) : ∀ (r p : Bytes) (t t' : τ) (n : Nat), s = p ++ r →
    iterChars put r t = .ok () t' → r.length < n → putLoop put s p.length n t = .exn .invalidArg t'
  | [], p, t, t', n, hs, hi, hn => by
    obtain ⟨m, rfl⟩ : ∃ m, n = m + 1 := ⟨n - 1, by simp at hn; omega⟩
    cases hi
    rw [putLoop]
    have : bytesGet s (p.length : Int) = none := by
      rw [hs, List.append_nil]
      unfold bytesGet
      rw [if_pos (by omega)]
      simp
    rw [this]
    rfl
  | c :: r, p, t, t', n, hs, hi, hn => by
    obtain ⟨m, rfl⟩ : ∃ m, n = m + 1 := ⟨n - 1, by simp at hn; omega⟩
    rw [putLoop]
    have hg : bytesGet s (p.length : Int) = some c := by
      rw [hs]
      unfold bytesGet
      rw [if_pos (by omega)]
      simp
    rw [hg]
    rw [iterChars, M.bind_def] at hi
    rw [M.bind_def]
    simp only [M.orRaise_some]
    show ((put c >>= fun _ => putLoop put s (p.length + 1) m) t) = _
    rw [M.bind_def]
    cases hp : put c t with
    | ok a t1 =>
      rw [hp] at hi
      have := putLoop_all put s r (p ++ [c]) t1 t' m (by rw [hs]; simp) hi (by simp at hn; omega)
      rw [List.length_append] at this
      exact this
    | exn e t1 => rw [hp] at hi; cases hi
    | ub => rw [hp] at hi; cases hi
    | loop => rw [hp] at hi; cases hi

end Verif
