import Verif.Proof.Sim
import Verif.Props.ExampleUninit
import Verif.Props.C65_Zlib
/-
C97 for Zlib: results do not depend on uninitialised memory as long as the output waiting stays below 1 GiB; they do
depend on it when there are 4 GiB of output.
-/
namespace Verif

open Spec

variable {τ ζ : Type} {env env' : Env}

set_option maxRecDepth 4000

/-- Every call returns or raises an exception, and leaves at most `n` bytes of output waiting. -/
def Spec.pendingWithin (T : Transform τ) (n : Int) : List Call → τ → Prop
  | [], _ => True
  | c :: cs, t =>
    match perform T c t with
    | .ok _ t' => (∃ k t'', T.availableOutput t' = .ok k t'' ∧ k ≤ n) ∧ pendingWithin T n cs t'
    | .exn _ t' => (∃ k t'', T.availableOutput t' = .ok k t'' ∧ k ≤ n) ∧ pendingWithin T n cs t'
    | .ub => False
    | .loop => False

/-! ### The shape of the buffer -/

/-- The indices and the length of the buffer after `ensure_capacity 256`. -/
def roomShape (M b e l : Nat) : Nat × Nat × Nat :=
  if e + 256 > l then
    if e - b + 256 < l then (0, e - b, l)
    else match OBuf.growLoop ((e : Int) - b + 256) (2 * l) with
      | none => (0, 0, 0)
      | some m => (0, e - b, if m > M then M else m)
  else (b, e, l)

theorem ensureCapacity_shape {o : OBuf} {q : Bytes} (h : OBuf.Rep env o q) (hm : q.length + 256 ≤ env.maxLen) :
    ∃ o', OBuf.ensureCapacity env 256 o = .ok () o' ∧ OBuf.Rep env o' q ∧ o'.oend + 256 ≤ o'.obuf.length
      ∧ (o'.obeg, o'.oend, o'.obuf.length) = roomShape env.maxLen o.obeg o.oend o.obuf.length := by
  obtain ⟨o', e, r, hr⟩ := OBuf.ensureCapacity_ok h 256 hm
  refine ⟨o', e, r, hr, ?_⟩
  have hle := h.le; have hb := h.bound; have hp := h.pos
  have hl := h.length
  have hcast : ((o.oend : Int) - o.obeg) = ((o.oend - o.obeg : Nat) : Int) := by omega
  have e : OBuf.ensureCapacity env (256 : Int) o = .ok () o' := e
  unfold OBuf.ensureCapacity at e
  unfold roomShape
  simp only at e
  split at e
  · rename_i h1
    rw [if_pos (by omega)]
    split at e
    · rename_i h2
      rw [if_pos (by omega)]
      rw [hcast, ← Int.natCast_zero, bytesBlit_ok (by omega) (by omega)] at e
      cases e
      simp only
      rw [splice_length (by rw [slice_length_of_le (by omega)]; omega)]
    · rename_i h2
      rw [if_neg (by omega)]
      obtain ⟨m, hg, hg1, hg2⟩ := OBuf.growLoop_spec ((o.oend : Int) - o.obeg + 256) (2 * o.obuf.length) (by omega)
      rw [hg] at e ⊢
      simp only at e ⊢
      rw [if_neg (by omega)] at e
      generalize hnl : (if m > env.maxLen then env.maxLen else m) = nl at e ⊢
      have hnl1 : o.oend - o.obeg + 256 ≤ nl := by split at hnl <;> omega
      rw [hcast, ← Int.natCast_zero, bytesBlit_ok (by omega) (by simp; omega)] at e
      cases e
      simp only
      rw [splice_length (by rw [slice_length_of_le (by omega)]; simp; omega)]
      simp
  · rename_i h1
    rw [if_neg (by omega)]
    cases e
    rfl

theorem roomShape_le {M b e l : Nat} (hp : e - b ≤ 2 ^ 30) (hl : l ≤ 2 ^ 31 + 512) (hbe : b ≤ e) :
    (roomShape M b e l).2.2 ≤ 2 ^ 31 + 512 := by
  unfold roomShape
  split
  · split
    · exact hl
    · cases hg : OBuf.growLoop ((e : Int) - b + 256) (2 * l) with
      | none => simp
      | some m =>
        have := growLoop_le _ _ hg
        simp only
        split <;> omega
  · exact hl

/-- Two buffers with the same output waiting, at the same place, with the same room. -/
structure Twin (env env' : Env) (o o' : OBuf) : Prop where
  same : SameOut env env' o o'
  beg : o.obeg = o'.obeg
  fin : o.oend = o'.oend
  len : o.obuf.length = o'.obuf.length
  small : o.obuf.length ≤ 2 ^ 31 + 512

/-- The output waiting. -/
def OBuf.pend (o : OBuf) : Nat := o.oend - o.obeg

theorem ensure_twin (he : SameMachine env env') {o o' : OBuf} (h : Twin env env' o o') (hp : o.pend ≤ 2 ^ 30) :
    Sim (fun _ => Twin env env') (Twin env env') (OBuf.ensureCapacity env 256 o) (OBuf.ensureCapacity env' 256 o') := by
  obtain ⟨q, r, r'⟩ := h.same
  by_cases hm : q.length + 256 ≤ env.maxLen
  · obtain ⟨p, e1, r1, l1, s1⟩ := ensureCapacity_shape r hm
    obtain ⟨p', e2, r2, l2, s2⟩ := ensureCapacity_shape r' (he ▸ hm)
    rw [e1, e2]
    have hs : (roomShape env.maxLen o.obeg o.oend o.obuf.length).2.2 ≤ 2 ^ 31 + 512 := roomShape_le hp h.small r.le
    have e : env.maxLen = env'.maxLen := he
    rw [← h.beg, ← h.fin, ← h.len, ← e, ← s1] at s2
    rw [← s1] at hs
    simp only [Prod.mk.injEq] at s2
    exact ⟨rfl, ⟨q, r1, r2⟩, s2.1.symm, s2.2.1.symm, s2.2.2.symm, hs⟩
  · have a := OBuf.ensureCapacity_overflow r 256 (by omega)
    have b := OBuf.ensureCapacity_overflow r' 256 (he ▸ by omega)
    have a : OBuf.ensureCapacity env 256 o = _ := a
    have b : OBuf.ensureCapacity env' 256 o' = _ := b
    rw [a, b]
    exact ⟨rfl, h⟩

/-- zlib stores its output at the end of the buffer. -/
theorem rep_store {o : OBuf} {q out : Bytes} (h : OBuf.Rep env o q) (hl : o.oend + out.length ≤ o.obuf.length) :
    OBuf.Rep env { o with obuf := splice o.obuf o.oend out, oend := o.oend + out.length } (q ++ out) := by
  have hle := h.le
  have hc := h.content
  refine ⟨by simp only; omega, ?_, ?_, ?_, ?_⟩
  · simp only; rw [splice_length hl]; exact hl
  · simp only; rw [splice_length hl]; exact h.pos
  · simp only; rw [splice_length hl]; exact h.max
  · simp only
    apply List.ext_getElem?
    intro i
    have hq := h.length
    rw [getElem?_slice]
    by_cases hi : i < o.oend + out.length - o.obeg
    · rw [if_pos hi, getElem?_splice hl]
      by_cases h1 : i < q.length
      · rw [if_pos (by omega), List.getElem?_append_left h1, ← hc, getElem?_slice, if_pos (by omega)]
      · rw [if_neg (by omega), if_pos (by omega), List.getElem?_append_right (by omega)]
        congr 1; omega
    · rw [if_neg hi, List.getElem?_eq_none (by rw [List.length_append]; omega)]

/-- A failed call of zlib may have overwritten the free part of the buffer. -/
theorem rep_junk {o : OBuf} {q out : Bytes} (h : OBuf.Rep env o q) (hl : o.oend + out.length ≤ o.obuf.length) :
    OBuf.Rep env { o with obuf := splice o.obuf o.oend out } q := by
  have hc := h.content
  have hle := h.le
  refine ⟨h.le, ?_, ?_, ?_, ?_⟩
  · simp only; rw [splice_length hl]; exact h.bound
  · simp only; rw [splice_length hl]; exact h.pos
  · simp only; rw [splice_length hl]; exact h.max
  · simp only
    rw [slice_splice_disj hl (by omega)]
    exact hc

/-- Two states with the same state of zlib. -/
structure TwinZ (env env' : Env) (t t' : ZSt ζ) : Prop where
  zs : t.zs = t'.zs
  ob : Twin env env' t.ob t'.ob

/-- One call of zlib. -/
def zInner (fn : ZCall ζ) (fails : ZCode → Bool) (src : Bytes) (ofs len : Int) (flush : ZFlush) :
    M (ZSt ζ) (Bool × Int) := do
  let st ← M.get
  let r ← M.zoom (fun t : ZSt ζ => (t.zs, t.ob.obuf)) (fun r t => { zs := r.1, ob := { t.ob with obuf := r.2 } })
    (zlibStub fn fails src ofs len st.ob.oend ((st.ob.obuf.length : Int) - st.ob.oend) flush)
  M.modify fun t => { t with ob := { t.ob with oend := t.ob.oend + r.2.2.toNat } }
  pure (r.1, r.2.1)

theorem zStep_eq (env : Env) (fn : ZCall ζ) (fails : ZCode → Bool) (src : Bytes) (ofs len : Int) (flush : ZFlush) :
    zStep env fn fails src ofs len flush
      = ZSt.out (OBuf.ensureCapacity env 256) >>= fun _ => zInner fn fails src ofs len flush := rfl

theorem zInner_twin {fn : ZCall ζ} (hb : ZBounded fn) (fails : ZCode → Bool) (src : Bytes) (ofs len : Int)
    (flush : ZFlush) : Keep (TwinZ env env') (zInner fn fails src ofs len flush) (zInner fn fails src ofs len flush) := by
  intro t t' h
  obtain ⟨z, o⟩ := t
  obtain ⟨z', o'⟩ := t'
  obtain rfl : z = z' := h.zs
  have ho : Twin env env' o o' := h.ob
  obtain ⟨q, r, r'⟩ := ho.same
  have hs := ho.small
  have hR : zAvail ((o.obuf.length : Int) - o.oend) = o.obuf.length - o.oend := by
    have := r.bound
    unfold zAvail
    omega
  unfold zInner
  simp only [M.bind_def, M.get_def, M.zoom, zlibStub, hR, ← ho.fin, ← ho.len]
  have hout := hb.out flush (slice src ofs.toNat (zAvail len)) (o.obuf.length - o.oend) z
  generalize fn flush (slice src ofs.toNat (zAvail len)) (o.obuf.length - o.oend) z = x at hout
  have hin : InRange o.obuf (o.oend : Int) ((o.obuf.length - o.oend : Nat) : Int) := by
    have := r.bound
    unfold InRange; omega
  have hin' : InRange o'.obuf (o.oend : Int) ((o.obuf.length - o.oend : Nat) : Int) := by
    have := r.bound
    unfold InRange; rw [← ho.len]; omega
  by_cases hc : zAvail len = 0 ∨ InRange src ofs (zAvail len)
  swap
  · rw [if_pos (.inl hc), if_pos (.inl hc)]; trivial
  have n1 : ¬ (¬ (zAvail len = 0 ∨ InRange src ofs (zAvail len)) ∨ ¬ (o.obuf.length - o.oend = 0
      ∨ InRange o.obuf (o.oend : Int) ((o.obuf.length - o.oend : Nat) : Int))) :=
    fun h => h.elim (fun h => h hc) fun h => h (.inr hin)
  have n2 : ¬ (¬ (zAvail len = 0 ∨ InRange src ofs (zAvail len)) ∨ ¬ (o.obuf.length - o.oend = 0
      ∨ InRange o'.obuf (o.oend : Int) ((o.obuf.length - o.oend : Nat) : Int))) :=
    fun h => h.elim (fun h => h hc) fun h => h (.inr hin')
  rw [if_neg n1, if_neg n2]
  have hbound := r.bound
  have hl : o.oend + x.out.length ≤ o.obuf.length := by omega
  have hl' : o'.oend + x.out.length ≤ o'.obuf.length := by rw [← ho.fin, ← ho.len]; exact hl
  simp only [Int.toNat_natCast]
  by_cases hf : fails x.code = true
  · rw [if_pos hf, if_pos hf]
    refine ⟨rfl, rfl, ⟨q, rep_junk r hl, ?_⟩, ho.beg, rfl, ?_, ?_⟩
    · rw [ho.fin]; exact rep_junk r' hl'
    · simp only; rw [splice_length hl, splice_length (by rw [ho.fin]; exact hl')]; exact ho.len
    · simp only; rw [splice_length hl]; exact hs
  · rw [if_neg hf, if_neg hf]
    have hn : ((o.obuf.length : Int) - o.oend - (o.obuf.length - o.oend - x.out.length : Nat)).toNat = x.out.length := by
      omega
    simp only [M.modify_def, M.pure_def, hn]
    refine ⟨rfl, rfl, ⟨q ++ x.out, rep_store r hl, ?_⟩, ho.beg, ?_, ?_, ?_⟩
    · rw [ho.fin]; exact rep_store r' hl'
    · rfl
    · simp only; rw [splice_length hl, splice_length (by rw [ho.fin]; exact hl')]; exact ho.len
    · simp only; rw [splice_length hl]; exact hs

theorem zStep_twin (he : SameMachine env env') {fn : ZCall ζ} (hb : ZBounded fn) (fails : ZCode → Bool) (src : Bytes)
    (ofs len : Int) (flush : ZFlush) {t t' : ZSt ζ} (h : TwinZ env env' t t') (hp : t.ob.pend ≤ 2 ^ 30) :
    Sim (fun _ => TwinZ env env') (TwinZ env env') (zStep env fn fails src ofs len flush t)
      (zStep env' fn fails src ofs len flush t') := by
  rw [zStep_eq, zStep_eq]
  exact Sim.bind (Sim.zoom (ensure_twin he h.ob hp) (fun _ _ _ x => ⟨h.zs, x⟩) fun _ _ x => ⟨h.zs, x⟩)
    fun _ s s' hs => zInner_twin hb fails src ofs len flush s s' hs

/-! ### The output waiting does not decrease -/

/-- The outcome has more than 1 GiB of output waiting, if there is an outcome. -/
def Big : Out (ZSt ζ) α → Prop
  | .ok _ s => 2 ^ 30 < s.ob.pend
  | .exn _ s => 2 ^ 30 < s.ob.pend
  | .ub => True
  | .loop => True

/-- The method takes no output away. -/
def Swells (m : M (ZSt ζ) α) : Prop := ∀ t, 2 ^ 30 < t.ob.pend → Big (m t)

theorem Swells.bind {m : M (ZSt ζ) α} {k : α → M (ZSt ζ) β} (hm : Swells m) (hk : ∀ a, Swells (k a)) :
    Swells (m >>= k) := by
  intro t ht
  have h := hm t ht
  rw [M.bind_def]
  cases h1 : m t <;> rw [h1] at h
  · exact hk _ _ h
  · exact h
  · trivial
  · trivial

theorem Swells.pure (a : α) : Swells (Pure.pure a : M (ZSt ζ) α) := fun _ h => h

/-- The outcome has `n` bytes of output waiting. -/
def HasPend (n : Nat) : Out OBuf Unit → Prop
  | .ok _ o => o.pend = n
  | .exn _ o => o.pend = n
  | .ub => True
  | .loop => True

theorem ensure_pend (env : Env) (o : OBuf) : HasPend o.pend (OBuf.ensureCapacity env 256 o) := by
  unfold OBuf.ensureCapacity
  simp only
  split
  · split
    · split <;> simp [OBuf.pend, HasPend]
    · split
      · trivial
      · split
        · simp [OBuf.pend, HasPend]
        · split <;> simp [OBuf.pend, HasPend]
  · simp [OBuf.pend, HasPend]

theorem zInner_swells (fn : ZCall ζ) (fails : ZCode → Bool) (src : Bytes) (ofs len : Int) (flush : ZFlush) :
    Swells (zInner fn fails src ofs len flush) := by
  unfold zInner
  refine Swells.bind (fun _ h => h) fun st => Swells.bind ?_ fun r => Swells.bind ?_ fun _ => Swells.pure _
  · intro t ht
    generalize zlibStub fn fails src ofs len st.ob.oend ((st.ob.obuf.length : Int) - st.ob.oend) flush = m
    unfold M.zoom
    cases m (t.zs, t.ob.obuf) with
    | ok => exact ht
    | exn => exact ht
    | ub => trivial
    | loop => trivial
  · intro t ht
    unfold OBuf.pend at ht
    show 2 ^ 30 < OBuf.pend _
    unfold OBuf.pend
    simp only
    omega

theorem zStep_swells (env : Env) (fn : ZCall ζ) (fails : ZCode → Bool) (src : Bytes) (ofs len : Int) (flush : ZFlush) :
    Swells (zStep env fn fails src ofs len flush) := by
  rw [zStep_eq]
  refine Swells.bind ?_ fun _ => zInner_swells fn fails src ofs len flush
  intro t ht
  have h := ensure_pend env t.ob
  unfold ZSt.out M.zoom
  cases h1 : OBuf.ensureCapacity env 256 t.ob <;> rw [h1] at h
  · have h : OBuf.pend _ = _ := h
    show 2 ^ 30 < OBuf.pend _; rw [h]; exact ht
  · have h : OBuf.pend _ = _ := h
    show 2 ^ 30 < OBuf.pend _; rw [h]; exact ht
  · trivial
  · trivial

/-- In lockstep, unless there is too much output. -/
def KeepOr (env env' : Env) (m m' : M (ZSt ζ) α) : Prop :=
  ∀ t t', TwinZ env env' t t' → Sim (fun _ => TwinZ env env') (TwinZ env env') (m t) (m' t') ∨ Big (m t)

theorem KeepOr.bind {m m' : M (ZSt ζ) α} {k k' : α → M (ZSt ζ) β} (hm : KeepOr env env' m m') (hs : ∀ a, Swells (k a))
    (hk : ∀ a, KeepOr env env' (k a) (k' a)) : KeepOr env env' (m >>= k) (m' >>= k') := by
  intro t t' h
  rcases hm t t' h with h1 | h1
  · rw [M.bind_def, M.bind_def]
    cases e : m t <;> cases e' : m' t' <;> rw [e, e'] at h1
    case ok.ok => obtain ⟨rfl, h1⟩ := h1; exact hk _ _ _ h1
    all_goals first | exact .inl h1 | exact h1.elim
  · right
    rw [M.bind_def]
    cases e : m t <;> rw [e] at h1
    · exact hs _ _ h1
    · exact h1
    · trivial
    · trivial

theorem KeepOr.of {m m' : M (ZSt ζ) α} (h : Keep (TwinZ env env') m m') : KeepOr env env' m m' :=
  fun t t' ht => .inl (h t t' ht)

theorem zStep_or (he : SameMachine env env') {fn : ZCall ζ} (hb : ZBounded fn) (fails : ZCode → Bool) (src : Bytes)
    (ofs len : Int) (flush : ZFlush) :
    KeepOr env env' (zStep env fn fails src ofs len flush) (zStep env' fn fails src ofs len flush) := by
  intro t t' h
  by_cases hp : t.ob.pend ≤ 2 ^ 30
  · exact .inl (zStep_twin he hb fails src ofs len flush h hp)
  · exact .inr (zStep_swells env fn fails src ofs len flush t (by omega))

section
variable {L : ZLib ζ}

theorem ite_swells {c : Prop} [Decidable c] {m n : M (ZSt ζ) α} (hm : Swells m) (hn : Swells n) :
    Swells (if c then m else n) := by
  split
  · exact hm
  · exact hn

theorem ite_or {c : Prop} [Decidable c] {m n m' n' : M (ZSt ζ) α} (hm : KeepOr env env' m m')
    (hn : KeepOr env env' n n') : KeepOr env env' (if c then m else n) (if c then m' else n') := by
  split
  · exact hm
  · exact hn

theorem pure_or (a : α) : KeepOr env env' (pure a : M (ZSt ζ) α) (pure a) := fun _ _ h => .inl ⟨rfl, h⟩

theorem diverge_or : KeepOr env env' (M.diverge : M (ZSt ζ) α) M.diverge := fun _ _ _ => .inl trivial

theorem compressPut_swells (env : Env) (L : ZLib ζ) (fuel : Nat) : ∀ src ofs len,
    Swells (Zlib.compressPut env L fuel src ofs len) := by
  induction fuel with
  | zero => intro src ofs len; exact ite_swells (fun _ _ => trivial) (Swells.pure _)
  | succ fuel ih =>
    intro src ofs len
    exact ite_swells (Swells.bind (zStep_swells _ _ _ _ _ _ _) fun r => ite_swells (ih _ _ _) (Swells.pure _)) (Swells.pure _)

theorem compressPut_or (he : SameMachine env env') (hb : ZBounded L.deflate) (fuel : Nat) : ∀ src ofs len,
    KeepOr env env' (Zlib.compressPut env L fuel src ofs len) (Zlib.compressPut env' L fuel src ofs len) := by
  induction fuel with
  | zero => intro src ofs len; exact ite_or diverge_or (pure_or _)
  | succ fuel ih =>
    intro src ofs len
    exact ite_or (KeepOr.bind (zStep_or he hb _ _ _ _ _)
      (fun r => ite_swells (compressPut_swells _ _ _ _ _ _) (Swells.pure _)) fun r => ite_or (ih _ _ _) (pure_or _)) (pure_or _)

theorem compressFlush_swells (env : Env) (L : ZLib ζ) (fuel : Nat) : Swells (Zlib.compressFlush env L fuel) := by
  induction fuel with
  | zero => exact fun _ _ => trivial
  | succ fuel ih =>
    exact Swells.bind (zStep_swells _ _ _ _ _ _ _) fun r => Swells.bind (fun _ h => h) fun st => ite_swells ih (Swells.pure _)

theorem compressFlush_or (he : SameMachine env env') (hb : ZBounded L.deflate) (fuel : Nat) :
    KeepOr env env' (Zlib.compressFlush env L fuel) (Zlib.compressFlush env' L fuel) := by
  induction fuel with
  | zero => exact diverge_or
  | succ fuel ih =>
    refine KeepOr.bind (zStep_or he hb _ _ _ _ _)
      (fun r => Swells.bind (fun _ h => h) fun st => ite_swells (compressFlush_swells _ _ _) (Swells.pure _)) fun r => ?_
    intro t t' h
    show Sim _ _ ((if t.ob.oend = t.ob.obuf.length then Zlib.compressFlush env L fuel else pure ()) t)
      ((if t'.ob.oend = t'.ob.obuf.length then Zlib.compressFlush env' L fuel else pure ()) t')
      ∨ Big ((if t.ob.oend = t.ob.obuf.length then Zlib.compressFlush env L fuel else pure ()) t)
    rw [← h.ob.fin, ← h.ob.len]
    exact ite_or ih (pure_or _) t t' h

theorem zEnd_swells (f : ζ → Bool × ζ) : Swells (zEnd f) := by
  intro t ht
  unfold zEnd
  simp only
  split <;> exact ht

theorem zEnd_or (f : ζ → Bool × ζ) : KeepOr env env' (zEnd f) (zEnd f) := by
  intro t t' h
  left
  unfold zEnd
  simp only [← h.zs]
  split <;> exact ⟨rfl, rfl, h.ob⟩

theorem compressFinish_swells (env : Env) (L : ZLib ζ) (fuel : Nat) : Swells (Zlib.compressFinish env L fuel) := by
  induction fuel with
  | zero => exact fun _ _ => trivial
  | succ fuel ih => exact Swells.bind (zStep_swells _ _ _ _ _ _ _) fun r => ite_swells (zEnd_swells _) ih

theorem compressFinish_or (he : SameMachine env env') (hb : ZBounded L.deflate) (fuel : Nat) :
    KeepOr env env' (Zlib.compressFinish env L fuel) (Zlib.compressFinish env' L fuel) := by
  induction fuel with
  | zero => exact diverge_or
  | succ fuel ih =>
    exact KeepOr.bind (zStep_or he hb _ _ _ _ _) (fun r => ite_swells (zEnd_swells _) (compressFinish_swells _ _ _))
      fun r => ite_or (zEnd_or _) ih

theorem uncompressPut_swells (env : Env) (L : ZLib ζ) (fuel : Nat) : ∀ src ofs len,
    Swells (Zlib.uncompressPut env L fuel src ofs len) := by
  induction fuel with
  | zero => intro src ofs len; exact ite_swells (fun _ _ => trivial) (Swells.pure _)
  | succ fuel ih =>
    intro src ofs len
    exact ite_swells (Swells.bind (zStep_swells _ _ _ _ _ _ _) fun r =>
      ite_swells (ite_swells (fun _ h => h) (ih _ _ _)) (Swells.pure _)) (Swells.pure _)

theorem uncompressPut_or (he : SameMachine env env') (hb : ZBounded L.inflate) (fuel : Nat) : ∀ src ofs len,
    KeepOr env env' (Zlib.uncompressPut env L fuel src ofs len) (Zlib.uncompressPut env' L fuel src ofs len) := by
  induction fuel with
  | zero => intro src ofs len; exact ite_or diverge_or (pure_or _)
  | succ fuel ih =>
    intro src ofs len
    exact ite_or (KeepOr.bind (zStep_or he hb _ _ _ _ _)
      (fun r => ite_swells (ite_swells (fun _ h => h) (uncompressPut_swells _ _ _ _ _ _)) (Swells.pure _)) fun r =>
      ite_or (ite_or (fun _ _ h => .inl ⟨rfl, h⟩) (ih _ _ _)) (pure_or _)) (pure_or _)

theorem doFinish_swells (env : Env) (L : ZLib ζ) (fuel : Nat) : ∀ first, Swells (Zlib.doFinish env L fuel first) := by
  induction fuel with
  | zero => exact fun _ _ _ => trivial
  | succ fuel ih =>
    exact fun first => Swells.bind (zStep_swells _ _ _ _ _ _ _) fun r => ite_swells (ih _) (Swells.pure _)

theorem doFinish_or (he : SameMachine env env') (hb : ZBounded L.inflate) (fuel : Nat) : ∀ first,
    KeepOr env env' (Zlib.doFinish env L fuel first) (Zlib.doFinish env' L fuel first) := by
  induction fuel with
  | zero => exact fun _ => diverge_or
  | succ fuel ih =>
    exact fun first => KeepOr.bind (zStep_or he hb _ _ _ _ _) (fun r => ite_swells (doFinish_swells _ _ _ _) (Swells.pure _))
      fun r => ite_or (ih _) (pure_or _)

end

/-! ### The objects -/

theorem KeepOr.unit {m m' : M (ZSt ζ) Unit} (h : KeepOr env env' m m') :
    KeepOr env env' (do m; pure ([] : Bytes)) (do m'; pure ([] : Bytes)) :=
  KeepOr.bind h (fun _ => Swells.pure _) fun _ => pure_or _

theorem putByteChr_or {put put' : Byte → M (ZSt ζ) Unit} (hput : ∀ c, KeepOr env env' (put c) (put' c)) (b : Int) :
    KeepOr env env' (putByteChr put b) (putByteChr put' b) := by
  unfold putByteChr
  intro t t' h
  cases charChr b with
  | none => exact .inl ⟨rfl, h⟩
  | some c => exact hput c t t' h

/-- The methods that take output. -/
theorem twin_get {p p' : PutMethods (ZSt ζ)} {o : TOp} (ho : IsGet o) :
    Keep (TwinZ env env') (perform (inheritBuf (·.ob) (fun o t => { t with ob := o }) p) (.op o))
      (perform (inheritBuf (·.ob) (fun o t => { t with ob := o }) p') (.op o)) := by
  intro t t' h
  obtain ⟨q, r, r'⟩ := h.ob.same
  have hb := h.ob.beg
  have hf := h.ob.fin
  have clear : TwinZ env env' { t with ob := { t.ob with obeg := 0, oend := 0 } }
      { t' with ob := { t'.ob with obeg := 0, oend := 0 } } :=
    ⟨h.zs, ⟨_, r.clear, r'.clear⟩, rfl, rfl, h.ob.len, h.ob.small⟩
  have char : ∀ c q', q = c :: q' → OBuf.getChar t.ob = .ok c { t.ob with obeg := t.ob.obeg + 1 }
      ∧ OBuf.getChar t'.ob = .ok c { t'.ob with obeg := t'.ob.obeg + 1 }
      ∧ TwinZ env env' { t with ob := { t.ob with obeg := t.ob.obeg + 1 } }
        { t' with ob := { t'.ob with obeg := t'.ob.obeg + 1 } } := by
    rintro c q' rfl
    obtain ⟨o1, e1, r1⟩ := OBuf.getChar_cons r
    obtain ⟨o2, e2, r2⟩ := OBuf.getChar_cons r'
    have x : ∀ {o o1 : OBuf}, OBuf.getChar o = .ok c o1 → o1 = { o with obeg := o.obeg + 1 } := by
      intro o o1 h
      unfold OBuf.getChar at h
      split at h
      · cases h
      · split at h <;> cases h
        rfl
    obtain rfl := x e1
    obtain rfl := x e2
    exact ⟨e1, e2, h.zs, ⟨_, r1, r2⟩, by simp only [hb], h.ob.fin, h.ob.len, h.ob.small⟩
  cases o with
  | available =>
    simp only [perform, Transform.call, inheritBuf, M.bind_def, M.zoom, OBuf.availableOutput_ok r,
      OBuf.availableOutput_ok r']
    exact ⟨rfl, h⟩
  | getString =>
    simp only [perform, Transform.call, inheritBuf, M.zoom, OBuf.getString_ok r, OBuf.getString_ok r']
    exact ⟨rfl, clear⟩
  | getSubstring =>
    obtain ⟨h1, h2, h3⟩ := OBuf.getSubstring_ok r
    obtain ⟨h1', h2', h3'⟩ := OBuf.getSubstring_ok r'
    simp only [perform, Transform.call, inheritBuf, M.bind_def, M.zoom, h1, h1', bytesSub_ok h2, bytesSub_ok h2', h3, h3']
    exact ⟨rfl, clear⟩
  | getChar =>
    cases q with
    | nil =>
      simp only [perform, Transform.call, inheritBuf, M.zoom, OBuf.getChar_nil r, OBuf.getChar_nil r']
      exact ⟨rfl, h⟩
    | cons c q =>
      obtain ⟨e1, e2, h'⟩ := char c q rfl
      simp only [perform, Transform.call, inheritBuf, M.zoom, e1, e2]
      exact ⟨rfl, h'⟩
  | getByte =>
    cases q with
    | nil =>
      have a : OBuf.getByte t.ob = .exn .endOfFile t.ob := M.bind_exn (OBuf.getChar_nil r)
      have b : OBuf.getByte t'.ob = .exn .endOfFile t'.ob := M.bind_exn (OBuf.getChar_nil r')
      simp only [perform, Transform.call, inheritBuf, M.zoom, a, b]
      exact ⟨rfl, h⟩
    | cons c q =>
      obtain ⟨e1, e2, h'⟩ := char c q rfl
      have a : OBuf.getByte t.ob = .ok (c.toNat : Int) _ := M.bind_ok e1
      have b : OBuf.getByte t'.ob = .ok (c.toNat : Int) _ := M.bind_ok e2
      simp only [perform, Transform.call, inheritBuf, M.zoom, a, b]
      exact ⟨rfl, h'⟩
  | putSubstring | putString | putChar | putByte => exact ho.elim

theorem zperform_or {put put' : Bytes → Int → Int → M (ZSt ζ) Unit} {fl fl' fi fi' wi wi' : M (ZSt ζ) Unit}
    (hput : ∀ b o l, KeepOr env env' (put b o l) (put' b o l)) (hfl : KeepOr env env' fl fl')
    (hfi : KeepOr env env' fi fi') (c : Call) :
    KeepOr env env'
      (perform (inheritBuf (·.ob) (fun o t => { t with ob := o })
        { putSubstring := put, putString := fun s => put s 0 s.length, putChar := fun c => put [c] 0 1
          putByte := putByteChr fun c => put [c] 0 1, flush := fl, finish := fi, wipe := wi }) c)
      (perform (inheritBuf (·.ob) (fun o t => { t with ob := o })
        { putSubstring := put', putString := fun s => put' s 0 s.length, putChar := fun c => put' [c] 0 1
          putByte := putByteChr fun c => put' [c] 0 1, flush := fl', finish := fi', wipe := wi' }) c) := by
  cases c with
  | flush => exact hfl.unit
  | finish => exact hfi.unit
  | op o =>
    cases o with
    | putSubstring b ofs len => exact (hput b ofs len).unit
    | putString b => exact (hput b 0 b.length).unit
    | putChar c => exact (hput [c] 0 1).unit
    | putByte c => exact (putByteChr_or (fun c => hput [c] 0 1) c).unit
    | getString | getSubstring | getChar | getByte | available => exact .of (twin_get trivial)

/-- The object shows the output waiting. -/
def ShowsPend (T : Transform (ZSt ζ)) : Prop := ∀ t, T.availableOutput t = .ok ((t.ob.oend : Int) - t.ob.obeg) t

theorem trace_or {T T' : Transform (ZSt ζ)} (hT : ShowsPend T) (h : ∀ c, KeepOr env env' (perform T c) (perform T' c))
    (cs : List Call) : ∀ {t t'}, TwinZ env env' t t' → pendingWithin T (2 ^ 30) cs t → trace T cs t = trace T' cs t' := by
  induction cs with
  | nil => intros; rfl
  | cons c cs ih =>
    intro t t' ht hp
    have nb : ∀ {s : ZSt ζ}, (∃ k s', T.availableOutput s = .ok k s' ∧ k ≤ 2 ^ 30) → ¬ 2 ^ 30 < s.ob.pend := by
      rintro s ⟨k, s', e, hk⟩
      rw [hT] at e
      cases e
      unfold OBuf.pend
      omega
    rw [trace, trace]
    rw [pendingWithin] at hp
    rcases h c t t' ht with a | a
    · cases h1 : perform T c t <;> cases h2 : perform T' c t' <;> rw [h1, h2] at a <;> rw [h1] at hp <;> first
        | exact a.elim
        | exact hp.elim
        | (obtain ⟨rfl, a⟩ := a; simp only [ih a hp.2])
    · cases h1 : perform T c t <;> rw [h1] at a hp
      · exact absurd a (nb hp.1)
      · exact absurd a (nb hp.1)
      · exact hp.elim
      · exact hp.elim

theorem twin_init (he : SameMachine env env') (hm : 512 ≤ env.maxLen) (z : ζ) :
    TwinZ env env' ⟨z, OBuf.init env 512⟩ ⟨z, OBuf.init env' 512⟩ :=
  ⟨rfl, sameOut_init he (by decide) hm, rfl, rfl, by simp [OBuf.init], by simp [OBuf.init]⟩

/-- C97, `Zlib.compress`, as long as the output waiting stays below 1 GiB after every call. (This is missing from the
theorem: false, see `C97_zlib_leaks`.) -/
theorem C97_zlib_compress_partial {L : ZLib ζ} (hb : ZBounded L.deflate) (he : SameMachine env env')
    (hm : 512 ≤ env.maxLen) (fuel : Nat) (level : Int) (header : Bool) :
    SameResult (fun t t' => ∀ cs, pendingWithin (Zlib.compress env L fuel) (2 ^ 30) cs t →
        trace (Zlib.compress env L fuel) cs t = trace (Zlib.compress env' L fuel) cs t')
      (some (Zlib.compressNew env L level header)) (some (Zlib.compressNew env' L level header)) := by
  unfold Zlib.compressNew
  cases L.deflateInit level header with
  | none => rfl
  | some z =>
    exact fun cs hc => trace_or (fun _ => rfl)
      (zperform_or (compressPut_or he hb fuel) (compressFlush_or he hb fuel) (compressFinish_or he hb fuel)) cs
      (twin_init he hm z) hc

/-- C97, `Zlib.uncompress`, under the same condition. -/
theorem C97_zlib_uncompress_partial {L : ZLib ζ} (hb : ZBounded L.inflate) (he : SameMachine env env')
    (hm : 512 ≤ env.maxLen) (fuel : Nat) (header : Bool) :
    SameResult (fun t t' => ∀ cs, pendingWithin (Zlib.uncompress env L fuel) (2 ^ 30) cs t →
        trace (Zlib.uncompress env L fuel) cs t = trace (Zlib.uncompress env' L fuel) cs t')
      (some (Zlib.uncompressNew env L header)) (some (Zlib.uncompressNew env' L header)) := by
  unfold Zlib.uncompressNew
  cases L.inflateInit header with
  | none => rfl
  | some z =>
    exact fun cs hc => trace_or (fun _ => rfl)
      (zperform_or (uncompressPut_or he hb fuel) (pure_or _)
        (KeepOr.bind (doFinish_or he hb fuel true) (fun _ => zEnd_swells _) fun _ => zEnd_or _)) cs
      (twin_init he hm z) hc

/-- The call of a history with flushes. -/
def asCall : FOp → Call
  | .call op => .op op
  | .flush => .flush

theorem trace_callsF {T : Transform τ} : ∀ {ops : List FOp} {t t1 : τ} {x : Bytes}, T.callsF ops t = .ok x t1 →
    ∃ xs, xs.length = ops.length ∧ ∀ cs, trace T (ops.map asCall ++ cs) t = xs ++ trace T cs t1 := by
  intro ops
  induction ops with
  | nil => intro t t1 x h; cases h; exact ⟨[], rfl, fun _ => rfl⟩
  | cons op ops ih =>
    intro t t1 x h
    rw [Transform.callsF, M.bind_def] at h
    cases h1 : T.callF op t <;> rw [h1] at h
    · next a t2 =>
      simp only [M.bind_def] at h
      cases h2 : T.callsF ops t2 <;> rw [h2] at h
      · cases h
        obtain ⟨xs, l, e⟩ := ih h2
        have h3 : perform T (asCall op) t = .ok a t2 := by cases op <;> exact h1
        exact ⟨some (.ok a) :: xs, by simp [l], fun cs => by
          rw [List.map_cons, List.cons_append, trace, h3, List.cons_append, ← e]⟩
      · cases h
      · cases h
      · cases h
    · cases h
    · cases h
    · cases h

open Example in
/-- C97 is false of `Zlib` when there are 4 GiB of output: on two 64-bit machines that differ in the contents of fresh
memory, the same calls (put a string of `2^31 - 50` bytes, flush, put one byte, get the output) give different outputs,
with a library that meets the documented behaviour of zlib. -/
theorem C97_zlib_leaks (he : SameMachine env env') (hm : 2 ^ 33 ≤ env.maxLen) {i : Nat} (h1 : 2 ^ 32 ≤ i)
    (h2 : i < 2 ^ 33 - 98) (hj : env.junk (2 ^ 33) i ≠ env'.junk (2 ^ 33) i) {s : Bytes} (hs : s.length = 2 ^ 31 - 50)
    (c : Byte) {fuel : Nat} (hf : 22 < fuel) :
    ∃ t t', Zlib.compressNew env toyZlib 6 false = .ok t ∧ Zlib.compressNew env' toyZlib 6 false = .ok t' ∧
      trace (Zlib.compress env toyZlib fuel) [.op (.putString s), .flush, .op (.putChar c), .op .getString] t
        ≠ trace (Zlib.compress env' toyZlib fuel) [.op (.putString s), .flush, .op (.putChar c), .op .getString] t' := by
  obtain ⟨t, t1, a1, a2, _, ⟨r, t2, a3, a4⟩, _⟩ := C64_compress_large_output_reached hm hs c hf
  obtain ⟨t', t1', b1, b2, _, ⟨r', t2', b3, b4⟩, _⟩ := C64_compress_large_output_reached (env := env')
    (by have e : env.maxLen = env'.maxLen := he; omega) hs c hf
  refine ⟨t, t', a1, b1, fun h => ?_⟩
  obtain ⟨xs, l, e⟩ := trace_callsF a2
  obtain ⟨xs', l', e'⟩ := trace_callsF b2
  have e := e [.op .getString]
  have e' := e' [.op .getString]
  have g : perform (Zlib.compress env toyZlib fuel) (.op .getString) t1 = .ok r t2 := a3
  have g' : perform (Zlib.compress env' toyZlib fuel) (.op .getString) t1' = .ok r' t2' := b3
  have k : xs ++ [some (.ok r)] = xs' ++ [some (.ok r')] := by
    rw [trace, g] at e
    rw [trace, g'] at e'
    simp only [trace] at e e'
    rw [← e, ← e']
    exact h
  have k2 := (List.append_inj k (by rw [l, l'])).2
  simp only [List.cons.injEq, Option.some.injEq, Except.ok.injEq, and_true] at k2
  have := a4 i h1 h2
  rw [k2, b4 i h1 h2] at this
  exact hj (Option.some.inj this).symm

/-! ### Examples -/

/-- `pendingWithin`, computed. -/
def pendingCheck (T : Transform (ZSt ζ)) (n : Int) : List Call → ZSt ζ → Bool
  | [], _ => true
  | c :: cs, t =>
    match perform T c t with
    | .ok _ t' => decide ((t'.ob.oend : Int) - t'.ob.obeg ≤ n) && pendingCheck T n cs t'
    | .exn _ t' => decide ((t'.ob.oend : Int) - t'.ob.obeg ≤ n) && pendingCheck T n cs t'
    | .ub => false
    | .loop => false

theorem pendingCheck_sound {T : Transform (ZSt ζ)} (hT : ShowsPend T) {n : Int} : ∀ {cs : List Call} {t : ZSt ζ},
    pendingCheck T n cs t = true → pendingWithin T n cs t := by
  intro cs
  induction cs with
  | nil => intros; trivial
  | cons c cs ih =>
    intro t h
    rw [pendingCheck] at h
    rw [pendingWithin]
    cases h1 : perform T c t <;> rw [h1] at h <;> simp only [Bool.and_eq_true, decide_eq_true_eq] at h
    · exact ⟨⟨_, _, hT _, h.1⟩, ih h.2⟩
    · exact ⟨⟨_, _, hT _, h.1⟩, ih h.2⟩
    · cases h
    · cases h

open Example in
/-- Calls that stay within the bound, on two machines whose buffers differ. -/
example : ∃ t t', Zlib.compressNew env64 toyZlib 6 false = .ok t ∧ Zlib.compressNew envA5 toyZlib 6 false = .ok t'
    ∧ t.ob.obuf ≠ t'.ob.obuf
    ∧ trace (Zlib.compress env64 toyZlib 100) [.op (.putString [1, 2, 3]), .flush, .finish, .op .getString] t
      = trace (Zlib.compress envA5 toyZlib 100) [.op (.putString [1, 2, 3]), .flush, .finish, .op .getString] t' := by
  have h := C97_zlib_compress_partial zToyD.bounded same_A5 (by decide) 100 6 false
  refine ⟨_, _, rfl, rfl, ?_, h _ (pendingCheck_sound (fun _ => rfl) ?_)⟩
  · intro h
    have := congrArg (fun o => o[0]?) h
    revert this
    decide +kernel
  · decide +kernel

open Example in
example := C97_zlib_uncompress_partial zToyI.bounded same_A5 (by decide) 100 true

open Example in
/-- Two machines that are told apart. -/
example := C97_zlib_leaks same_A5 (by decide) (i := 2 ^ 32) (Nat.le_refl _) (by decide) (by decide +kernel)
  (s := List.replicate (2 ^ 31 - 50) 7) List.length_replicate 1 (fuel := 23) (by decide)

end Verif
