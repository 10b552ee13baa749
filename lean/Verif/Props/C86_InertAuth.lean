import Verif.Props.C86_Inert
import Verif.Proof.GcmAuth
import Verif.Proof.ChaPoly
/-
C86 A call that raises an exception has no effect: the authenticated ciphers.

`Spec.NoEffectBy (performAuth A) t0 c P` (Spec/Inert): whatever calls the object has been through
(`finish_and_get_tag` included), if `c` raises an exception that satisfies `P`, no sequence of calls
tells the object from one on which `c` was not tried.
-/
namespace Verif

open Spec

/-- The result and the effect of the method are the same in all the states related to `p`. -/
def Determined (R : τ → ρ → Prop) (m : M τ α) (p : ρ) : Prop :=
  ∃ o : Option (Except Exn α × ρ), ∀ t, R t p →
    match o with
    | none => m t = .ub ∨ m t = .loop
    | some (.ok a, p') => ∃ t', m t = .ok a t' ∧ R t' p'
    | some (.error e, p') => ∃ t', m t = .exn e t' ∧ R t' p'

theorem Settles.determined {R : τ → σ → Bytes → Prop} {m : M τ α} (h : Settles R m) (p : σ × Bytes)
    (hp : ∃ t, R t p.1 p.2) : Determined (fun t (p : σ × Bytes) => R t p.1 p.2) m p := by
  obtain ⟨r, s', q', hs⟩ := h p.1 p.2 hp
  refine ⟨some (r, (s', q')), fun t ht => ?_⟩
  obtain ⟨t', e1, r1⟩ := hs t ht
  cases r with
  | ok a => exact ⟨t', e1, r1⟩
  | error e => exact ⟨t', e1, r1⟩

section
variable {R : τ → ρ → Prop} {step : γ → M τ Bytes}

theorem traceBy_determined (h : ∀ c p, (∃ t, R t p) → Determined R (step c) p) (cs : List γ) :
    ∀ {p t t'}, R t p → R t' p → traceBy step cs t = traceBy step cs t' := by
  induction cs with
  | nil => intros; rfl
  | cons c cs ih =>
    intro p t t' h1 h2
    obtain ⟨o, ho⟩ := h c p ⟨t, h1⟩
    have a1 := ho t h1
    have a2 := ho t' h2
    rw [traceBy, traceBy]
    match o with
    | none =>
      rcases a1 with a1 | a1 <;> rcases a2 with a2 | a2 <;> rw [a1, a2]
    | some (.ok a, p') =>
      obtain ⟨t1, e1, r1⟩ := a1
      obtain ⟨t2, e2, r2⟩ := a2
      rw [e1, e2]
      simp only [ih r1 r2]
    | some (.error e, p') =>
      obtain ⟨t1, e1, r1⟩ := a1
      obtain ⟨t2, e2, r2⟩ := a2
      rw [e1, e2]
      simp only [ih r1 r2]

theorem reachable_determined (h : ∀ c p, (∃ t, R t p) → Determined R (step c) p) {t0 t : τ}
    (h0 : ∃ p, R t0 p) (ht : Reachable (fun c => Spec.discard (step c)) anyCall t0 t) : ∃ p, R t p := by
  induction ht with
  | start => exact h0
  | @returned t t' c _ _ hr ih =>
    obtain ⟨p, hR⟩ := ih
    obtain ⟨o, ho⟩ := h c p ⟨t, hR⟩
    have a1 := ho t hR
    simp only [Spec.discard, M.bind_def] at hr
    match o with
    | none => rcases a1 with a1 | a1 <;> rw [a1] at hr <;> cases hr
    | some (.ok a, p') =>
      obtain ⟨t1, e1, r1⟩ := a1
      rw [e1] at hr; cases hr; exact ⟨p', r1⟩
    | some (.error e, p') =>
      obtain ⟨t1, e1, r1⟩ := a1
      rw [e1] at hr; cases hr
  | @raised t t' c e _ _ hr ih =>
    obtain ⟨p, hR⟩ := ih
    obtain ⟨o, ho⟩ := h c p ⟨t, hR⟩
    have a1 := ho t hR
    simp only [Spec.discard, M.bind_def] at hr
    match o with
    | none => rcases a1 with a1 | a1 <;> rw [a1] at hr <;> cases hr
    | some (.ok a, p') =>
      obtain ⟨t1, e1, r1⟩ := a1
      rw [e1] at hr; cases hr
    | some (.error e, p') =>
      obtain ⟨t1, e1, r1⟩ := a1
      rw [e1] at hr; cases hr; exact ⟨p', r1⟩

/-- The exceptions in `P` leave the abstract state as it was. -/
def KeepsWhen (R : τ → ρ → Prop) (P : Exn → Prop) (m : M τ α) : Prop :=
  ∀ p t e t', P e → R t p → m t = .exn e t' → R t' p

theorem noEffectBy_of_keeps (h : ∀ c p, (∃ t, R t p) → Determined R (step c) p) {t0 : τ}
    (h0 : ∃ p, R t0 p) {c : γ} {P : Exn → Prop} (hk : KeepsWhen R P (step c)) : NoEffectBy step t0 c P := by
  intro t ht e t' hP hr cs
  obtain ⟨p, hR⟩ := reachable_determined h h0 ht
  exact traceBy_determined h cs hR (hk p t e t' hP hR hr)

theorem KeepsWhen.unit {P : Exn → Prop} {m : M τ Unit} (h : KeepsWhen R P m) :
    KeepsWhen R P (do m; pure ([] : Bytes)) := by
  intro p t e t' hP hR hm
  cases hc : m t with
  | ok a t1 => rw [M.bind_ok hc] at hm; cases hm
  | exn e1 t1 =>
    rw [M.bind_exn hc] at hm
    cases hm
    exact h _ _ _ _ hP hR hc
  | ub => simp [M.bind_def, hc] at hm
  | loop => simp [M.bind_def, hc] at hm

theorem Determined.unit {m : M τ Unit} {p : ρ} (h : Determined R m p) :
    Determined R (do m; pure ([] : Bytes)) p := by
  obtain ⟨o, ho⟩ := h
  refine ⟨o.map fun r => (r.1.map fun _ => [], r.2), fun t ht => ?_⟩
  have a := ho t ht
  match o with
  | none =>
    rcases a with a | a
    · left; simp [M.bind_def, a]
    · right; simp [M.bind_def, a]
  | some (.ok _, p') =>
    obtain ⟨t1, e1, r1⟩ := a
    exact ⟨t1, M.bind_ok e1, r1⟩
  | some (.error e, p') =>
    obtain ⟨t1, e1, r1⟩ := a
    exact ⟨t1, M.bind_exn e1, r1⟩

end

/-! ### AES-GCM -/

section Gcm

variable {κ : Type} {aes : BlockCipher κ} {k : κ} {E : Bytes → Bytes} {env : Env}

/-- The abstract states of GCM: the variables and the incomplete block, and the pending output. -/
abbrev GcmRep (env : Env) (c : BlockCipher (GcmSt κ)) (k : κ) (H : Bytes) (t : CipherSt (GcmSt κ))
    (p : (GcmSt κ × Bytes) × Bytes) : Prop := BlockRep env c (GcmInv k H) t p.1 p.2

/-- The state after the tag has been computed. -/
def gcmEnd (H : Bytes) (s : GcmSt κ) : GcmSt κ :=
  { s with mac := ghashMul (xorb s.mac (toBE64 (s.headerlen * 8) ++ toBE64 (s.cipherlen * 8))) H }

theorem gcmTag_settled {c : BlockCipher (GcmSt κ)} {H : Bytes} {t : CipherSt (GcmSt κ)} {s : GcmSt κ × Bytes}
    {q : Bytes} (ht : BlockRep env c (GcmInv k H) t s q) :
    ∃ t', gcmTag env t = .ok (tagOf H s.1) t' ∧ BlockRep env c (GcmInv k H) t' (gcmEnd H s.1, s.2) q := by
  have hinv := ht.inv
  rw [gcmTag_ok env hinv, ht.st]
  exact ⟨_, rfl,
    { inv := by
        have := ht.st ▸ hinv
        exact ⟨this.aes, this.h, this.ctr, ghashMul_length _ _, this.buf, this.e0⟩
      st := rfl, ilen := ht.ilen, used := ht.used, le := ht.le, pend := ht.pend, ob := ht.ob }⟩

theorem gcmEncFinish_cases (h : PureCipher aes k E) (hb : aes.blocksize = 16) {H : Bytes} (s : GcmSt κ × Bytes)
    (q : Bytes) :
    (∃ e s' q', Settled (BlockRep env (gcmEncWrapped aes) (GcmInv k H)) (gcmEncFinish env aes) s q (.error e) s' q'
      ∧ ((s' = s ∧ q' = q) ∨ e = .error .messageTooLong))
    ∨ ∃ x s' q', Settled (BlockRep env (gcmEncWrapped aes) (GcmInv k H)) (gcmEncFinish env aes) s q (.ok x) s' q' := by
  by_cases h0 : s.2.length = 0
  · right
    refine ⟨tagOf H s.1, (gcmEnd H s.1, s.2), q, fun t ht => ?_⟩
    obtain ⟨t', e1, r1⟩ := gcmTag_settled ht
    have e0 : gcmEncLast env aes t = .ok () t := by
      unfold gcmEncLast
      rw [M.bind_ok (M.get_def t), if_neg (by have := ht.used; omega)]; rfl
    exact ⟨t', by rw [gcmEncFinish, M.bind_ok e0, e1], r1⟩
  by_cases hfit : q.length + s.2.length ≤ env.maxLen
  · cases hexn : (gcmEncF E H s.1 s.2).exn with
    | none =>
      right
      refine ⟨tagOf H (gcmEncF E H s.1 s.2).st, (gcmEnd H (gcmEncF E H s.1 s.2).st, s.2), q ++ (gcmEncF E H s.1 s.2).out, fun t ht => ?_⟩
      have HH := gcmEncLast_ok h hb ht h0 hfit
      rw [ht.st, hexn] at HH
      obtain ⟨t1, e1, e2, e3, e4, e5⟩ := HH
      have hR : BlockRep env (gcmEncWrapped aes) (GcmInv k H) t1 ((gcmEncF E H s.1 s.2).st, s.2)
          (q ++ (gcmEncF E H s.1 s.2).out) :=
        { inv := by rw [e2]; exact (gcmEncF_inv h hb (ht.st ▸ ht.inv) (b := s.2) ht.le).1
          st := e2, ilen := by rw [e3]; exact ht.ilen, used := by rw [e4]; exact ht.used, le := ht.le
          pend := by rw [e3, e4]; exact ht.pend, ob := e5 }
      obtain ⟨t', a1, r1⟩ := gcmTag_settled hR
      exact ⟨t', by rw [gcmEncFinish, M.bind_ok e1, a1], r1⟩
    | some e =>
      left
      refine ⟨e, ((gcmEncF E H s.1 s.2).st, s.2), q ++ (gcmEncF E H s.1 s.2).out, fun t ht => ?_, .inr ?_⟩
      · have HH := gcmEncLast_ok h hb ht h0 hfit
        rw [ht.st, hexn] at HH
        obtain ⟨t1, e1, e2, e3, e4, e5⟩ := HH
        refine ⟨t1, by rw [gcmEncFinish, M.bind_exn e1], ?_⟩
        exact
          { inv := by rw [e2]; exact (gcmEncF_inv h hb (ht.st ▸ ht.inv) (b := s.2) ht.le).1
            st := e2, ilen := by rw [e3]; exact ht.ilen, used := by rw [e4]; exact ht.used, le := ht.le
            pend := by rw [e3, e4]; exact ht.pend, ob := e5 }
      · simp only [gcmEncF] at hexn
        split at hexn
        · cases hexn; rfl
        · cases hexn
  · left
    refine ⟨.error .outputBufferOverflow, s, q, fun t ht => ⟨t, ?_, ht⟩, .inl ⟨rfl, rfl⟩⟩
    have hused := ht.used
    have h1 := OBuf.ensureCapacity_overflow ht.ob t.used (by omega)
    have e1 : CipherSt.onBuf (OBuf.ensureCapacity env t.used) t = .exn (.error .outputBufferOverflow) t := by
      simp only [CipherSt.onBuf, M.zoom, h1]
    have e0 : gcmEncLast env aes t = .exn (.error .outputBufferOverflow) t := by
      unfold gcmEncLast
      rw [M.bind_ok (M.get_def t), if_pos (by omega), M.bind_exn e1]
    rw [gcmEncFinish, M.bind_exn e0]

theorem gcmDecFinish_fit (h : PureCipher aes k E) (hb : aes.blocksize = 16) {H : Bytes} {s : GcmSt κ × Bytes}
    {q : Bytes} (h0 : s.2.length ≠ 0) (hfit : q.length + s.2.length ≤ env.maxLen) :
    Settled (BlockRep env (gcmDecWrapped aes) (GcmInv k H)) (gcmDecFinish env aes) s q
      (.ok (tagOf H (gcmDecF E H s.1 s.2).st)) (gcmEnd H (gcmDecF E H s.1 s.2).st, s.2)
      (q ++ (gcmDecF E H s.1 s.2).out) := by
  intro t ht
  have HH := gcmDecLast_ok h hb ht h0 hfit
  rw [ht.st] at HH
  obtain ⟨t1, e1, e2, e3, e4, e5⟩ := HH
  have hR : BlockRep env (gcmDecWrapped aes) (GcmInv k H) t1 ((gcmDecF E H s.1 s.2).st, s.2)
      (q ++ (gcmDecF E H s.1 s.2).out) :=
    { inv := by rw [e2]; exact (gcmDecF_inv h hb (ht.st ▸ ht.inv) (b := s.2) ht.le).1
      st := e2, ilen := by rw [e3]; exact ht.ilen, used := by rw [e4]; exact ht.used, le := ht.le
      pend := by rw [e3, e4]; exact ht.pend, ob := e5 }
  obtain ⟨t', a1, r1⟩ := gcmTag_settled hR
  exact ⟨t', by rw [gcmDecFinish, M.bind_ok e1, a1], r1⟩

/-- When there is no room for the last block, `finish_and_get_tag` raises once the block has been
hashed. -/
theorem gcmDecFinish_over {H : Bytes} {s : GcmSt κ × Bytes} {q : Bytes} (h0 : s.2.length ≠ 0)
    (hfit : env.maxLen < q.length + s.2.length) :
    Settled (BlockRep env (gcmDecWrapped aes) (GcmInv k H)) (gcmDecFinish env aes) s q
      (.error (.error .outputBufferOverflow)) ({ s.1 with mac := ghashMul (xorb s.1.mac (pad16 s.2)) H }, s.2) q := by
  intro t ht
  have hused := ht.used
  have hinv := ht.inv
  have hil : t.ibuf.length = 16 := ht.ilen
  have hle : s.2.length ≤ 16 := ht.le
  have hpend := ht.pend
  rw [hused] at hpend
  have h5 := gcmHash_ok (H := H) (s := t.c) hinv.h hinv.mac
    (b := t.ibuf) (dst := t.ob.obuf) (ofs := 0) (len := s.2.length) hle (by omega)
  rw [slice_zero, hpend, Int.natCast_zero] at h5
  have e3 := gcmOnOut_ok (t := t) h5
  rw [← hused] at e3
  have h1 := OBuf.ensureCapacity_overflow ht.ob t.used (by omega)
  refine ⟨{ t with c := { t.c with mac := ghashMul (xorb t.c.mac (pad16 s.2)) H } }, ?_, ?_⟩
  · have e0 : gcmDecLast env aes t = .exn (.error .outputBufferOverflow)
        { t with c := { t.c with mac := ghashMul (xorb t.c.mac (pad16 s.2)) H } } := by
      unfold gcmDecLast
      rw [M.bind_ok (M.get_def t), if_pos (by omega), M.bind_ok e3]
      simp only [M.bind_def, CipherSt.onBuf, M.zoom, h1]
    rw [gcmDecFinish, M.bind_exn e0]
  · exact { inv := ⟨hinv.aes, hinv.h, hinv.ctr, ghashMul_length _ _, hinv.buf, hinv.e0⟩
            st := by rw [ht.st], ilen := ht.ilen, used := ht.used, le := ht.le, pend := ht.pend, ob := ht.ob }

theorem gcmDecFinish_settles (h : PureCipher aes k E) (hb : aes.blocksize = 16) {H : Bytes} :
    Settles (BlockRep env (gcmDecWrapped aes) (GcmInv k H)) (gcmDecFinish env aes) := by
  intro s q _
  by_cases h0 : s.2.length = 0
  · refine ⟨.ok (tagOf H s.1), (gcmEnd H s.1, s.2), q, fun t ht => ?_⟩
    obtain ⟨t', e1, r1⟩ := gcmTag_settled ht
    have e0 : gcmDecLast env aes t = .ok () t := by
      unfold gcmDecLast
      rw [M.bind_ok (M.get_def t), if_neg (by have := ht.used; omega)]; rfl
    exact ⟨t', by rw [gcmDecFinish, M.bind_ok e0, e1], r1⟩
  by_cases hfit : q.length + s.2.length ≤ env.maxLen
  · exact ⟨_, _, _, gcmDecFinish_fit h hb h0 hfit⟩
  · exact ⟨_, _, _, gcmDecFinish_over h0 (by omega)⟩

theorem block_keepsWhen {c : BlockCipher σ} {inv : σ → Prop} {f : σ → Bytes → BRes σ} (h : Implements c inv f)
    {P : Exn → Prop} (hf : ∀ s b e, (f s b).exn = some e → ¬ P e) {x : Call} (hx : Single x) :
    KeepsWhen (fun t (p : (σ × Bytes) × Bytes) => BlockRep env c inv t p.1 p.2) P
      (perform (blockTransform env c) x) := by
  have hi : ∀ {s q t}, BlockRep env c inv t s q → inv s.1 := fun ht => ht.st ▸ ht.inv
  have hr := blockTransform_refines env h
  have hne : ∀ {s : σ × Bytes} {e}, P e → (f s.1 s.2).exn ≠ some e := fun hP he => hf _ _ _ he hP
  cases x with
  | flush =>
    exact KeepsWhen.unit fun p t e t' hP ht =>
      (Settled.of_cases' (cipherFlush_cases h p.1 p.2 (hi ht))).2 t e t' (hne hP) ht
  | finish =>
    exact KeepsWhen.unit fun p t e t' hP ht =>
      (Settled.of_cases' (cipherFlush_cases h p.1 p.2 (hi ht))).2 t e t' (hne hP) ht
  | op o =>
    cases o with
    | putSubstring b ofs len => exact hx.elim
    | putString b => exact hx.elim
    | putChar ch =>
      exact KeepsWhen.unit fun p t e t' hP ht =>
        (Settled.of_cases' (cipherPutChar_cases h ch p.1 p.2 (hi ht))).2 t e t' (hne hP) ht
    | putByte ch =>
      exact KeepsWhen.unit fun p t e t' hP ht =>
        (Settled.of_cases' (cipherPutChar_cases h (BitVec.ofInt 8 ch) p.1 p.2 (hi ht))).2 t e t' (hne hP) ht
    | getString => exact fun p t e t' _ ht hm => get_keeps (o := .getString) hr trivial p.1 p.2 t e t' ht hm
    | getSubstring => exact fun p t e t' _ ht hm => get_keeps (o := .getSubstring) hr trivial p.1 p.2 t e t' ht hm
    | getChar => exact fun p t e t' _ ht hm => get_keeps (o := .getChar) hr trivial p.1 p.2 t e t' ht hm
    | getByte => exact fun p t e t' _ ht hm => get_keeps (o := .getByte) hr trivial p.1 p.2 t e t' ht hm
    | available => exact fun p t e t' _ ht hm => get_keeps (o := .available) hr trivial p.1 p.2 t e t' ht hm

theorem gcmEnc_determined (h : PureCipher aes k E) (hb : aes.blocksize = 16) (H : Bytes) (x : AuthCall)
    (p : (GcmSt κ × Bytes) × Bytes) (hp : ∃ t, GcmRep env (gcmEncWrapped aes) k H t p) :
    Determined (GcmRep env (gcmEncWrapped aes) k H) (performAuth (aesGcm env aes .encrypt) x) p := by
  cases x with
  | call c => exact (block_settles (gcmEnc_implements h hb H) c).determined p hp
  | finishAndGetTag =>
    refine Settles.determined (R := BlockRep env (gcmEncWrapped aes) (GcmInv k H)) (fun s q _ => ?_) p hp
    rcases gcmEncFinish_cases (env := env) h hb (H := H) s q with ⟨e, s', q', hs, _⟩ | ⟨x, s', q', hs⟩
    · exact ⟨_, _, _, hs⟩
    · exact ⟨_, _, _, hs⟩

theorem gcmDec_determined (h : PureCipher aes k E) (hb : aes.blocksize = 16) (H : Bytes) (x : AuthCall)
    (p : (GcmSt κ × Bytes) × Bytes) (hp : ∃ t, GcmRep env (gcmDecWrapped aes) k H t p) :
    Determined (GcmRep env (gcmDecWrapped aes) k H) (performAuth (aesGcm env aes .decrypt) x) p := by
  cases x with
  | call c => exact (block_settles (gcmDec_implements h hb H) c).determined p hp
  | finishAndGetTag => exact (gcmDecFinish_settles h hb).determined p hp

end Gcm

/-- The calls other than `put_substring` and `put_string`. -/
def Spec.SingleAuth : AuthCall → Prop
  | .call c => Single c
  | .finishAndGetTag => True

/-- C86, GCM encryption, for the calls other than `put_substring` and `put_string`, and the exceptions
other than `Message_too_long`. -/
theorem C86_gcm_encrypt_partial {κ : Type} {aes : BlockCipher κ} {k k' : κ} {E : Bytes → Bytes} {env : Env}
    {pclmul : Bool} (h : PureCipher aes k E) (hb : aes.blocksize = 16) (hm : 256 ≤ env.maxLen) {header iv : Bytes}
    {t0 : CipherSt (GcmSt κ)} (h0 : aesGcmInit env pclmul aes k header iv = .ok t0 k') (x : AuthCall)
    (hx : SingleAuth x) : NoEffectBy (performAuth (aesGcm env aes .encrypt)) t0 x notTooLong := by
  obtain ⟨s, e0, hs, _⟩ := gcmInit_ok env pclmul h hb header iv
  simp only [aesGcmInit, e0] at h0
  cases h0
  have hR := blockRep_init (c := gcmEncWrapped aes) (inv := GcmInv k (GCM.subkey E)) env hs
    (by rw [show (gcmEncWrapped aes).blocksize = 16 from rfl]; omega)
  have himp := gcmEnc_implements h hb (GCM.subkey E)
  refine noEffectBy_of_keeps (gcmEnc_determined h hb (GCM.subkey E)) ⟨((s, []), []), hR⟩ ?_
  cases x with
  | call c =>
    refine block_keepsWhen himp (fun s b e he hP => hP ?_) hx
    simp only [gcmEncF] at he
    split at he
    · cases he; rfl
    · cases he
  | finishAndGetTag =>
    intro p t e t' hP ht hm
    rcases gcmEncFinish_cases (env := env) h hb (H := GCM.subkey E) p.1 p.2 with ⟨e1, s', q', hs, hc⟩ | ⟨x, s', q', hs⟩
    · obtain ⟨t1, a1, r1⟩ := hs t ht
      have := hm.symm.trans a1
      cases this
      rcases hc with ⟨rfl, rfl⟩ | rfl
      · exact r1
      · exact absurd rfl hP
    · obtain ⟨t1, a1, r1⟩ := hs t ht
      have := hm.symm.trans a1
      cases this

/-- C86, GCM decryption, for the calls other than `put_substring`, `put_string` and
`finish_and_get_tag`. -/
theorem C86_gcm_decrypt_partial {κ : Type} {aes : BlockCipher κ} {k k' : κ} {E : Bytes → Bytes} {env : Env}
    {pclmul : Bool} (h : PureCipher aes k E) (hb : aes.blocksize = 16) (hm : 256 ≤ env.maxLen) {header iv : Bytes}
    {t0 : CipherSt (GcmSt κ)} (h0 : aesGcmInit env pclmul aes k header iv = .ok t0 k') (x : Call)
    (hx : Single x) : NoEffectBy (performAuth (aesGcm env aes .decrypt)) t0 (.call x) anyExn := by
  obtain ⟨s, e0, hs, _⟩ := gcmInit_ok env pclmul h hb header iv
  simp only [aesGcmInit, e0] at h0
  cases h0
  have hR := blockRep_init (c := gcmDecWrapped aes) (inv := GcmInv k (GCM.subkey E)) env hs
    (by rw [show (gcmDecWrapped aes).blocksize = 16 from rfl]; omega)
  exact noEffectBy_of_keeps (gcmDec_determined h hb (GCM.subkey E)) ⟨((s, []), []), hR⟩
    (block_keepsWhen (gcmDec_implements h hb (GCM.subkey E)) (fun s b e he => by cases he) hx)

theorem lazyBlocks_whole {n : Nat} (hn : 0 < n) {f : σ → Bytes → BRes σ} (P L : Bytes) (hP : n ∣ P.length)
    (hL : L.length = n) (s : σ) :
    lazyBlocks n f s (P ++ L) = (runBlocks f s (chunks n P)).andThen (fun p => .ok [] (p.1, L)) := by
  induction hl : P.length using Nat.strongRecOn generalizing P s with
  | _ m ih =>
    by_cases h0 : P = []
    · subst h0
      rw [List.nil_append, lazyBlocks_le (by omega), chunks_nil]
      rfl
    · have hpos := List.length_pos_iff.2 h0
      have hle : n ≤ P.length := Nat.le_of_dvd hpos hP
      rw [lazyBlocks_gt hn (by rw [List.length_append]; omega), List.take_append_of_le_length hle,
        List.drop_append_of_le_length hle, chunks_cons hn h0]
      simp only [runBlocks, oneBlock]
      cases hexn : (f s (P.take n)).exn with
      | some e => rfl
      | none =>
        simp only
        have := ih (P.drop n).length (by simp; omega) (P.drop n) (by
          rw [List.length_drop]; exact Nat.dvd_sub hP (Nat.dvd_refl n)) (f s (P.take n)).st rfl
        simp only [SRes.andThen, this]
        cases runBlocks f (f s (P.take n)).st (chunks n (P.drop n)) <;> simp [SRes.andThen]

/-- `tagOf_eq`, when the bytes hashed are not those counted. -/
theorem tagOf_other {κ : Type} {E : Bytes → Bytes} {iv header X C : Bytes} {s : GcmSt κ}
    (he : s.e0 = E (GCM.J0 E iv)) (hX : 16 ∣ X.length)
    (hh : s.headerlen = BitVec.ofNat 64 header.length) (hc : s.cipherlen = BitVec.ofNat 64 C.length)
    (hm : s.mac = absorb (GCM.subkey E) (absorb (GCM.subkey E) (List.replicate 16 0) (chunks 16 header))
      (chunks 16 X)) :
    tagOf (GCM.subkey E) s = GCM.gctr E (GCM.J0 E iv) [GCM.ghash (GCM.subkey E) (zeroPad16 header ++ X
      ++ GCM.bitLength64 header ++ GCM.bitLength64 C)] := by
  have h3 := ghash_three (GCM.subkey E) header X (GCM.bitLength64 header ++ GCM.bitLength64 C)
    (by simp [GCM.bitLength64])
  have hz : zeroPad16 X = X := by
    unfold zeroPad16
    rw [show (16 - X.length % 16) % 16 = 0 by omega]
    simp
  rw [← List.append_assoc, hz] at h3
  unfold tagOf
  rw [h3, he, hm, natToBE8_mul8 _ _ hh, natToBE8_mul8 _ _ hc]
  simp only [GCM.gctr, List.append_nil, GCM.bitLength64]

/-- C86 is false of `finish_and_get_tag` of GCM decryption: when there is no room for the plaintext of the
last block, the exception is raised once the block has been hashed. If the caller retrieves the output
and calls the method again, the block is hashed a second time. -/
theorem C86_gcm_decrypt_finish {κ : Type} {aes : BlockCipher κ} {k k' : κ} {E : Bytes → Bytes} {env : Env}
    {pclmul : Bool} (h : PureCipher aes k E) (hb : aes.blocksize = 16) (hm : 256 ≤ env.maxLen) {header iv : Bytes}
    {t0 : CipherSt (GcmSt κ)} (h0 : aesGcmInit env pclmul aes k header iv = .ok t0 k') (P L : Bytes)
    (hP : 16 ∣ P.length) (hL : L.length = 16) (h1 : P.length ≤ env.maxLen) (h2 : env.maxLen < P.length + 16)
    {T : Bytes} (hT : T = GCM.gctr E (GCM.J0 E iv) [GCM.ghash (GCM.subkey E) (zeroPad16 header ++ (P ++ L ++ L)
      ++ GCM.bitLength64 header ++ GCM.bitLength64 (P ++ L))]) :
    traceBy (performAuth (aesGcm env aes .decrypt)) [.call (.op (.putString (P ++ L))), .finishAndGetTag,
        .call (.op .getString), .finishAndGetTag] t0
      = [some (.ok []), some (.error (.error .outputBufferOverflow)), some (.ok (GCM.crypt E iv P)), some (.ok T)]
    ∧ traceBy (performAuth (aesGcm env aes .decrypt)) [.call (.op (.putString (P ++ L))),
        .call (.op .getString), .finishAndGetTag] t0
      = [some (.ok []), some (.ok (GCM.crypt E iv P)), some (.ok (GCM.tag E iv header (P ++ L)))]
    ∧ (T ≠ GCM.tag E iv header (P ++ L) →
        ¬ NoEffectBy (performAuth (aesGcm env aes .decrypt)) t0 .finishAndGetTag anyExn) := by
  obtain ⟨s, e0, hs, i1, i2, i3, i4, i5⟩ := gcmInit_ok env pclmul h hb header iv
  simp only [aesGcmInit, e0] at h0
  cases h0
  have hR := blockRep_init (c := gcmDecWrapped aes) (inv := GcmInv k (GCM.subkey E)) env hs
    (by rw [show (gcmDecWrapped aes).blocksize = 16 from rfl]; omega)
  rw [show cipherInit env (gcmDecWrapped aes) s = cipherInit env (gcmEncWrapped aes) s from rfl] at hR
  have hbase := blockTransform_refines env (gcmDec_implements h hb (GCM.subkey E))
  -- `put_string`
  have hput := hbase.putString (b := P ++ L) hR
  obtain ⟨s1, a1, a2, a3, a4, a5⟩ := runBlocks_dec (E := E) (GCM.subkey E) (chunks 16 P) s 0 i5
  rw [chunks_flat, Nat.zero_add] at a3
  have hne : P ++ L ≠ [] := by intro hh; have := congrArg List.length hh; simp [hL] at this
  simp only [blockSpec, if_neg hne, List.nil_append] at hput
  rw [show (gcmDecWrapped aes).blocksize = 16 from rfl, lazyBlocks_whole (by decide) P L hP hL, a1] at hput
  simp only [SRes.andThen, List.append_nil, i1] at hput
  have hcl : (GCM.crypt E iv P).length = P.length := crypt_length h hb iv P
  rw [show GCM.gctr E (GCM.inc32 (GCM.J0 E iv)) (chunks 16 P) = GCM.crypt E iv P from rfl] at hput
  obtain ⟨t1, b1, r1⟩ := hput (by rw [hcl]; simp; omega)
  rw [List.nil_append] at r1
  -- the first `finish_and_get_tag`
  obtain ⟨t2, b2, r2⟩ := gcmDecFinish_over (by simp [hL]) (by simp only [hL, hcl]; omega) t1 r1
  simp only at b2 r2
  -- `get_string`
  obtain ⟨t3, b3, r3⟩ := hbase.getString r2
  obtain ⟨t3', b3', r3'⟩ := hbase.getString r1
  -- the second `finish_and_get_tag`
  obtain ⟨t4, b4, r4⟩ := gcmDecFinish_fit h hb (by simp [hL]) (by simp only [hL, List.length_nil]; omega) t3 r3
  obtain ⟨t4', b4', r4'⟩ := gcmDecFinish_fit h hb (by simp [hL]) (by simp only [hL, List.length_nil]; omega) t3' r3'
  simp only at b4 b4'
  have hpl : pad16 L = L := by simp [pad16, hL]
  have hdl : 16 ∣ (P ++ L).length := by rw [List.length_append, hL]; omega
  have hdl2 : 16 ∣ (P ++ L ++ L).length := by rw [List.length_append, hL]; omega
  have hc1 : chunks 16 (P ++ L) = chunks 16 P ++ [L] := by
    rw [chunks_append_dvd (by decide) _ _ hP, chunks_one (by decide) hL]
  have hc2 : chunks 16 (P ++ L ++ L) = chunks 16 P ++ [L] ++ [L] := by
    rw [chunks_append_dvd (by decide) _ _ hdl, chunks_one (by decide) hL, hc1]
  have hlen : s1.cipherlen + BitVec.ofNat 64 L.length = BitVec.ofNat 64 (P ++ L).length := by
    rw [a3, List.length_append, BitVec.ofNat_add]
  have habs : absorb (GCM.subkey E) s.mac (chunks 16 P ++ [L])
      = ghashMul (xorb s1.mac L) (GCM.subkey E) := by
    rw [a2]
    simp only [absorb, List.foldl_append, List.foldl_cons, List.foldl_nil, hpl]
  have habs2 : absorb (GCM.subkey E) s.mac (chunks 16 P ++ [L] ++ [L])
      = ghashMul (xorb (ghashMul (xorb s1.mac L) (GCM.subkey E)) L) (GCM.subkey E) := by
    rw [← habs]
    simp only [absorb, List.foldl_append, List.foldl_cons, List.foldl_nil, hpl]
  have hT1 : tagOf (GCM.subkey E) (gcmDecF E (GCM.subkey E) s1 L).st = GCM.tag E iv header (P ++ L) := by
    apply tagOf_eq
    · exact a5.trans i2
    · exact a4.trans i4
    · exact hlen
    · rw [← i3, hc1, habs]
      simp only [gcmDecF, hpl]
  have hT2 : tagOf (GCM.subkey E) (gcmDecF E (GCM.subkey E)
      { s1 with mac := ghashMul (xorb s1.mac (pad16 L)) (GCM.subkey E) } L).st = T := by
    rw [hT]
    apply tagOf_other
    · exact a5.trans i2
    · exact hdl2
    · exact a4.trans i4
    · exact hlen
    · rw [← i3, hc2, habs2]
      simp only [gcmDecF, hpl]
  rw [hT1] at b4'
  rw [hT2] at b4
  have c1 : performAuth (aesGcm env aes .decrypt) (.call (.op (.putString (P ++ L))))
      (cipherInit env (gcmEncWrapped aes) s) = .ok [] t1 := M.bind_ok b1
  have c2 : performAuth (aesGcm env aes .decrypt) .finishAndGetTag t1 = .exn (.error .outputBufferOverflow) t2 := b2
  have c3 : performAuth (aesGcm env aes .decrypt) (.call (.op .getString)) t2 = .ok (GCM.crypt E iv P) t3 := b3
  have c3' : performAuth (aesGcm env aes .decrypt) (.call (.op .getString)) t1 = .ok (GCM.crypt E iv P) t3' := b3'
  have c4 : performAuth (aesGcm env aes .decrypt) .finishAndGetTag t3 = .ok T t4 := b4
  have c4' : performAuth (aesGcm env aes .decrypt) .finishAndGetTag t3'
    = .ok (GCM.tag E iv header (P ++ L)) t4' := b4'
  refine ⟨by simp only [traceBy, c1, c2, c3, c4], by simp only [traceBy, c1, c3', c4'], fun hne hn => ?_⟩
  have := hn t1 (.returned (c := .call (.op (.putString (P ++ L)))) .start trivial (M.bind_ok c1)) _ _ trivial c2
    [.call (.op .getString), .finishAndGetTag]
  simp only [traceBy, c3, c4, c3', c4'] at this
  injection this with _ this
  injection this with this _
  injection this with this
  injection this with this
  exact hne this.symm

/-! ### ChaCha20-Poly1305 -/

/-- The effect of the keystream loop on a string: `none` when the generator reads outside its context. -/
def keyLoop (next : σ → Option (Byte × σ)) : σ → Bytes → Option (Bytes × σ)
  | s, [] => some ([], s)
  | s, b :: bs =>
    match next s with
    | none => none
    | some (kb, s') =>
      match keyLoop next s' bs with
      | none => none
      | some (o, s'') => some ((b ^^^ kb) :: o, s'')

theorem keyLoop_length {next : σ → Option (Byte × σ)} (b : Bytes) : ∀ {s o s'}, keyLoop next s b = some (o, s') →
    o.length = b.length := by
  induction b with
  | nil => intro s o s' h; cases h; rfl
  | cons x b ih =>
    intro s o s' h
    simp only [keyLoop] at h
    split at h
    · cases h
    · split at h
      · cases h
      · rename_i he
        cases h
        simp [ih he]

/-- The loop, in any state of the generator. -/
theorem streamLoop_any (next : σ → Option (Byte × σ)) (src : Bytes) : ∀ (n : Nat) {so dofs : Nat} {s : σ} {dst : Bytes},
    so + n ≤ src.length → dofs + n ≤ dst.length →
    streamLoop next (.other src) so dofs n (s, dst)
      = match keyLoop next s (slice src so n) with
        | none => .ub
        | some (o, s') => .ok () (s', splice dst dofs o) := by
  intro n
  induction n with
  | zero =>
    intro so dofs s dst _ _
    simp [streamLoop, keyLoop]
  | succ n ih =>
    intro so dofs s dst hs hd
    have hsl : slice src so (n + 1) = src[so]'(by omega) :: slice src (so + 1) n := by
      rw [show n + 1 = 1 + n by omega, slice_append_right, slice_one (by omega)]; rfl
    have hr := cRead_ok (b := src) (o := so) (n := 1) (by omega)
    rw [slice_one (by omega)] at hr
    rw [hsl, keyLoop]
    simp only [streamLoop, M.bind_def, M.get_def]
    cases hn : next s with
    | none => rfl
    | some r =>
      obtain ⟨kb, s1⟩ := r
      have hw := cWrite_ok (b := dst) (o := dofs) (x := [src[so]'(by omega) ^^^ kb]) (by simp; omega)
      simp only [M.orUB_some, Src.read_other, hr, List.map_cons, List.map_nil, hw, M.modify_def, Int.natCast_one] at *
      rw [show ((so : Int) + 1) = ((so + 1 : Nat) : Int) by omega,
        show ((dofs : Int) + 1) = ((dofs + 1 : Nat) : Int) by omega,
        ih (so := so + 1) (dofs := dofs + 1) (by omega) (by rw [splice_length (by simp; omega)]; omega)]
      cases hk : keyLoop next s1 (slice src (so + 1) n) with
      | none => rfl
      | some r =>
        obtain ⟨o, s2⟩ := r
        have hol := keyLoop_length _ hk
        rw [slice_length_of_le (by omega)] at hol
        have := splice_splice_append (b := dst) (o := dofs) (x := [src[so]'(by omega) ^^^ kb]) (y := o)
          (by simp; omega)
        simp only [List.length_singleton] at this
        simp only [this]
        rfl

/-- A stream cipher whose effect, on valid arguments and in any state, is `F`; `none` is undefined
behaviour. -/
def StreamDet (c : StreamCipher σ) (F : σ → Bytes → Option (Bytes × σ × Option Exn)) : Prop :=
  ∀ {s : σ} {src dst : Bytes} {so dofs n : Nat}, so + n ≤ src.length → dofs + n ≤ dst.length →
    match F s (slice src so n) with
    | none => c.transform (.other src) so dofs n (s, dst) = .ub
    | some (o, s', none) => o.length = n ∧
        c.transform (.other src) so dofs n (s, dst) = .ok () (s', splice dst dofs o)
    | some (o, s', some e) => o.length = n ∧
        c.transform (.other src) so dofs n (s, dst) = .exn e (s', splice dst dofs o)

/-- Outside the bounds of the source, it has undefined behaviour, or raises without effect. -/
def StreamBad (c : StreamCipher σ) : Prop :=
  ∀ {src : Bytes} {so len : Int}, ¬ InRange src so len →
    (∀ s dst (dofs : Nat), c.transform (.other src) so dofs len (s, dst) = .ub)
    ∨ ∀ s dst (dofs : Nat), c.transform (.other src) so dofs len (s, dst) = .exn .invalidArg (s, dst)

section
variable {env : Env} {c : StreamCipher σ} {F : σ → Bytes → Option (Bytes × σ × Option Exn)}

/-- The abstract states: that of the cipher, and the pending output. -/
def StrRep (env : Env) (t : StreamSt σ) (p : σ × Bytes) : Prop :=
  t.c = p.1 ∧ t.charbuf.length = 1 ∧ OBuf.Rep env t.ob p.2

theorem streamPut_determined (hF : StreamDet c F) (hB : StreamBad c) (b : Bytes) (ofs len : Int) (p : σ × Bytes) :
    Determined (StrRep env) (streamPut env c b ofs len) p := by
  by_cases hfit : len < 0 ∨ (p.2.length : Int) + len ≤ env.maxLen
  · by_cases hr : InRange b ofs len
    · obtain ⟨h1, h2, h3⟩ := hr
      obtain ⟨ofs, rfl⟩ := Int.eq_ofNat_of_zero_le h2
      obtain ⟨len, rfl⟩ := Int.eq_ofNat_of_zero_le h1
      have hpre : ∀ t : StreamSt σ, StrRep env t p → ∃ o', OBuf.ensureCapacity env len t.ob = .ok () o'
          ∧ OBuf.Rep env o' p.2 ∧ o'.oend + len ≤ o'.obuf.length := fun t ht =>
        OBuf.ensureCapacity_ok ht.2.2 len (by omega)
      match hf : F p.1 (slice b ofs len) with
      | none =>
        refine ⟨none, fun t ht => .inl ?_⟩
        obtain ⟨o', e1, r1, l1⟩ := hpre t ht
        have := hF (s := p.1) (src := b) (dst := o'.obuf) (so := ofs) (dofs := o'.oend) (n := len) (by omega) l1
        rw [hf] at this
        simp only [streamPut, bind, M.bind, M.zoom, e1, ht.1, this]
      | some (o, s', none) =>
        refine ⟨some (.ok (), (s', p.2 ++ o)), fun t ht => ?_⟩
        obtain ⟨o', e1, r1, l1⟩ := hpre t ht
        have := hF (s := p.1) (src := b) (dst := o'.obuf) (so := ofs) (dofs := o'.oend) (n := len) (by omega) l1
        rw [hf] at this
        obtain ⟨hol, this⟩ := this
        have hw := r1.write (x := o) (by omega)
        rw [hol] at hw
        refine ⟨{ t with c := s', ob := { o' with obuf := splice o'.obuf o'.oend o, oend := o'.oend + len } },
          ?_, rfl, ht.2.1, hw⟩
        simp only [streamPut, bind, M.bind, M.zoom, e1, ht.1, this, M.modify_def, Int.toNat_natCast]
      | some (o, s', some e) =>
        refine ⟨some (.error e, (s', p.2)), fun t ht => ?_⟩
        obtain ⟨o', e1, r1, l1⟩ := hpre t ht
        have := hF (s := p.1) (src := b) (dst := o'.obuf) (so := ofs) (dofs := o'.oend) (n := len) (by omega) l1
        rw [hf] at this
        obtain ⟨hol, this⟩ := this
        refine ⟨{ t with c := s', ob := { o' with obuf := splice o'.obuf o'.oend o } },
          ?_, rfl, ht.2.1, r1.scratch (by omega)⟩
        simp only [streamPut, bind, M.bind, M.zoom, e1, ht.1, this]
    · rcases hB hr with hB | hB
      · refine ⟨none, fun t ht => .inl ?_⟩
        obtain ⟨o', e1, r1⟩ := ensureCapacity_any ht.2.2 len hfit
        simp only [streamPut, bind, M.bind, M.zoom, e1, hB]
      · refine ⟨some (.error .invalidArg, p), fun t ht => ?_⟩
        obtain ⟨o', e1, r1⟩ := ensureCapacity_any ht.2.2 len hfit
        refine ⟨{ t with ob := o' }, ?_, ht.1, ht.2.1, r1⟩
        simp only [streamPut, bind, M.bind, M.zoom, e1, hB]
  · refine ⟨some (.error (.error .outputBufferOverflow), p), fun t ht => ⟨t, ?_, ht⟩⟩
    obtain ⟨n, rfl⟩ := Int.eq_ofNat_of_zero_le (show 0 ≤ len by omega)
    have := OBuf.ensureCapacity_overflow ht.2.2 n (by omega)
    simp only [streamPut, bind, M.bind, M.zoom, this]

theorem streamPut_keeps (hF : StreamDet c F) (hB : StreamBad c) {P : Exn → Prop}
    (hP : ∀ s b o s' e, F s b = some (o, s', some e) → ¬ P e) (b : Bytes) (ofs len : Int) :
    KeepsWhen (StrRep env) P (streamPut env c b ofs len) := by
  intro p t e t' he ht hm
  by_cases hfit : len < 0 ∨ (p.2.length : Int) + len ≤ env.maxLen
  · by_cases hr : InRange b ofs len
    · exfalso
      obtain ⟨h1, h2, h3⟩ := hr
      obtain ⟨ofs, rfl⟩ := Int.eq_ofNat_of_zero_le h2
      obtain ⟨len, rfl⟩ := Int.eq_ofNat_of_zero_le h1
      obtain ⟨o', e1, r1, l1⟩ := OBuf.ensureCapacity_ok ht.2.2 len (by omega)
      have := hF (s := p.1) (src := b) (dst := o'.obuf) (so := ofs) (dofs := o'.oend) (n := len) (by omega) l1
      match hf : F p.1 (slice b ofs len) with
      | none =>
        rw [hf] at this
        simp only [streamPut, bind, M.bind, M.zoom, e1, ht.1, this] at hm
        cases hm
      | some (o, s', none) =>
        rw [hf] at this
        obtain ⟨hol, this⟩ := this
        simp only [streamPut, bind, M.bind, M.zoom, e1, ht.1, this, M.modify_def] at hm
        cases hm
      | some (o, s', some e2) =>
        rw [hf] at this
        obtain ⟨hol, this⟩ := this
        simp only [streamPut, bind, M.bind, M.zoom, e1, ht.1, this] at hm
        cases hm
        exact hP _ _ _ _ _ hf he
    · obtain ⟨o', e1, r1⟩ := ensureCapacity_any ht.2.2 len hfit
      rcases hB hr with hB | hB
      · simp only [streamPut, bind, M.bind, M.zoom, e1, hB] at hm
        cases hm
      · simp only [streamPut, bind, M.bind, M.zoom, e1, hB] at hm
        cases hm
        exact ⟨ht.1, ht.2.1, r1⟩
  · obtain ⟨n, rfl⟩ := Int.eq_ofNat_of_zero_le (show 0 ≤ len by omega)
    have := OBuf.ensureCapacity_overflow ht.2.2 n (by omega)
    simp only [streamPut, bind, M.bind, M.zoom, this] at hm
    cases hm
    exact ht

theorem streamPutChar_eq {t : StreamSt σ} (hcb : t.charbuf.length = 1) (ch : Byte) :
    streamPutChar env c ch t = streamPut env c [ch] 0 1 { t with charbuf := [ch] } := by
  have hset := bytesSet_ok (b := t.charbuf) (i := 0) (c := ch) (by omega)
  rw [Int.natCast_zero] at hset
  have hc1 : t.charbuf.set 0 ch = [ch] := by
    match hb : t.charbuf, hcb with
    | [x], _ => rfl
  simp only [streamPutChar, M.bind_def, M.get_def, hset, M.orRaise_some, M.modify_def, hc1]

theorem streamPutChar_determined (hF : StreamDet c F) (hB : StreamBad c) (ch : Byte) (p : σ × Bytes) :
    Determined (StrRep env) (streamPutChar env c ch) p := by
  obtain ⟨o, ho⟩ := streamPut_determined (env := env) hF hB [ch] 0 1 p
  refine ⟨o, fun t ht => ?_⟩
  rw [streamPutChar_eq ht.2.1]
  exact ho _ ⟨ht.1, rfl, ht.2.2⟩

theorem streamPutChar_keeps (hF : StreamDet c F) (hB : StreamBad c) {P : Exn → Prop}
    (hP : ∀ s b o s' e, F s b = some (o, s', some e) → ¬ P e) (ch : Byte) :
    KeepsWhen (StrRep env) P (streamPutChar env c ch) := by
  intro p t e t' he ht hm
  rw [streamPutChar_eq ht.2.1] at hm
  exact streamPut_keeps hF hB hP [ch] 0 1 p { t with charbuf := [ch] } e t' he ⟨ht.1, rfl, ht.2.2⟩ hm

/-- A transform with the output methods of `buffered_output` and put methods without effect. -/
def getsOnly (σ : Type) : Transform (StreamSt σ) :=
  inheritBuf (·.ob) (fun o t => { t with ob := o })
    { putSubstring := fun _ _ _ => pure (), putString := fun _ => pure (), putChar := fun _ => pure ()
      putByte := fun _ => pure (), flush := pure (), finish := pure (), wipe := pure () }

theorem getsOnly_refines (env : Env) : Refines (getsOnly σ)
    { put := fun s _ => .ok [] s, flush := fun s => .ok [] s, finish := fun s => .ok [] s } env.maxLen
    (fun t s q => (t.c = s ∧ t.charbuf.length = 1) ∧ OBuf.Rep env t.ob q) := by
  refine inheritBuf_refines (P := fun (t : StreamSt σ) s => t.c = s ∧ t.charbuf.length = 1) ?_ ?_ ?_ ?_ ?_ ?_ ?_ ?_ ?_
  · exact fun h => h
  · exact fun _ _ => rfl
  · exact fun _ => rfl
  · exact fun h _ _ => ⟨_, rfl, h.1, by rw [List.append_nil]; exact h.2⟩
  · exact fun h _ => ⟨_, rfl, h.1, by rw [List.append_nil]; exact h.2⟩
  · exact fun h _ => ⟨_, rfl, h.1, by rw [List.append_nil]; exact h.2⟩
  · exact fun h _ => ⟨_, rfl, h.1, by rw [List.append_nil]; exact h.2⟩
  · exact fun h _ => ⟨_, rfl, h.1, by rw [List.append_nil]; exact h.2⟩
  · exact fun h _ => ⟨_, rfl, h.1, by rw [List.append_nil]; exact h.2⟩

theorem streamGet_determined (c : StreamCipher σ) {o : TOp} (ho : IsGet o) (p : σ × Bytes) :
    Determined (StrRep env) (perform (streamTransform env c) (.op o)) p
    ∧ ∀ P, KeepsWhen (StrRep env) P (perform (streamTransform env c) (.op o)) := by
  have he : perform (streamTransform env c) (.op o) = perform (getsOnly σ) (.op o) := by
    cases o <;> first | rfl | exact ho.elim
  have hR : ∀ {t : StreamSt σ} {p : σ × Bytes}, StrRep env t p
      ↔ ((t.c = p.1 ∧ t.charbuf.length = 1) ∧ OBuf.Rep env t.ob p.2) := fun {t p} => and_assoc.symm
  rw [he]
  refine ⟨?_, fun P p t e t' _ ht hm => hR.2 (get_keeps (getsOnly_refines env) ho p.1 p.2 t e t' (hR.1 ht) hm)⟩
  obtain ⟨x, q', hs⟩ := get_settled (getsOnly_refines (σ := σ) env) ho p.1 p.2
  refine ⟨some (.ok x, (p.1, q')), fun t ht => ?_⟩
  obtain ⟨t', e1, r1⟩ := hs t (hR.1 ht)
  exact ⟨t', e1, hR.2 r1⟩

theorem streamAny_determined (hF : StreamDet c F) (hB : StreamBad c) (x : Call) (p : σ × Bytes) :
    Determined (StrRep env) (perform (streamTransform env c) x) p := by
  have hu : Determined (StrRep env) (M.pure () : M (StreamSt σ) Unit) p :=
    ⟨some (.ok (), p), fun t ht => ⟨t, rfl, ht⟩⟩
  cases x with
  | flush => exact hu.unit
  | finish => exact hu.unit
  | op o =>
    cases o with
    | putSubstring b ofs len => exact (streamPut_determined hF hB b ofs len p).unit
    | putString b => exact (streamPut_determined hF hB b 0 b.length p).unit
    | putChar ch => exact (streamPutChar_determined hF hB ch p).unit
    | putByte ch => exact (streamPutChar_determined hF hB (BitVec.ofInt 8 ch) p).unit
    | getString => exact (streamGet_determined c (o := .getString) trivial p).1
    | getSubstring => exact (streamGet_determined c (o := .getSubstring) trivial p).1
    | getChar => exact (streamGet_determined c (o := .getChar) trivial p).1
    | getByte => exact (streamGet_determined c (o := .getByte) trivial p).1
    | available => exact (streamGet_determined c (o := .available) trivial p).1

theorem streamAny_keeps (hF : StreamDet c F) (hB : StreamBad c) {P : Exn → Prop}
    (hP : ∀ s b o s' e, F s b = some (o, s', some e) → ¬ P e) (x : Call) :
    KeepsWhen (StrRep env) P (perform (streamTransform env c) x) := by
  have hu : KeepsWhen (StrRep env) P (M.pure () : M (StreamSt σ) Unit) := by
    intro p t e t' _ _ hm; cases hm
  cases x with
  | flush => exact hu.unit
  | finish => exact hu.unit
  | op o =>
    cases o with
    | putSubstring b ofs len => exact (streamPut_keeps hF hB hP b ofs len).unit
    | putString b => exact (streamPut_keeps hF hB hP b 0 b.length).unit
    | putChar ch => exact (streamPutChar_keeps hF hB hP ch).unit
    | putByte ch => exact (streamPutChar_keeps hF hB hP (BitVec.ofInt 8 ch)).unit
    | getString => exact fun p => (streamGet_determined c (o := .getString) trivial p).2 P p
    | getSubstring => exact fun p => (streamGet_determined c (o := .getSubstring) trivial p).2 P p
    | getChar => exact fun p => (streamGet_determined c (o := .getChar) trivial p).2 P p
    | getByte => exact fun p => (streamGet_determined c (o := .getByte) trivial p).2 P p
    | available => exact fun p => (streamGet_determined c (o := .available) trivial p).2 P p

end

/-- `cha#transform`, in any state. -/
theorem chapolyCha_any {st : ChaPolySt} {src dst : Bytes} {so dofs n : Nat} (hs : so + n ≤ src.length)
    (hd : dofs + n ≤ dst.length) :
    chapolyCha (.other src) so dofs n (st, dst)
      = match keyLoop chachaNext st.cha (slice src so n) with
        | none => .ub
        | some (o, cha') => .ok () ({ st with cha := cha' }, splice dst dofs o) := by
  have h := streamLoop_any chachaNext src n (s := st.cha) hs hd
  simp only [chapolyCha, M.zoom, chacha20, checkedStream, M.bind_def, M.get_def]
  rw [if_neg (by simp only [Src.read_other]; omega)]
  simp only [M.pure_def, Int.toNat_natCast, h]
  cases keyLoop chachaNext st.cha (slice src so n) with
  | none => rfl
  | some r => rfl

/-- The effect of `transform` of the encryption, in any state. -/
def chapolyEncAny (ivLength : Nat) (st : ChaPolySt) (b : Bytes) : Option (Bytes × ChaPolySt × Option Exn) :=
  match keyLoop chachaNext st.cha b with
  | none => none
  | some (o, cha') =>
    match poly64Update st.h o with
    | none => none
    | some h' => some (o, ⟨cha', h', st.headerlen, st.cipherlen + BitVec.ofNat 64 b.length⟩,
        if (st.cipherlen + BitVec.ofNat 64 b.length).toInt > chapolyMaxlen ivLength
          then some (.error .messageTooLong) else none)

/-- The effect of `transform` of the decryption, in any state. -/
def chapolyDecAny (st : ChaPolySt) (b : Bytes) : Option (Bytes × ChaPolySt × Option Exn) :=
  match poly64Update st.h b with
  | none => none
  | some h' =>
    match keyLoop chachaNext st.cha b with
    | none => none
    | some (o, cha') => some (o, ⟨cha', h', st.headerlen, st.cipherlen + BitVec.ofNat 64 b.length⟩, none)

theorem polyUpdate_any {h : PolyCtx} {b : Bytes} {ofs n : Nat} (ho : ofs + n ≤ b.length) :
    polyUpdate h b ofs n = poly64Update h (slice b ofs n) := by
  rw [polyUpdate, if_neg (by omega), Int.toNat_natCast, cRead_ok ho]

theorem chapolyEnc_det (ivLength : Nat) : StreamDet (chapolyEnc ivLength) (chapolyEncAny ivLength) := by
  intro st src dst so dofs n hs hd
  have hsl : (slice src so n).length = n := slice_length_of_le hs
  have h1 := chapolyCha_any (st := st) (dst := dst) hs hd
  cases hk : keyLoop chachaNext st.cha (slice src so n) with
  | none =>
    rw [hk] at h1
    simp only [chapolyEncAny, hk, chapolyEnc, M.bind_def, h1]
  | some r =>
    obtain ⟨o, cha'⟩ := r
    rw [hk] at h1
    have hol := keyLoop_length _ hk
    rw [hsl] at hol
    have h2 : polyUpdate st.h (splice dst dofs o) dofs n = poly64Update st.h o := by
      rw [polyUpdate_any (by rw [splice_length (by omega)]; omega), slice_splice_same' hol (by omega)]
    cases hu : poly64Update st.h o with
    | none =>
      simp only [chapolyEncAny, hk, hu, chapolyEnc, M.bind_def, h1, M.get_def, chapolyHash, h2]
      rfl
    | some h' =>
      simp only [chapolyEncAny, hk, hu, hsl, chapolyEnc, M.bind_def, h1, M.get_def, chapolyHash, h2, M.orUB_some,
        M.modify_def, chapolyCount, BitVec.ofInt_natCast]
      by_cases hc : (st.cipherlen + BitVec.ofNat 64 n).toInt > chapolyMaxlen ivLength
      · simp only [if_pos hc]
        exact ⟨hol, rfl⟩
      · simp only [if_neg hc]
        exact ⟨hol, rfl⟩

theorem chapolyDec_det : StreamDet chapolyDec chapolyDecAny := by
  intro st src dst so dofs n hs hd
  have hsl : (slice src so n).length = n := slice_length_of_le hs
  have h2 := polyUpdate_any (h := st.h) hs
  cases hu : poly64Update st.h (slice src so n) with
  | none =>
    rw [hu] at h2
    simp only [chapolyDecAny, hu, chapolyDec, M.bind_def, M.get_def, chapolyHash, Src.read_other, h2]
    rfl
  | some h' =>
    rw [hu] at h2
    have h1 := chapolyCha_any (st := { st with h := h' }) (dst := dst) hs hd
    simp only at h1
    cases hk : keyLoop chachaNext st.cha (slice src so n) with
    | none =>
      rw [hk] at h1
      simp only [chapolyDecAny, hu, hk, chapolyDec, M.bind_def, M.get_def, chapolyHash, Src.read_other, h2,
        M.orUB_some, M.modify_def, h1]
    | some r =>
      obtain ⟨o, cha'⟩ := r
      rw [hk] at h1
      have hol := keyLoop_length _ hk
      rw [hsl] at hol
      simp only [chapolyDecAny, hu, hk, hsl, chapolyDec, M.bind_def, M.get_def, chapolyHash, Src.read_other, h2,
        M.orUB_some, M.modify_def, h1, chapolyCount, BitVec.ofInt_natCast]
      exact ⟨hol, trivial⟩

theorem chapolyEnc_bad (ivLength : Nat) : StreamBad (chapolyEnc ivLength) := by
  intro src so len hr
  refine .inr fun s dst dofs => ?_
  have hbad : len < 0 ∨ so < 0 ∨ so > (src.length : Int) - len
      ∨ ((dofs : Int) < 0) ∨ (dofs : Int) > (dst.length : Int) - len := by
    unfold InRange at hr
    omega
  have htr : chacha20.transform (.other src) so dofs len (s.cha, dst) = .exn .invalidArg (s.cha, dst) := by
    simp only [chacha20, checkedStream, M.bind_def, M.get_def]
    rw [if_pos (by exact hbad)]; rfl
  simp only [chapolyEnc, M.bind_def, chapolyCha, M.zoom, htr]

theorem chapolyDec_bad : StreamBad chapolyDec := by
  intro src so len hr
  refine .inl fun s dst dofs => ?_
  have : polyUpdate s.h src so len = none := by
    unfold polyUpdate
    split
    · rfl
    · rw [cRead, if_neg (by unfold InRange at hr ⊢; omega)]
  simp only [chapolyDec, M.bind_def, M.get_def, chapolyHash, Src.read_other, this]
  rfl

theorem chapolyFinish_determined (env : Env) (p : ChaPolySt × Bytes) :
    Determined (StrRep env) (chapolyFinish env) p := by
  cases hf : polyFinishAndGetTag env p.1 with
  | ok x s' =>
    refine ⟨some (.ok x, (s', p.2)), fun t ht => ⟨{ t with c := s' }, ?_, rfl, ht.2⟩⟩
    simp only [chapolyFinish, M.zoom, ht.1, hf]
  | exn e s' =>
    refine ⟨some (.error e, (s', p.2)), fun t ht => ⟨{ t with c := s' }, ?_, rfl, ht.2⟩⟩
    simp only [chapolyFinish, M.zoom, ht.1, hf]
  | ub =>
    refine ⟨none, fun t ht => .inl ?_⟩
    simp only [chapolyFinish, M.zoom, ht.1, hf]
  | loop =>
    refine ⟨none, fun t ht => .inr ?_⟩
    simp only [chapolyFinish, M.zoom, ht.1, hf]

theorem chapolyFinish_keeps (env : Env) (P : Exn → Prop) : KeepsWhen (StrRep env) P (chapolyFinish env) := by
  intro p t e t' _ ht hm
  exfalso
  obtain ⟨b1, e2, e3⟩ := setInt64LE_two (env.create 16) (by simp) t.c.headerlen t.c.cipherlen
  simp only [chapolyFinish, M.zoom, polyFinishAndGetTag, M.bind_def, M.get_def] at hm
  cases hp : polyUpdatePad t.c.h (t.c.cipherlen.toNat % 16) with
  | none => simp [hp, M.orUB, M.undef] at hm
  | some h1 =>
    simp only [hp, M.orUB_some, e2, e3, M.orRaise_some] at hm
    cases hu : polyUpdate h1 (toLE64 t.c.headerlen ++ toLE64 t.c.cipherlen) 0 16 with
    | none => simp [hu, M.orUB, M.undef] at hm
    | some h2 =>
      simp only [hu, M.orUB_some] at hm
      cases hl : poly64Final h2 with
      | none => simp [hl, M.orUB, M.undef] at hm
      | some r => simp [hl, M.modify_def] at hm

/-- C86, ChaCha20-Poly1305 encryption, for the exceptions other than `Message_too_long`. -/
theorem C86_chapoly_encrypt_partial {env : Env} {header iv key : Bytes} {t0 : StreamSt ChaPolySt}
    (h0 : chacha20Poly1305Init env header iv key = .ok t0 ()) (hm : 256 ≤ env.maxLen) (x : AuthCall) :
    NoEffectBy (performAuth (chacha20Poly1305 env iv.length .encrypt)) t0 x notTooLong := by
  have hR : ∃ p, StrRep env t0 p := by
    simp only [chacha20Poly1305Init] at h0
    split at h0
    · cases h0
      exact ⟨(_, []), rfl, rfl, (genRep_init (At := fun s (p : Unit) => True) (a := ()) env hm trivial).2⟩
    all_goals cases h0
  refine noEffectBy_of_keeps (fun x p _ => ?_) hR ?_
  · cases x with
    | call c => exact streamAny_determined (chapolyEnc_det iv.length) (chapolyEnc_bad iv.length) c p
    | finishAndGetTag => exact chapolyFinish_determined env p
  · cases x with
    | call c =>
      refine streamAny_keeps (chapolyEnc_det iv.length) (chapolyEnc_bad iv.length) (fun s b o s' e he hP => hP ?_) c
      simp only [chapolyEncAny] at he
      split at he
      · cases he
      · split at he
        · cases he
        · simp only [Option.some.injEq, Prod.mk.injEq] at he
          obtain ⟨_, _, he⟩ := he
          split at he
          · cases he; rfl
          · cases he
    | finishAndGetTag => exact chapolyFinish_keeps env notTooLong

/-- C86, ChaCha20-Poly1305 decryption. -/
theorem C86_chapoly_decrypt {env : Env} {header iv key : Bytes} {t0 : StreamSt ChaPolySt}
    (h0 : chacha20Poly1305Init env header iv key = .ok t0 ()) (hm : 256 ≤ env.maxLen) (x : AuthCall) :
    NoEffectBy (performAuth (chacha20Poly1305 env iv.length .decrypt)) t0 x anyExn := by
  have hR : ∃ p, StrRep env t0 p := by
    simp only [chacha20Poly1305Init] at h0
    split at h0
    · cases h0
      exact ⟨(_, []), rfl, rfl, (genRep_init (At := fun s (p : Unit) => True) (a := ()) env hm trivial).2⟩
    all_goals cases h0
  refine noEffectBy_of_keeps (fun x p _ => ?_) hR ?_
  · cases x with
    | call c => exact streamAny_determined chapolyDec_det chapolyDec_bad c p
    | finishAndGetTag => exact chapolyFinish_determined env p
  · cases x with
    | call c =>
      refine streamAny_keeps chapolyDec_det chapolyDec_bad (fun s b o s' e he hP => ?_) c
      simp only [chapolyDecAny] at he
      split at he
      · cases he
      · split at he
        · cases he
        · simp only [Option.some.injEq, Prod.mk.injEq] at he
          cases he.2.2
    | finishAndGetTag => exact chapolyFinish_keeps env anyExn

/-! ### Non-vacuity -/

namespace Example

/-- Strings of at most 256 bytes. -/
def env256 : Env := { maxLen := 256, junk := fun _ => 0 }

/-- The tag that the second call of `finish_and_get_tag` returns is wrong. -/
example : ∃ t0, aesGcmInit env256 true gcmToyEnc gcmKey [1, 2] (List.replicate 12 9) = .ok t0 gcmKey
    ∧ ¬ NoEffectBy (performAuth (aesGcm env256 gcmToyEnc .decrypt)) t0 .finishAndGetTag anyExn := by
  obtain ⟨s, e0, _⟩ := gcmInit_ok env256 true gcmToyEnc_pure rfl [1, 2] (List.replicate 12 9)
  have h0 : aesGcmInit env256 true gcmToyEnc gcmKey [1, 2] (List.replicate 12 9)
      = .ok (cipherInit env256 (gcmEncWrapped gcmToyEnc) s) gcmKey := by simp only [aesGcmInit, e0]
  refine ⟨_, h0, (C86_gcm_decrypt_finish gcmToyEnc_pure rfl (by decide) h0 (List.replicate 256 0)
    (List.replicate 16 1) (by rw [List.length_replicate]; decide) rfl
    (by rw [List.length_replicate]; decide) (by rw [List.length_replicate]; decide) rfl).2.2 ?_⟩
  decide +kernel

/-- A call that raises, on ChaCha20-Poly1305. -/
example (b : Bytes) (hb : b.length = 257) : ∃ t0 t', chacha20Poly1305Init env256 [1] (List.replicate 12 9) (List.replicate 32 7) = .ok t0 ()
    ∧ performAuth (chacha20Poly1305 env256 12 .decrypt) (.call (.op (.putString b))) t0
      = .exn (.error .outputBufferOverflow) t' := by
  obtain ⟨st, e0, hA⟩ := chapolyInit_ok (key := List.replicate 32 7) (iv := List.replicate 12 9) (.inr rfl) (.inr rfl)
    env256 [1]
  have hob := (genRep_init (At := fun s (p : Unit) => True) (s := st) (a := ()) env256 (by decide) trivial).2
  have h1 := OBuf.ensureCapacity_overflow hob 257 (by decide)
  refine ⟨_, streamInit env256 st, e0, M.bind_exn ?_⟩
  show streamPut env256 _ b 0 (b.length : Int) _ = _
  rw [hb]
  simp only [streamPut, bind, M.bind, M.zoom, h1]

end Example

end Verif
