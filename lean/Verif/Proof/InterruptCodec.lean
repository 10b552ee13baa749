import Verif.Proof.Interrupt
import Verif.Model.InterruptCodec
/-
Safety of the interruptible `Base64` and `Hexa`.
-/
namespace Verif

open Spec

variable {κ : Type} [Ticking κ]

namespace Codec

theorem any_stable : TickStable (fun _ : κ => True) := fun _ _ => trivial

/-- A point changes nothing but the interruptions to come. -/
theorem bind_poll {I : τ → Prop} {k : Unit → M (κ × τ) β} {s : κ × τ} {R : β → κ × τ → Prop} (h : I s.2)
    (hk : ∀ s' : κ, (k () (s', s.2)).Post R (fun _ p => I p.2)) :
    ((poll >>= k) s).Post R (fun _ p => I p.2) :=
  Post.bind_poll (P := fun t => t.2 = s.2) rfl (fun _ _ x => x ▸ h)
    (by rintro ⟨s', t⟩ x; cases x; exact hk s')

theorem end_poll {I : τ → Prop} {s : κ × τ} (h : I s.2) :
    ((poll : M (κ × τ) Unit) s).Post (fun _ p => I p.2) (fun _ p => I p.2) :=
  Post.poll (P := fun t => t.2 = s.2) rfl (fun _ _ x => x ▸ h) (fun _ x => x ▸ h)

theorem setsI_safe : ∀ (cs : Bytes) (i : Nat) (s : κ) (o : OBuf), o.Weak →
    ((OBuf.setsI i cs : M (κ × OBuf) Unit) (s, o)).Post
      (fun _ p => p.2.Weak ∧ p.2.oend = o.oend ∧ p.2.obuf.length = o.obuf.length) (fun _ p => p.2.Weak)
  | [], i, s, o, h => by
    refine Post.poll (P := fun t => t.2 = o) rfl (fun _ _ x => x ▸ h) (fun t x => ?_)
    subst x; exact ⟨h, rfl, rfl⟩
  | c :: cs, i, s, o, h => by
    refine bind_poll (I := OBuf.Weak) h ?_
    intro s'
    refine Post.bind_get (s := (s', o)) ?_
    refine Post.bind_orRaise h ?_
    intro b hb
    refine Post.bind_modify (s := (s', o)) ?_
    have hl := bytesSet_length hb
    have hw : OBuf.Weak { o with obuf := b } := ⟨by have := h.pos; simp only; omega, by have := h.le; simp only; omega⟩
    refine Post.mono (setsI_safe cs (i + 1) s' _ hw) ?_ (fun _ _ x => x)
    rintro - p ⟨h1, h2, h3⟩
    exact ⟨h1, h2, by simp only at h3; omega⟩

theorem emitI_safe (env : Env) (cs : Bytes) (p : κ × OBuf) (h : p.2.Weak) :
    ((OBuf.emitI env cs : M (κ × OBuf) Unit) p).Post (fun _ p => p.2.Weak) (fun _ p => p.2.Weak) := by
  unfold OBuf.emitI
  refine Post.bind (Post.mono (OBuf.ensureCapacityI_safe any_stable env cs.length p ⟨trivial, h⟩)
    (fun _ _ x => x) (fun _ _ x => x.2)) ?_
  rintro - ⟨s1, o1⟩ ⟨⟨-, h1⟩, h2⟩
  refine Post.bind (setsI_safe cs 0 s1 o1 h1) ?_
  rintro - ⟨s2, o2⟩ ⟨g1, g2, g3⟩
  refine Post.bind_modify (s := (s2, o2)) ?_
  refine end_poll (I := OBuf.Weak) ?_
  simp only at g1 g2 g3 h2
  exact ⟨g1.pos, by simp only; omega⟩

theorem bind_self {k : τ → M (κ × τ) β} {p : κ × τ} {R : β → κ × τ → Prop} {E : Exn → κ × τ → Prop}
    (h : (k p.2 p).Post R E) : ((self >>= k) p).Post R E := h

theorem post_ite {c : Prop} [Decidable c] {m k : M σ α} {s : σ} {R : α → σ → Prop} {E : Exn → σ → Prop}
    (h1 : c → (m s).Post R E) (h2 : ¬ c → (k s).Post R E) : ((if c then m else k) s).Post R E := by
  by_cases h : c
  · rw [if_pos h]; exact h1 h
  · rw [if_neg h]; exact h2 h

/-- Objects with an output buffer. -/
structure Lens (get : τ → OBuf) (set : OBuf → τ → τ) (I : τ → Prop) : Prop where
  weak : ∀ t, I t → (get t).Weak
  put : ∀ t o, I t → o.Weak → I (set o t)

variable {get : τ → OBuf} {set : OBuf → τ → τ} {I : τ → Prop}

theorem outI_safe (L : Lens get set I) {m : M (κ × OBuf) α} {p : κ × τ} (hp : I p.2)
    (h : ∀ q : κ × OBuf, q.2.Weak → (m q).Post (fun _ p => p.2.Weak) (fun _ p => p.2.Weak)) :
    (outI get set m p).Post (fun _ p => I p.2) (fun _ p => I p.2) :=
  Post.zoom (h (p.1, get p.2) (L.weak _ hp)) (fun _ _ x => L.put _ _ hp x) (fun _ _ x => L.put _ _ hp x)

theorem buf_safe {m : M (κ × OBuf) α}
    (h : ∀ q : κ × OBuf, OBuf.WeakI (fun _ => True) q →
      (m q).Post (fun _ => OBuf.WeakI fun _ => True) (fun _ => OBuf.WeakI fun _ => True))
    (q : κ × OBuf) (hq : q.2.Weak) : (m q).Post (fun _ p => p.2.Weak) (fun _ p => p.2.Weak) :=
  Post.mono (h q ⟨trivial, hq⟩) (fun _ _ x => x.2) (fun _ _ x => x.2)

/-- `m` keeps `I`, whether it returns or raises an exception. -/
def Keeps (I : τ → Prop) (m : M (κ × τ) α) : Prop :=
  ∀ p, I p.2 → (m p).Post (fun _ p => I p.2) (fun _ p => I p.2)

theorem Keeps.discard {m : M (κ × τ) α} (h : Keeps I m) : Keeps I (Spec.discard m) :=
  fun p hp => Post.bind (h p hp) fun _ _ x => x

theorem putLoop_keeps {put : Byte → M (κ × τ) Unit} (h : ∀ c, Keeps I (put c)) (s : Bytes) :
    ∀ (n : Nat) (i : Int), Keeps I (putLoop put s i n)
  | 0, _ => fun _ hp => hp
  | n + 1, i => fun p hp => by
    unfold putLoop
    refine Post.bind_orRaise hp fun c _ => ?_
    exact Post.bind (h c p hp) fun _ p hp => putLoop_keeps h s n (i + 1) p hp

theorem iterChars_keeps {put : Byte → M (κ × τ) Unit} (h : ∀ c, Keeps I (put c)) :
    ∀ s : Bytes, Keeps I (iterChars put s)
  | [] => fun _ hp => hp
  | c :: s => fun p hp => Post.bind (h c p hp) fun _ p hp => iterChars_keeps h s p hp

theorem putByteChr_keeps {put : Byte → M (κ × τ) Unit} (h : ∀ c, Keeps I (put c)) (b : Int) :
    Keeps I (putByteChr put b) := fun p hp => by
  unfold putByteChr
  exact Post.bind_orRaise hp fun c _ => h c p hp

/-- Every call keeps `I`. -/
theorem invoke_keeps (L : Lens get set I) {put : Byte → M (κ × τ) Unit} {putByte : Int → M (κ × τ) Unit}
    {flush finish wipe : M (κ × τ) Unit} (h1 : ∀ c, Keeps I (put c)) (h2 : ∀ b, Keeps I (putByte b))
    (h3 : Keeps I flush) (h4 : Keeps I finish) (h5 : Keeps I wipe) (c : TCall) :
    Keeps I (invoke (inheritI get set (charMethods put putByte flush finish wipe)) c) := by
  cases c with
  | flush => exact h3
  | finish => exact h4
  | buf c =>
    cases c with
    | putSubstring b ofs len => exact putLoop_keeps h1 _ _ _
    | putString s => exact iterChars_keeps h1 s
    | putChar c => exact h1 c
    | putByte b => exact h2 b
    | availableOutput =>
      exact Keeps.discard fun _ hp => outI_safe L hp (buf_safe (OBuf.availableOutputI_safe any_stable))
    | getString => exact Keeps.discard fun _ hp => outI_safe L hp (buf_safe (OBuf.getStringI_safe any_stable))
    | getSubstring =>
      exact Keeps.discard fun _ hp => outI_safe L hp (buf_safe (OBuf.getSubstringI_safe any_stable))
    | getChar => exact Keeps.discard fun _ hp => outI_safe L hp (buf_safe (OBuf.getCharI_safe any_stable))
    | getByte => exact Keeps.discard fun _ hp => outI_safe L hp (buf_safe (OBuf.getByteI_safe any_stable))
    | wipe => exact h5

theorem reach {run : TCall → M (κ × τ) Unit} (h : ∀ c, Keeps I (run c)) {t0 t : κ × τ}
    (hr : Reachable run anyCall t0 t) (h0 : I t0.2) : I t.2 := by
  induction hr with
  | start => exact h0
  | @returned t t' c _ _ hc ih => have := h c t ih; rw [hc] at this; exact this
  | @raised t t' c e _ _ hc ih => have := h c t ih; rw [hc] at this; exact this

theorem memorySafe {run : TCall → M (κ × τ) Unit} (h : ∀ c, Keeps I (run c)) {t0 : κ × τ} (h0 : I t0.2) :
    MemorySafe run anyCall t0 := by
  intro t hr c _
  have := h c t (reach h hr h0)
  cases hc : run c t with
  | ok a t' => exact .inl ⟨t', rfl⟩
  | exn e t' => exact .inr ⟨e, t', rfl⟩
  | ub => rw [hc] at this; exact this.elim
  | loop => rw [hc] at this; exact this.elim

end Codec

open Codec

namespace B64

/-- Invariant of the encoder: `q` is about the position and the size of the input buffer. -/
def EncI (q : Nat → Nat → Prop) (t : Enc) : Prop := t.ob.Weak ∧ q t.ipos t.ibuf.length

variable {q : Nat → Nat → Prop}

theorem encLens : Lens (·.ob) (fun o (t : Enc) => { t with ob := o }) (EncI q) :=
  ⟨fun _ h => h.1, fun _ _ h ho => ⟨ho, h.2⟩⟩

theorem encEmit (env : Env) (cs : Bytes) : Keeps (κ := κ) (EncI q) (Enc.outI (OBuf.emitI env cs)) :=
  fun _ hp => outI_safe encLens hp (emitI_safe env cs)

theorem encWipeI_keeps : Keeps (κ := κ) (EncI q) encWipeI := fun p hp => by
  refine bind_poll (I := EncI q) hp fun s => ?_
  refine Post.bind_modify (s := (s, p.2)) ?_
  refine outI_safe encLens (I := EncI q) ⟨hp.1, ?_⟩ (buf_safe (OBuf.wipeI_safe any_stable))
  simpa using hp.2

theorem encRestI_keeps (p : κ × Enc) (I : Enc → Prop) (hp : I p.2) :
    ((encRestI : M (κ × Enc) Bytes) p).Post (fun _ p => I p.2) (fun _ p => I p.2) := by
  refine Post.zoom (Q := fun _ t => t = p.2) (E := fun _ t => t = p.2) ?_ (fun _ s x => by subst x; exact hp)
    (fun _ s x => by subst x; exact hp)
  obtain ⟨k, ib, ip, oc, ob⟩ := p
  match ip with
  | 0 => exact rfl
  | 1 => exact Post.bind_orRaise rfl fun _ _ => Post.orRaise rfl fun _ _ => rfl
  | 2 =>
    exact Post.bind_orRaise rfl fun _ _ => Post.bind_orRaise rfl fun _ _ => Post.orRaise rfl fun _ _ => rfl
  | n + 3 => exact rfl

theorem encFinishI_keeps (env : Env) (m pd : Bool) : Keeps (κ := κ) (EncI q) (encFinishI env m pd) := fun p hp => by
  refine bind_poll (I := EncI q) hp fun s => ?_
  refine Post.bind (encRestI_keeps (s, p.2) (EncI q) hp) ?_
  intro cs p hp
  refine Post.bind (encEmit env cs p hp) fun _ p hp => ?_
  refine Post.bind (Q := fun _ (p : κ × Enc) => EncI q p.2)
    (bind_self (post_ite (fun _ => encEmit env _ p hp) fun _ => hp)) ?_
  intro _ p hp
  refine Post.bind (Q := fun _ (p : κ × Enc) => EncI q p.2)
    (bind_self (post_ite (fun _ => encEmit env _ p hp) fun _ => hp)) ?_
  intro _ p hp
  refine Post.bind_modify ?_
  exact end_poll (I := EncI q) ⟨hp.1, hp.2⟩

/-- Nothing about the position. -/
abbrev anyPos : Nat → Nat → Prop := fun _ _ => True

theorem encGroupI_keeps (env : Env) (m : Bool) : Keeps (κ := κ) (EncI anyPos) (encGroupI env m) := fun p hp => by
  unfold encGroupI
  refine bind_self ?_
  refine Post.bind_orRaise hp fun _ _ => Post.bind_orRaise hp fun _ _ => Post.bind_orRaise hp fun _ _ =>
    Post.bind_orRaise hp fun cs _ => ?_
  refine Post.bind (encEmit env cs p hp) fun _ p hp => ?_
  refine Post.bind_modify ?_
  refine bind_poll (I := EncI anyPos) ⟨hp.1, trivial⟩ fun s => ?_
  refine Post.bind_modify ?_
  refine bind_poll (I := EncI anyPos) ⟨hp.1, trivial⟩ fun s => ?_
  refine bind_self ?_
  refine post_ite (fun _ => ?_) fun _ => ⟨hp.1, trivial⟩
  refine Post.bind (encEmit env _ _ ⟨hp.1, trivial⟩) fun _ p hp => ?_
  refine Post.bind_modify ?_
  exact end_poll (I := EncI anyPos) ⟨hp.1, trivial⟩

theorem encPutCharI_keeps (env : Env) (m : Bool) (c : Byte) :
    Keeps (κ := κ) (EncI anyPos) (encPutCharI env m c) := fun p hp => by
  refine bind_poll (I := EncI anyPos) hp fun s => ?_
  refine bind_self ?_
  refine Post.bind_orRaise hp fun ib _ => ?_
  refine Post.bind_modify ?_
  refine bind_poll (I := EncI anyPos) ⟨hp.1, trivial⟩ fun s => ?_
  refine Post.bind_modify ?_
  refine bind_poll (I := EncI anyPos) ⟨hp.1, trivial⟩ fun s => ?_
  refine bind_self ?_
  exact post_ite (fun _ => encGroupI_keeps env m _ ⟨hp.1, trivial⟩) fun _ => ⟨hp.1, trivial⟩

/-- The input buffer is full. -/
abbrev full : Nat → Nat → Prop := fun i l => l ≤ i

/-- An encoder whose input buffer is full takes nothing. -/
theorem encPutCharI_full (env : Env) (m : Bool) (c : Byte) (p : κ × Enc) (hp : EncI full p.2) :
    (encPutCharI env m c p).Post (fun _ _ => False) (fun _ p => EncI full p.2) := by
  refine bind_poll (I := EncI full) hp fun s => ?_
  refine bind_self ?_
  refine Post.bind_orRaise hp fun ib hb => ?_
  exfalso
  unfold bytesSet at hb
  split at hb
  · have : p.2.ibuf.length ≤ p.2.ipos := hp.2
    have hb1 : (p.2.ipos : Int) < p.2.ibuf.length := by next h => exact h.2
    omega
  · cases hb

theorem encodeI_keeps (env : Env) (m pd : Bool) (c : TCall) :
    Keeps (κ := κ) (EncI anyPos) (invoke (encodeI env m pd) c) :=
  invoke_keeps encLens (encPutCharI_keeps env m) (putByteChr_keeps (encPutCharI_keeps env m)) (fun _ h => by exact h)
    (encFinishI_keeps env m pd) encWipeI_keeps c

theorem encodeI_full (env : Env) (m pd : Bool) (c : TCall) :
    Keeps (κ := κ) (EncI full) (invoke (encodeI env m pd) c) := by
  have h : ∀ c, Keeps (κ := κ) (EncI full) (encPutCharI env m c) :=
    fun c p hp => Post.mono (encPutCharI_full env m c p hp) (fun _ _ x => x.elim) fun _ _ x => x
  exact invoke_keeps encLens h (putByteChr_keeps h) (fun _ h => by exact h) (encFinishI_keeps env m pd) encWipeI_keeps c

/-- Invariant of the decoder. -/
def DecI (q : Nat → Nat → Prop) (t : Dec) : Prop := t.ob.Weak ∧ q t.ipos t.ibuf.length

theorem decLens : Lens (·.ob) (fun o (t : Dec) => { t with ob := o }) (DecI q) :=
  ⟨fun _ h => h.1, fun _ _ h ho => ⟨ho, h.2⟩⟩

theorem decEmit (env : Env) (cs : Bytes) : Keeps (κ := κ) (DecI q) (Dec.outI (OBuf.emitI env cs)) :=
  fun _ hp => outI_safe decLens hp (emitI_safe env cs)

theorem decWipeI_keeps : Keeps (κ := κ) (DecI q) decWipeI := fun p hp => by
  refine bind_poll (I := DecI q) hp fun s => ?_
  refine Post.bind_modify (s := (s, p.2)) ?_
  refine outI_safe decLens (I := DecI q) ⟨hp.1, ?_⟩ (buf_safe (OBuf.wipeI_safe any_stable))
  simpa using hp.2

theorem decFinishI_keeps (env : Env) : Keeps (κ := κ) (DecI q) (decFinishI env) := fun p hp => by
  refine bind_poll (I := DecI q) hp fun s => ?_
  refine Post.bind_modify (s := (s, p.2)) ?_
  refine bind_poll (I := DecI q) ⟨hp.1, hp.2⟩ fun s => ?_
  refine Post.bind (Q := fun _ p => DecI q p.2) ?_ fun cs p hp => decEmit env cs p hp
  refine Post.zoom (Q := fun _ t => DecI q t) (E := fun _ t => DecI q t) ?_ (fun _ s x => x) (fun _ s x => x)
  obtain ⟨k, ib, ip, fi, ob⟩ := p
  have hi : DecI q ⟨ib, ip, true, ob⟩ := ⟨hp.1, hp.2⟩
  match ip, hi with
  | 0, hi => exact hi
  | 1, hi => exact hi
  | 2, hi =>
    exact Post.bind_orRaise hi fun _ _ => Post.bind_orRaise hi fun _ _ => Post.bind_orRaise hi fun _ _ => hi
  | 3, hi =>
    exact Post.bind_orRaise hi fun _ _ => Post.bind_orRaise hi fun _ _ => Post.bind_orRaise hi fun _ _ =>
      Post.bind_orRaise hi fun _ _ => Post.bind_orRaise hi fun _ _ => hi
  | n + 4, hi => exact hi

theorem decGroupI_keeps (env : Env) : Keeps (κ := κ) (DecI anyPos) (decGroupI env) := fun p hp => by
  unfold decGroupI
  refine bind_self ?_
  refine Post.bind_orRaise hp fun _ _ => Post.bind_orRaise hp fun _ _ => Post.bind_orRaise hp fun _ _ =>
    Post.bind_orRaise hp fun _ _ => Post.bind_orRaise hp fun _ _ => Post.bind_orRaise hp fun _ _ =>
    Post.bind_orRaise hp fun _ _ => ?_
  refine Post.bind (decEmit env _ p hp) fun _ p hp => ?_
  refine Post.bind_modify ?_
  exact end_poll (I := DecI anyPos) ⟨hp.1, trivial⟩

theorem decDigitI_keeps (env : Env) (n : Int) : Keeps (κ := κ) (DecI anyPos) (decDigitI env n) := fun p hp => by
  unfold decDigitI
  refine bind_self ?_
  refine post_ite (fun _ => hp) fun _ => post_ite (fun _ => hp) fun _ => ?_
  refine Post.bind_modify ?_
  refine bind_poll (I := DecI anyPos) ⟨hp.1, trivial⟩ fun s => ?_
  refine Post.bind_modify ?_
  refine bind_poll (I := DecI anyPos) ⟨hp.1, trivial⟩ fun s => ?_
  refine bind_self ?_
  exact post_ite (fun _ => decGroupI_keeps env _ ⟨hp.1, trivial⟩) fun _ => ⟨hp.1, trivial⟩

theorem decDigitI_full (env : Env) (n : Int) (p : κ × Dec) (hp : DecI full p.2) :
    (decDigitI env n p).Post (fun _ _ => False) (fun _ p => DecI full p.2) := by
  unfold decDigitI
  refine bind_self ?_
  exact post_ite (fun _ => hp) fun _ => post_ite (fun _ => hp) fun h => (h hp.2).elim

theorem decPutCharI_keeps {q : Nat → Nat → Prop} (env : Env) (h : ∀ n, Keeps (κ := κ) (DecI q) (decDigitI env n))
    (c : Byte) : Keeps (κ := κ) (DecI q) (decPutCharI env c) := fun p hp => by
  refine bind_poll (I := DecI q) hp fun s => ?_
  split
  · refine Post.bind_modify ?_
    exact end_poll (I := DecI q) ⟨hp.1, hp.2⟩
  · refine Post.bind_ofExcept (fun _ _ => hp) fun n _ => ?_
    split
    · exact h n _ hp
    · exact hp

/-- A decoder whose input buffer is full takes no digit. -/
theorem decPutCharI_full (env : Env) {c : Byte} {n : Int} (hc : c ≠ 61) (hd : decodeChar c = .ok n) (hn : 0 ≤ n)
    (p : κ × Dec) (hp : DecI full p.2) :
    (decPutCharI env c p).Post (fun _ _ => False) (fun _ p => DecI full p.2) := by
  refine bind_poll (I := DecI full) hp fun s => ?_
  split
  · next h => exact (hc h).elim
  · refine Post.bind_ofExcept (fun _ _ => hp) fun n' h' => ?_
    rw [hd] at h'
    cases h'
    rw [if_pos hn]
    exact decDigitI_full env n _ hp

theorem decodeI_keeps (env : Env) (c : TCall) : Keeps (κ := κ) (DecI anyPos) (invoke (decodeI env) c) :=
  invoke_keeps decLens (decPutCharI_keeps env (decDigitI_keeps env))
    (putByteChr_keeps (decPutCharI_keeps env (decDigitI_keeps env))) (fun _ h => by exact h)
    (decFinishI_keeps env) decWipeI_keeps c

theorem decodeI_full (env : Env) (c : TCall) : Keeps (κ := κ) (DecI full) (invoke (decodeI env) c) := by
  have h : ∀ n, Keeps (κ := κ) (DecI full) (decDigitI env n) :=
    fun n p hp => Post.mono (decDigitI_full env n p hp) (fun _ _ x => x.elim) fun _ _ x => x
  exact invoke_keeps decLens (decPutCharI_keeps env h) (putByteChr_keeps (decPutCharI_keeps env h)) (fun _ h => by exact h)
    (decFinishI_keeps env) decWipeI_keeps c

end B64

namespace Hex

open B64 (anyPos full)

theorem encPutByteI_keeps (env : Env) (b : Int) : Keeps (κ := κ) OBuf.Weak (encPutByteI env b) := fun p hp => by
  refine bind_poll (I := OBuf.Weak) hp fun s => ?_
  refine Post.bind (Q := fun _ p => p.2.Weak)
    (Post.mono (OBuf.ensureCapacityI_safe any_stable env 2 (s, p.2) ⟨trivial, hp⟩)
      (fun _ _ x => x.1.2) (fun _ _ x => x.2)) fun _ p hp => ?_
  refine bind_poll (I := OBuf.Weak) hp fun s => ?_
  refine Post.bind_orRaise hp fun cs _ => ?_
  exact emitI_safe env cs _ hp

theorem encodeI_keeps (env : Env) (c : TCall) : Keeps (κ := κ) OBuf.Weak (invoke (encodeI env) c) :=
  invoke_keeps (get := id) (set := fun o _ => o) ⟨fun _ h => h, fun _ _ _ h => h⟩
    (fun c => encPutByteI_keeps env c.toNat) (encPutByteI_keeps env)
    (fun _ h => end_poll (I := OBuf.Weak) h) (fun _ h => end_poll (I := OBuf.Weak) h)
    (buf_safe (OBuf.wipeI_safe any_stable)) c

/-- Invariant of the decoder. -/
def DecI (q : Nat → Nat → Prop) (t : Dec) : Prop := t.ob.Weak ∧ q t.ipos t.ibuf.length

variable {q : Nat → Nat → Prop}

theorem decLens : Lens (·.ob) (fun o (t : Dec) => { t with ob := o }) (DecI q) :=
  ⟨fun _ h => h.1, fun _ _ h ho => ⟨ho, h.2⟩⟩

theorem decEmit (env : Env) (cs : Bytes) : Keeps (κ := κ) (DecI q) (Dec.outI (OBuf.emitI env cs)) :=
  fun _ hp => outI_safe decLens hp (emitI_safe env cs)

theorem decWipeI_keeps : Keeps (κ := κ) (DecI q) decWipeI := fun p hp => by
  refine bind_poll (I := DecI q) hp fun s => ?_
  refine Post.bind_modify (s := (s, p.2)) ?_
  refine outI_safe decLens (I := DecI q) ⟨hp.1, ?_⟩ (buf_safe (OBuf.wipeI_safe any_stable))
  simpa using hp.2

theorem decFlushI_keeps : Keeps (κ := κ) (DecI q) decFlushI := fun p hp => by
  refine bind_poll (I := DecI q) hp fun s => ?_
  refine bind_self ?_
  exact post_ite (fun _ => hp) fun _ => hp

theorem decFinishI_keeps : Keeps (κ := κ) (DecI q) decFinishI := fun p hp => by
  refine bind_poll (I := DecI q) hp fun s => ?_
  refine bind_self ?_
  exact post_ite (fun _ => hp) fun _ => hp

theorem decGroupI_keeps (env : Env) : Keeps (κ := κ) (DecI anyPos) (decGroupI env) := fun p hp => by
  unfold decGroupI
  refine bind_self ?_
  refine Post.bind_orRaise hp ?_
  intro a0 _
  refine Post.bind_orRaise hp ?_
  intro a1 _
  generalize charChr ((a0 * 16 ||| a1 : Nat) : Int) = oc
  refine Post.bind_orRaise hp ?_
  intro c _
  refine Post.bind (decEmit env [c] p hp) ?_
  intro _ p hp
  refine Post.bind_modify ?_
  exact end_poll (I := DecI anyPos) ⟨hp.1, trivial⟩

theorem decDigitI_keeps (env : Env) (n : Int) : Keeps (κ := κ) (DecI anyPos) (decDigitI env n) := fun p hp => by
  unfold decDigitI
  refine bind_self ?_
  refine post_ite (fun _ => hp) fun _ => ?_
  refine Post.bind_modify ?_
  refine bind_poll (I := DecI anyPos) ⟨hp.1, trivial⟩ fun s => ?_
  refine Post.bind_modify ?_
  refine bind_poll (I := DecI anyPos) ⟨hp.1, trivial⟩ fun s => ?_
  refine bind_self ?_
  exact post_ite (fun _ => decGroupI_keeps env _ ⟨hp.1, trivial⟩) fun _ => ⟨hp.1, trivial⟩

theorem decDigitI_full (env : Env) (n : Int) (p : κ × Dec) (hp : DecI full p.2) :
    (decDigitI env n p).Post (fun _ _ => False) (fun _ p => DecI full p.2) := by
  unfold decDigitI
  refine bind_self ?_
  exact post_ite (fun _ => hp) fun h => (h hp.2).elim

theorem decPutCharI_keeps (env : Env) (h : ∀ n, Keeps (κ := κ) (DecI q) (decDigitI env n))
    (c : Byte) : Keeps (κ := κ) (DecI q) (decPutCharI env c) := fun p hp => by
  refine bind_poll (I := DecI q) hp fun s => ?_
  refine Post.bind_ofExcept (fun _ _ => hp) fun n _ => ?_
  split
  · exact h n _ hp
  · exact hp

/-- A decoder whose input buffer is full takes no digit. -/
theorem decPutCharI_full (env : Env) {c : Byte} {n : Int} (hd : decodeChar c = .ok n) (hn : 0 ≤ n)
    (p : κ × Dec) (hp : DecI full p.2) :
    (decPutCharI env c p).Post (fun _ _ => False) (fun _ p => DecI full p.2) := by
  refine bind_poll (I := DecI full) hp fun s => ?_
  refine Post.bind_ofExcept (fun _ _ => hp) fun n' h' => ?_
  rw [hd] at h'
  cases h'
  rw [if_pos hn]
  exact decDigitI_full env n _ hp

theorem decodeI_keeps (env : Env) (c : TCall) : Keeps (κ := κ) (DecI anyPos) (invoke (decodeI env) c) :=
  invoke_keeps decLens (decPutCharI_keeps env (decDigitI_keeps env))
    (putByteChr_keeps (decPutCharI_keeps env (decDigitI_keeps env))) decFlushI_keeps decFinishI_keeps
    decWipeI_keeps c

theorem decodeI_full (env : Env) (c : TCall) : Keeps (κ := κ) (DecI full) (invoke (decodeI env) c) := by
  have h : ∀ n, Keeps (κ := κ) (DecI full) (decDigitI env n) :=
    fun n p hp => Post.mono (decDigitI_full env n p hp) (fun _ _ x => x.elim) fun _ _ x => x
  exact invoke_keeps decLens (decPutCharI_keeps env h) (putByteChr_keeps (decPutCharI_keeps env h)) decFlushI_keeps
    decFinishI_keeps decWipeI_keeps c

end Hex
end Verif
