import Verif.Spec.Safety
import Verif.Proof.Bytes
import Verif.Proof.OBuf
/-
A small program logic for "returns or raises, with these postconditions".
-/
namespace Verif

open Spec

/-- The outcome is a normal return satisfying `Q` or an exception satisfying `E`. -/
def Out.Post (o : Out σ α) (Q : α → σ → Prop) (E : Exn → σ → Prop) : Prop :=
  match o with
  | .ok a s => Q a s
  | .exn e s => E e s
  | .ub => False
  | .loop => False

namespace Post

variable {σ τ α β : Type} {Q : α → σ → Prop} {E : Exn → σ → Prop}

theorem bind {m : M σ α} {k : α → M σ β} {s : σ} {R : β → σ → Prop}
    (h : (m s).Post Q E) (hk : ∀ a s', Q a s' → (k a s').Post R E) : ((m >>= k) s).Post R E := by
  rw [M.bind_def]
  cases hm : m s with
  | ok a s' => rw [hm] at h; exact hk a s' h
  | exn e s' => rw [hm] at h; exact h
  | ub => rw [hm] at h; exact h.elim
  | loop => rw [hm] at h; exact h.elim

theorem mono {o : Out σ α} {Q' : α → σ → Prop} {E' : Exn → σ → Prop} (h : o.Post Q E)
    (hq : ∀ a s, Q a s → Q' a s) (he : ∀ e s, E e s → E' e s) : o.Post Q' E' := by
  cases o with
  | ok a s => exact hq a s h
  | exn e s => exact he e s h
  | ub => exact h
  | loop => exact h

theorem pure {a : α} {s : σ} (h : Q a s) : ((Pure.pure a : M σ α) s).Post Q E := h
theorem pure' {a : α} {s : σ} (h : Q a s) : ((M.pure a : M σ α) s).Post Q E := h
theorem raise {e : Exn} {s : σ} (h : E e s) : ((M.raise e : M σ α) s).Post Q E := h

theorem bind_get {k : σ → M σ β} {s : σ} {R : β → σ → Prop} (h : (k s s).Post R E) :
    ((M.get >>= k) s).Post R E := h

theorem bind_modify {k : Unit → M σ β} {f : σ → σ} {s : σ} {R : β → σ → Prop}
    (h : (k () (f s)).Post R E) : ((M.modify f >>= k) s).Post R E := h

theorem modify {f : σ → σ} {s : σ} {R : Unit → σ → Prop}
    (h : R () (f s)) : ((M.modify f : M σ Unit) s).Post R E := h

theorem bind_orRaise {e : Exn} {o : Option α} {k : α → M σ β} {s : σ} {R : β → σ → Prop}
    (he : E e s) (h : ∀ a, o = some a → (k a s).Post R E) :
    ((M.orRaise e o >>= k) s).Post R E := by
  cases o with
  | none => exact he
  | some a => exact h a rfl

theorem bind_orRaise_some {e : Exn} {o : Option α} {k : α → M σ β} {s : σ} {R : β → σ → Prop} {a : α}
    (ho : o = some a) (h : (k a s).Post R E) : ((M.orRaise e o >>= k) s).Post R E := by
  subst ho; exact h

theorem orRaise {e : Exn} {o : Option α} {s : σ}
    (he : E e s) (h : ∀ a, o = some a → Q a s) : ((M.orRaise e o : M σ α) s).Post Q E := by
  cases o with
  | none => exact he
  | some a => exact h a rfl

theorem bind_orUB {o : Option α} {k : α → M σ β} {s : σ} {R : β → σ → Prop} {a : α}
    (ho : o = some a) (h : (k a s).Post R E) : ((M.orUB o >>= k) s).Post R E := by
  subst ho; exact h

theorem bind_ofExcept {o : Except Exn α} {k : α → M σ β} {s : σ} {R : β → σ → Prop}
    (he : ∀ e, o = .error e → E e s) (h : ∀ a, o = .ok a → (k a s).Post R E) :
    ((ofExcept o >>= k) s).Post R E := by
  cases o with
  | error e => exact he e rfl
  | ok a => exact h a rfl

theorem zoom {get : τ → σ} {set : σ → τ → τ} {m : M σ α} {t : τ} {Q' : α → τ → Prop}
    {E' : Exn → τ → Prop} (h : (m (get t)).Post Q E) (hq : ∀ a s, Q a s → Q' a (set s t))
    (he : ∀ e s, E e s → E' e (set s t)) : ((M.zoom get set m) t).Post Q' E' := by
  rw [M.zoom]
  cases hm : m (get t) with
  | ok a s' => rw [hm] at h; exact hq a s' h
  | exn e s' => rw [hm] at h; exact he e s' h
  | ub => rw [hm] at h; exact h.elim
  | loop => rw [hm] at h; exact h.elim

theorem discard {m : M σ α} {s : σ} {I : σ → Prop} (h : (m s).Post (fun _ => I) E) :
    ((Spec.discard m) s).Post (fun _ => I) E :=
  bind h fun _ _ hi => hi

end Post

/-! ### From an invariant to safety -/

/-- Every allowed call, from a state satisfying the invariant, returns or raises, in a state
satisfying the invariant. -/
def Preserves (run : μ → M τ Unit) (allowed : μ → Prop) (I : τ → Prop) : Prop :=
  ∀ c, allowed c → ∀ t, I t → (run c t).Post (fun _ => I) (fun _ => I)

theorem Preserves.reachable {run : μ → M τ Unit} {allowed : μ → Prop} {I : τ → Prop}
    (h : Preserves run allowed I) {t0 t : τ} (h0 : I t0) (hr : Reachable run allowed t0 t) : I t := by
  induction hr with
  | start => exact h0
  | @returned t t' c _ ha hc ih => have := h c ha t ih; rw [hc] at this; exact this
  | @raised t t' c e _ ha hc ih => have := h c ha t ih; rw [hc] at this; exact this

theorem Preserves.safe {run : μ → M τ Unit} {allowed : μ → Prop} {I : τ → Prop}
    (h : Preserves run allowed I) {t0 : τ} (h0 : I t0) : MemorySafe run allowed t0 := by
  intro t hr c ha
  have := h c ha t (h.reachable h0 hr)
  cases hc : run c t with
  | ok a s' => exact .inl ⟨s', rfl⟩
  | exn e s' => exact .inr ⟨e, s', rfl⟩
  | ub => rw [hc] at this; exact this.elim
  | loop => rw [hc] at this; exact this.elim

/-- The methods of a transform other than `wipe` preserve `I`. -/
structure TSafe (T : Transform τ) (I : τ → Prop) : Prop where
  putSubstring : ∀ b ofs len t, I t → (T.putSubstring b ofs len t).Post (fun _ => I) (fun _ => I)
  putString : ∀ s t, I t → (T.putString s t).Post (fun _ => I) (fun _ => I)
  putChar : ∀ c t, I t → (T.putChar c t).Post (fun _ => I) (fun _ => I)
  putByte : ∀ b t, I t → (T.putByte b t).Post (fun _ => I) (fun _ => I)
  availableOutput : ∀ t, I t → (T.availableOutput t).Post (fun _ => I) (fun _ => I)
  getString : ∀ t, I t → (T.getString t).Post (fun _ => I) (fun _ => I)
  getSubstring : ∀ t, I t → (T.getSubstring t).Post (fun _ => I) (fun _ => I)
  getChar : ∀ t, I t → (T.getChar t).Post (fun _ => I) (fun _ => I)
  getByte : ∀ t, I t → (T.getByte t).Post (fun _ => I) (fun _ => I)

structure TFinSafe (T : Transform τ) (I : τ → Prop) : Prop where
  flush : ∀ t, I t → (T.flush t).Post (fun _ => I) (fun _ => I)
  finish : ∀ t, I t → (T.finish t).Post (fun _ => I) (fun _ => I)

/-- So does `wipe`. -/
def TWipeSafe (T : Transform τ) (I : τ → Prop) : Prop :=
  ∀ t, I t → (T.wipe t).Post (fun _ => I) (fun _ => I)

theorem TSafe.buf {T : Transform τ} {I : τ → Prop} (h : TSafe T I) (hw : c ≠ .wipe ∨ TWipeSafe T I)
    (t : τ) (hi : I t) : (invokeBuf T c t).Post (fun _ => I) (fun _ => I) := by
  cases c with
  | putSubstring b ofs len => exact h.putSubstring b ofs len t hi
  | putString s => exact h.putString s t hi
  | putChar c => exact h.putChar c t hi
  | putByte b => exact h.putByte b t hi
  | availableOutput => exact Post.discard (h.availableOutput t hi)
  | getString => exact Post.discard (h.getString t hi)
  | getSubstring => exact Post.discard (h.getSubstring t hi)
  | getChar => exact Post.discard (h.getChar t hi)
  | getByte => exact Post.discard (h.getByte t hi)
  | wipe => exact hw.resolve_left (fun hc => hc rfl) t hi

theorem TSafe.notWipe {T : Transform τ} {I : τ → Prop} (h : TSafe T I) (hf : TFinSafe T I) :
    Preserves (invoke T) notWipe I := by
  intro c ha t hi
  cases c with
  | buf c => exact h.buf (.inl fun hc => ha (hc ▸ rfl)) t hi
  | flush => exact hf.flush t hi
  | finish => exact hf.finish t hi

theorem TSafe.any {T : Transform τ} {I : τ → Prop} (h : TSafe T I) (hf : TFinSafe T I)
    (hw : TWipeSafe T I) : Preserves (invoke T) anyCall I := by
  intro c _ t hi
  cases c with
  | buf c => exact h.buf (.inr hw) t hi
  | flush => exact hf.flush t hi
  | finish => exact hf.finish t hi

theorem TSafe.notWipeA {A : AuthTransform τ} {I : τ → Prop} (h : TSafe A.base I)
    (hf : ∀ t, I t → (A.finishAndGetTag t).Post (fun _ => I) (fun _ => I)) :
    Preserves (invokeA A) notWipeA I := by
  intro c ha t hi
  cases c with
  | buf c => exact h.buf (.inl fun hc => ha (hc ▸ rfl)) t hi
  | finishAndGetTag => exact Post.discard (hf t hi)

theorem TSafe.anyA {A : AuthTransform τ} {I : τ → Prop} (h : TSafe A.base I)
    (hf : ∀ t, I t → (A.finishAndGetTag t).Post (fun _ => I) (fun _ => I))
    (hw : TWipeSafe A.base I) : Preserves (invokeA A) anyCall I := by
  intro c _ t hi
  cases c with
  | buf c => exact h.buf (.inr hw) t hi
  | finishAndGetTag => exact Post.discard (hf t hi)

/-- The methods of a hash other than `wipe` preserve `I`; results satisfy `L`. -/
structure HSafe (H : HashObj τ) (I : τ → Prop) (L : Bytes → Prop) : Prop where
  addSubstring : ∀ b ofs len t, I t → (H.addSubstring b ofs len t).Post (fun _ => I) (fun _ => I)
  addString : ∀ s t, I t → (H.addString s t).Post (fun _ => I) (fun _ => I)
  addChar : ∀ c t, I t → (H.addChar c t).Post (fun _ => I) (fun _ => I)
  addByte : ∀ b t, I t → (H.addByte b t).Post (fun _ => I) (fun _ => I)
  result : ∀ t, I t → (H.result t).Post (fun r t' => I t' ∧ L r) (fun _ => I)

def HWipeSafe (H : HashObj τ) (I : τ → Prop) : Prop :=
  ∀ t, I t → (H.wipe t).Post (fun _ => I) (fun _ => I)

theorem HSafe.notWipe {H : HashObj τ} {I : τ → Prop} {L : Bytes → Prop} (h : HSafe H I L) :
    Preserves (invokeH H) notWipeH I := by
  intro c ha t hi
  cases c with
  | addSubstring b ofs len => exact h.addSubstring b ofs len t hi
  | addString s => exact h.addString s t hi
  | addChar c => exact h.addChar c t hi
  | addByte b => exact h.addByte b t hi
  | result => exact Post.discard (Post.mono (h.result t hi) (fun _ _ x => x.1) fun _ _ x => x)
  | wipe => exact absurd rfl ha

theorem HSafe.any {H : HashObj τ} {I : τ → Prop} {L : Bytes → Prop} (h : HSafe H I L)
    (hw : HWipeSafe H I) : Preserves (invokeH H) anyCall I := by
  intro c _ t hi
  cases c with
  | addSubstring b ofs len => exact h.addSubstring b ofs len t hi
  | addString s => exact h.addString s t hi
  | addChar c => exact h.addChar c t hi
  | addByte b => exact h.addByte b t hi
  | result => exact Post.discard (Post.mono (h.result t hi) (fun _ _ x => x.1) fun _ _ x => x)
  | wipe => exact hw t hi

/-! ### The output buffer -/

/-- The positions are within the buffer, which is not empty. -/
structure OBuf.Safe (o : OBuf) : Prop where
  pos : 0 < o.obuf.length
  beg : o.obeg ≤ o.oend
  le : o.oend ≤ o.obuf.length

namespace OBuf

theorem safe_init (env : Env) {n : Nat} (hn : 0 < n) : (OBuf.init env n).Safe := by
  refine ⟨?_, Nat.le_refl 0, Nat.zero_le _⟩
  show 0 < (env.create n).length
  rw [Env.create_length]; exact hn

theorem ensureCapacity_safe (env : Env) (n : Int) (o : OBuf) (h : o.Safe) :
    (ensureCapacity env n o).Post (fun _ o' => o'.Safe ∧ (o'.oend : Int) + n ≤ o'.obuf.length)
      (fun e o' => e = .error .outputBufferOverflow ∧ o' = o) := by
  obtain ⟨hp, hb, hl⟩ := h
  unfold ensureCapacity
  simp only []
  split
  · split
    · have hbl := bytesBlit_ok (src := o.obuf) (so := o.obeg) (dst := o.obuf) (dofs := 0)
        (n := o.oend - o.obeg) (by omega) (by omega)
      rw [Int.natCast_zero, show ((o.oend - o.obeg : Nat) : Int) = (o.oend : Int) - o.obeg by omega] at hbl
      rw [hbl]
      have hlen : (splice o.obuf 0 (slice o.obuf o.obeg (o.oend - o.obeg))).length = o.obuf.length := by
        rw [splice_length]; simp; omega
      refine ⟨⟨?_, Nat.zero_le _, ?_⟩, ?_⟩ <;> simp only [hlen] <;> omega
    · obtain ⟨r, hr, h1, h2⟩ := growLoop_spec ((o.oend : Int) - o.obeg + n) (2 * o.obuf.length) (by omega)
      rw [hr]
      simp only []
      split
      · exact ⟨rfl, rfl⟩
      · next hov =>
        generalize hN : (if r > env.maxLen then env.maxLen else r) = N
        have hN' : (o.oend : Int) - o.obeg + n ≤ N := by
          subst hN; split <;> omega
        have hbl := bytesBlit_ok (src := o.obuf) (so := o.obeg) (dst := env.create N) (dofs := 0)
          (n := o.oend - o.obeg) (by omega) (by rw [Env.create_length]; omega)
        rw [Int.natCast_zero, show ((o.oend - o.obeg : Nat) : Int) = (o.oend : Int) - o.obeg by omega] at hbl
        rw [hbl]
        have hlen : (splice (env.create N) 0 (slice o.obuf o.obeg (o.oend - o.obeg))).length = N := by
          rw [splice_length] <;> simp; omega
        refine ⟨⟨?_, Nat.zero_le _, ?_⟩, ?_⟩ <;> simp only [hlen] <;> omega
  · exact ⟨⟨hp, hb, hl⟩, by omega⟩

theorem getString_safe (o : OBuf) (h : o.Safe) :
    (getString o).Post (fun _ => OBuf.Safe) (fun _ => OBuf.Safe) := by
  unfold getString
  split
  · exact h
  · exact ⟨h.pos, Nat.le_refl 0, Nat.zero_le _⟩

theorem getSubstring_safe (o : OBuf) (h : o.Safe) :
    (getSubstring o).Post (fun r o' => o'.Safe ∧ InRange r.1 r.2.1 r.2.2) (fun _ => OBuf.Safe) := by
  obtain ⟨hp, hb, hl⟩ := h
  refine ⟨⟨hp, Nat.le_refl 0, Nat.zero_le _⟩, ?_, ?_, ?_⟩ <;> simp only [] <;> omega

theorem getChar_safe (o : OBuf) (h : o.Safe) :
    (getChar o).Post (fun _ => OBuf.Safe) (fun _ => OBuf.Safe) := by
  obtain ⟨hp, hb, hl⟩ := h
  unfold getChar
  split
  · exact ⟨hp, hb, hl⟩
  · split
    · exact ⟨hp, hb, hl⟩
    · exact ⟨hp, by simp only; omega, hl⟩

theorem getByte_safe (o : OBuf) (h : o.Safe) :
    (getByte o).Post (fun _ => OBuf.Safe) (fun _ => OBuf.Safe) :=
  Post.bind (getChar_safe o h) fun _ _ hs => Post.pure hs

theorem availableOutput_safe (o : OBuf) (h : o.Safe) :
    (availableOutput o).Post (fun _ => OBuf.Safe) (fun _ => OBuf.Safe) := h

theorem wipe_safe (o : OBuf) (h : o.Safe) :
    (wipe o).Post (fun _ => OBuf.Safe) (fun _ => OBuf.Safe) :=
  ⟨by simpa using h.pos, h.beg, by simpa using h.le⟩

end OBuf

/-- A write of the same length keeps the buffer safe. -/
theorem OBuf.Safe.set {o : OBuf} (h : o.Safe) {b : Bytes} (hb : b.length = o.obuf.length) {e : Nat}
    (h1 : o.oend ≤ e) (h2 : e ≤ o.obuf.length) : OBuf.Safe { o with obuf := b, oend := e } :=
  ⟨by simp only [hb]; exact h.pos, by have := h.beg; simp only; omega, by simp only [hb]; exact h2⟩

theorem bytesBlit_length {src dst b : Bytes} {so dofs n : Int}
    (h : bytesBlit src so dst dofs n = some b) : b.length = dst.length := by
  unfold bytesBlit at h
  split at h
  · next hc =>
    cases h
    obtain ⟨⟨_, _, _⟩, _, _, _⟩ := hc
    rw [splice_length]
    rw [slice_length_of_le (by omega)]
    omega
  · cases h

theorem bytesSet_length {b b' : Bytes} {i : Int} {c : Byte} (h : bytesSet b i c = some b') :
    b'.length = b.length := by
  unfold bytesSet at h
  split at h
  · cases h; simp
  · cases h

end Verif
