import Verif.Spec.Uninit
import Verif.Props.C86_InertAuth
import Verif.Props.C86_InertMore
/-
Two machines in lockstep: the same code run from related states gives the same results, in related states.
-/
namespace Verif

open Spec

variable {σ σ' τ τ' : Type}

/-- The two outcomes have the same result or exception, and related states. -/
def Sim (Q : α → σ → σ' → Prop) (E : σ → σ' → Prop) : Out σ α → Out σ' α → Prop
  | .ok a s, .ok b s' => a = b ∧ Q a s s'
  | .exn e s, .exn e' s' => e = e' ∧ E s s'
  | .ub, .ub => True
  | .ub, .loop => True
  | .loop, .ub => True
  | .loop, .loop => True
  | _, _ => False

section
variable {Q Q2 : α → σ → σ' → Prop} {Q' : β → σ → σ' → Prop} {E : σ → σ' → Prop} {s : σ} {s' : σ'}

theorem Sim.bind {m : M σ α} {m' : M σ' α} {k : α → M σ β} {k' : α → M σ' β}
    (h : Sim Q E (m s) (m' s')) (hk : ∀ a t t', Q a t t' → Sim Q' E (k a t) (k' a t')) :
    Sim Q' E ((m >>= k) s) ((m' >>= k') s') := by
  rw [M.bind_def, M.bind_def]
  cases h1 : m s <;> cases h2 : m' s' <;> rw [h1, h2] at h
  case ok.ok => obtain ⟨rfl, h⟩ := h; exact hk _ _ _ h
  all_goals first | exact h | exact h.elim

theorem Sim.mono {o : Out σ α} {o' : Out σ' α} (h : Sim Q E o o') {E2 : σ → σ' → Prop}
    (hq : ∀ a t t', Q a t t' → Q2 a t t') (he : ∀ t t', E t t' → E2 t t') : Sim Q2 E2 o o' := by
  cases o <;> cases o' <;> first | exact h | exact ⟨h.1, hq _ _ _ h.2⟩ | exact ⟨h.1, he _ _ h.2⟩

theorem Sim.get {k : σ → M σ β} {k' : σ' → M σ' β} (h : Sim Q' E (k s s) (k' s' s')) :
    Sim Q' E ((M.get >>= k) s) ((M.get >>= k') s') := h

theorem Sim.modify {f : σ → σ} {f' : σ' → σ'} {k : Unit → M σ β} {k' : Unit → M σ' β}
    (h : Sim Q' E (k () (f s)) (k' () (f' s'))) :
    Sim Q' E ((M.modify f >>= k) s) ((M.modify f' >>= k') s') := h

theorem Sim.orRaise {e : Exn} {o o' : Option α} {k : α → M σ β} {k' : α → M σ' β} (ho : o = o') (hE : E s s')
    (h : ∀ a, o = some a → Sim Q' E (k a s) (k' a s')) :
    Sim Q' E ((M.orRaise e o >>= k) s) ((M.orRaise e o' >>= k') s') := by
  subst ho
  cases o with
  | none => exact ⟨rfl, hE⟩
  | some a => exact h a rfl

theorem Sim.orUB {o o' : Option α} {k : α → M σ β} {k' : α → M σ' β} (ho : o = o')
    (h : ∀ a, o = some a → Sim Q' E (k a s) (k' a s')) :
    Sim Q' E ((M.orUB o >>= k) s) ((M.orUB o' >>= k') s') := by
  subst ho
  cases o with
  | none => trivial
  | some a => exact h a rfl

theorem Sim.ofExcept {r : Except Exn α} {k : α → M σ β} {k' : α → M σ' β} (hE : E s s')
    (h : ∀ a, r = .ok a → Sim Q' E (k a s) (k' a s')) :
    Sim Q' E ((Verif.ofExcept r >>= k) s) ((Verif.ofExcept r >>= k') s') := by
  cases r with
  | error e => exact ⟨rfl, hE⟩
  | ok a => exact h a rfl

theorem Sim.zoom {get : τ → σ} {set : σ → τ → τ} {get' : τ' → σ'} {set' : σ' → τ' → τ'} {m : M σ α} {m' : M σ' α}
    {t : τ} {t' : τ'} {P : α → τ → τ' → Prop} {F : τ → τ' → Prop} (h : Sim Q E (m (get t)) (m' (get' t')))
    (hq : ∀ a s s', Q a s s' → P a (set s t) (set' s' t')) (he : ∀ s s', E s s' → F (set s t) (set' s' t')) :
    Sim P F (M.zoom get set m t) (M.zoom get' set' m' t') := by
  unfold M.zoom
  cases h1 : m (get t) <;> cases h2 : m' (get' t') <;> rw [h1, h2] at h <;>
    first | exact h | exact ⟨h.1, hq _ _ _ h.2⟩ | exact ⟨h.1, he _ _ h.2⟩

end

/-- The method keeps the relation. -/
def Keep (L : τ → τ' → Prop) (m : M τ α) (m' : M τ' α) : Prop :=
  ∀ t t', L t t' → Sim (fun _ => L) L (m t) (m' t')

theorem Keep.unit {L : τ → τ' → Prop} {m : M τ Unit} {m' : M τ' Unit} (h : Keep L m m') :
    Keep L (do m; pure ([] : Bytes)) (do m'; pure ([] : Bytes)) := fun t t' ht =>
  Sim.bind (h t t' ht) fun _ _ _ h => ⟨rfl, h⟩

theorem traceBy_keep {L : τ → τ' → Prop} {step : γ → M τ Bytes} {step' : γ → M τ' Bytes}
    (h : ∀ c, Keep L (step c) (step' c)) (cs : List γ) :
    ∀ {t t'}, L t t' → traceBy step cs t = traceBy step' cs t' := by
  induction cs with
  | nil => intros; rfl
  | cons c cs ih =>
    intro t t' ht
    have a := h c t t' ht
    rw [traceBy, traceBy]
    cases h1 : step c t <;> cases h2 : step' c t' <;> rw [h1, h2] at a <;> first
      | exact a.elim
      | (obtain ⟨rfl, a⟩ := a; simp only [ih a])
      | rfl

theorem trace_keep {L : τ → τ' → Prop} {T : Transform τ} {T' : Transform τ'}
    (h : ∀ c, Keep L (perform T c) (perform T' c)) (cs : List Call) {t : τ} {t' : τ'} (ht : L t t') :
    trace T cs t = trace T' cs t' := by
  have e : ∀ {ρ : Type} (T : Transform ρ) (cs : List Call) (t : ρ), trace T cs t = traceBy (perform T) cs t := by
    intro ρ T cs
    induction cs with
    | nil => intro t; rfl
    | cons c cs ih =>
      intro t
      rw [trace, traceBy]
      cases perform T c t <;> simp only [ih]
  rw [e, e]
  exact traceBy_keep h cs ht

/-! ### Output buffers -/

section
variable {env env' : Env}

/-- The two buffers hold the same pending output. -/
def SameOut (env env' : Env) (o o' : OBuf) : Prop := ∃ q, OBuf.Rep env o q ∧ OBuf.Rep env' o' q

theorem sameOut_init (he : SameMachine env env') {n : Nat} (hn : 0 < n) (hm : n ≤ env.maxLen) :
    SameOut env env' (OBuf.init env n) (OBuf.init env' n) :=
  ⟨[], OBuf.rep_init env n hn hm, OBuf.rep_init env' n hn (he ▸ hm)⟩

theorem emit_over {o : OBuf} {q : Bytes} (h : OBuf.Rep env o q) (cs : Bytes) (hm : ¬ q.length + cs.length ≤ env.maxLen) :
    OBuf.emit env cs o = .exn (.error .outputBufferOverflow) o := by
  unfold OBuf.emit
  rw [M.bind_exn (OBuf.ensureCapacity_overflow h cs.length (by omega))]

theorem emit_keep (he : SameMachine env env') (cs : Bytes) :
    Keep (SameOut env env') (OBuf.emit env cs) (OBuf.emit env' cs) := by
  rintro o o' ⟨q, h, h'⟩
  by_cases hm : q.length + cs.length ≤ env.maxLen
  · obtain ⟨o1, e1, r1⟩ := OBuf.emit_ok h cs hm
    obtain ⟨o2, e2, r2⟩ := OBuf.emit_ok h' cs (he ▸ hm)
    rw [e1, e2]
    exact ⟨rfl, _, r1, r2⟩
  · rw [emit_over h cs hm, emit_over h' cs (he ▸ hm)]
    exact ⟨rfl, _, h, h'⟩

theorem ensure_keep (he : SameMachine env env') (n : Int) :
    Keep (SameOut env env') (OBuf.ensureCapacity env n) (OBuf.ensureCapacity env' n) := by
  rintro o o' ⟨q, h, h'⟩
  by_cases hm : n < 0 ∨ (q.length : Int) + n ≤ env.maxLen
  · obtain ⟨o1, e1, r1⟩ := ensureCapacity_any h n hm
    obtain ⟨o2, e2, r2⟩ := ensureCapacity_any h' n (he ▸ hm)
    rw [e1, e2]
    exact ⟨rfl, _, r1, r2⟩
  · obtain ⟨k, rfl⟩ := Int.eq_ofNat_of_zero_le (show 0 ≤ n by omega)
    rw [OBuf.ensureCapacity_overflow h k (by omega), OBuf.ensureCapacity_overflow h' k (he ▸ by omega)]
    exact ⟨rfl, _, h, h'⟩

/-- The get methods of `buffered_output`. -/
theorem get_keep {L : τ → τ' → Prop} {get : τ → OBuf} {set : OBuf → τ → τ} {get' : τ' → OBuf}
    {set' : OBuf → τ' → τ'} {p : PutMethods τ} {p' : PutMethods τ'}
    (hL : ∀ t t', L t t' → SameOut env env' (get t) (get' t'))
    (hset : ∀ t t' o o', L t t' → SameOut env env' o o' → L (set o t) (set' o' t'))
    {o : TOp} (ho : IsGet o) :
    Keep L (perform (inheritBuf get set p) (.op o)) (perform (inheritBuf get' set' p') (.op o)) := by
  intro t t' ht
  obtain ⟨q, r, r'⟩ := hL t t' ht
  cases o with
  | available =>
    simp only [perform, Transform.call, inheritBuf, M.bind_def, M.zoom, OBuf.availableOutput_ok r,
      OBuf.availableOutput_ok r']
    exact ⟨rfl, hset _ _ _ _ ht ⟨q, r, r'⟩⟩
  | getString =>
    simp only [perform, Transform.call, inheritBuf, M.zoom, OBuf.getString_ok r, OBuf.getString_ok r']
    exact ⟨rfl, hset _ _ _ _ ht ⟨_, r.clear, r'.clear⟩⟩
  | getSubstring =>
    obtain ⟨h1, h2, h3⟩ := OBuf.getSubstring_ok r
    obtain ⟨h1', h2', h3'⟩ := OBuf.getSubstring_ok r'
    simp only [perform, Transform.call, inheritBuf, M.bind_def, M.zoom, h1, h1', bytesSub_ok h2, bytesSub_ok h2', h3, h3']
    exact ⟨rfl, hset _ _ _ _ ht ⟨_, r.clear, r'.clear⟩⟩
  | getChar =>
    cases q with
    | nil =>
      simp only [perform, Transform.call, inheritBuf, M.zoom, OBuf.getChar_nil r, OBuf.getChar_nil r']
      exact ⟨rfl, hset _ _ _ _ ht ⟨_, r, r'⟩⟩
    | cons c q =>
      obtain ⟨o1, e1, r1⟩ := OBuf.getChar_cons r
      obtain ⟨o2, e2, r2⟩ := OBuf.getChar_cons r'
      simp only [perform, Transform.call, inheritBuf, M.zoom, e1, e2]
      exact ⟨rfl, hset _ _ _ _ ht ⟨_, r1, r2⟩⟩
  | getByte =>
    cases q with
    | nil =>
      have a : OBuf.getByte (get t) = .exn .endOfFile (get t) := M.bind_exn (OBuf.getChar_nil r)
      have b : OBuf.getByte (get' t') = .exn .endOfFile (get' t') := M.bind_exn (OBuf.getChar_nil r')
      simp only [perform, Transform.call, inheritBuf, M.zoom, a, b]
      exact ⟨rfl, hset _ _ _ _ ht ⟨_, r, r'⟩⟩
    | cons c q =>
      obtain ⟨o1, e1, r1⟩ := OBuf.getChar_cons r
      obtain ⟨o2, e2, r2⟩ := OBuf.getChar_cons r'
      have a : OBuf.getByte (get t) = .ok (c.toNat : Int) o1 := M.bind_ok e1
      have b : OBuf.getByte (get' t') = .ok (c.toNat : Int) o2 := M.bind_ok e2
      simp only [perform, Transform.call, inheritBuf, M.zoom, a, b]
      exact ⟨rfl, hset _ _ _ _ ht ⟨_, r1, r2⟩⟩
  | putSubstring | putString | putChar | putByte => exact ho.elim

theorem inheritBuf_keep {L : τ → τ' → Prop} {get : τ → OBuf} {set : OBuf → τ → τ} {get' : τ' → OBuf}
    {set' : OBuf → τ' → τ'} {p : PutMethods τ} {p' : PutMethods τ'}
    (hL : ∀ t t', L t t' → SameOut env env' (get t) (get' t'))
    (hset : ∀ t t' o o', L t t' → SameOut env env' o o' → L (set o t) (set' o' t'))
    (putSubstring : ∀ b ofs len, Keep L (p.putSubstring b ofs len) (p'.putSubstring b ofs len))
    (putString : ∀ b, Keep L (p.putString b) (p'.putString b))
    (putChar : ∀ c, Keep L (p.putChar c) (p'.putChar c)) (putByte : ∀ c, Keep L (p.putByte c) (p'.putByte c))
    (flush : Keep L p.flush p'.flush) (finish : Keep L p.finish p'.finish) (c : Call) :
    Keep L (perform (inheritBuf get set p) c) (perform (inheritBuf get' set' p') c) := by
  cases c with
  | flush => exact flush.unit
  | finish => exact finish.unit
  | op o =>
    cases o with
    | putSubstring b ofs len => exact (putSubstring b ofs len).unit
    | putString b => exact (putString b).unit
    | putChar c => exact (putChar c).unit
    | putByte c => exact (putByte c).unit
    | getString | getSubstring | getChar | getByte | available => exact get_keep hL hset trivial

/-- The put methods of the codecs, from `put_char`. -/
theorem charMethods_keep {L : τ → τ' → Prop} {get : τ → OBuf} {set : OBuf → τ → τ} {get' : τ' → OBuf}
    {set' : OBuf → τ' → τ'} {put : Byte → M τ Unit} {put' : Byte → M τ' Unit} {pb : Int → M τ Unit}
    {pb' : Int → M τ' Unit} {fl fi wi : M τ Unit} {fl' fi' wi' : M τ' Unit}
    (hL : ∀ t t', L t t' → SameOut env env' (get t) (get' t'))
    (hset : ∀ t t' o o', L t t' → SameOut env env' o o' → L (set o t) (set' o' t'))
    (hput : ∀ c, Keep L (put c) (put' c)) (hpb : ∀ c, Keep L (pb c) (pb' c)) (hfl : Keep L fl fl')
    (hfi : Keep L fi fi') (c : Call) :
    Keep L (perform (inheritBuf get set (charMethods put pb fl fi wi)) c)
      (perform (inheritBuf get' set' (charMethods put' pb' fl' fi' wi')) c) := by
  refine inheritBuf_keep hL hset ?_ ?_ hput hpb hfl hfi c
  · intro b ofs len
    show Keep L (putLoop put b ofs len.toNat) (putLoop put' b ofs len.toNat)
    generalize len.toNat = n
    induction n generalizing ofs with
    | zero => exact fun t t' ht => ⟨rfl, ht⟩
    | succ n ih =>
      intro t t' ht
      exact Sim.orRaise rfl ht fun c _ => Sim.bind (hput c t t' ht) fun _ s s' hs => ih _ s s' hs
  · intro b
    show Keep L (iterChars put b) (iterChars put' b)
    induction b with
    | nil => exact fun t t' ht => ⟨rfl, ht⟩
    | cons c b ih => exact fun t t' ht => Sim.bind (hput c t t' ht) fun _ s s' hs => ih s s' hs

theorem putByteChr_keep {L : τ → τ' → Prop} {put : Byte → M τ Unit} {put' : Byte → M τ' Unit}
    (hput : ∀ c, Keep L (put c) (put' c)) (b : Int) : Keep L (putByteChr put b) (putByteChr put' b) :=
  fun t t' ht => Sim.orRaise rfl ht fun c _ => hput c t t' ht

/-! ### Stream ciphers -/

/-- The effect on two related states is the same. -/
def SameEffect (V : σ → σ → Prop) (F : σ → Bytes → Option (Bytes × σ × Option Exn)) : Prop :=
  ∀ s s' b, V s s' →
    match F s b, F s' b with
    | some (o, r, e), some (o', r', e') => o = o' ∧ e = e' ∧ V r r'
    | none, none => True
    | _, _ => False

/-- Two states of class `Stream.cipher`. -/
def StreamLike (env env' : Env) (V : σ → σ → Prop) (t t' : StreamSt σ) : Prop :=
  V t.c t'.c ∧ t.charbuf.length = 1 ∧ t'.charbuf.length = 1 ∧ SameOut env env' t.ob t'.ob

theorem streamPut_keep (he : SameMachine env env') {c : StreamCipher σ}
    {F : σ → Bytes → Option (Bytes × σ × Option Exn)} {V : σ → σ → Prop} (hF : StreamDet c F) (hB : StreamBad c)
    (hV : SameEffect V F) (b : Bytes) (ofs len : Int) :
    Keep (StreamLike env env' V) (streamPut env c b ofs len) (streamPut env' c b ofs len) := by
  rintro t t' ⟨hc, l1, l2, q, r, r'⟩
  by_cases hfit : len < 0 ∨ (q.length : Int) + len ≤ env.maxLen
  · by_cases hr : InRange b ofs len
    · obtain ⟨h1, h2, h3⟩ := hr
      obtain ⟨ofs, rfl⟩ := Int.eq_ofNat_of_zero_le h2
      obtain ⟨len, rfl⟩ := Int.eq_ofNat_of_zero_le h1
      obtain ⟨o1, e1, r1, m1⟩ := OBuf.ensureCapacity_ok r len (by omega)
      obtain ⟨o2, e2, r2, m2⟩ := OBuf.ensureCapacity_ok r' len (he ▸ by omega)
      have a := hF (s := t.c) (src := b) (dst := o1.obuf) (so := ofs) (dofs := o1.oend) (n := len) (by omega) m1
      have a' := hF (s := t'.c) (src := b) (dst := o2.obuf) (so := ofs) (dofs := o2.oend) (n := len) (by omega) m2
      have v := hV t.c t'.c (slice b ofs len) hc
      match hf : F t.c (slice b ofs len), hf' : F t'.c (slice b ofs len) with
      | none, none =>
        rw [hf] at a; rw [hf'] at a'
        simp only [streamPut, bind, M.bind, M.zoom, e1, e2, a, a', Sim]
      | none, some _ => rw [hf, hf'] at v; exact v.elim
      | some _, none => rw [hf, hf'] at v; exact v.elim
      | some (x, s, none), some (x', s', e') =>
        rw [hf, hf'] at v
        obtain ⟨rfl, h, hs⟩ := v
        obtain rfl : e' = none := h.symm
        rw [hf] at a; rw [hf'] at a'
        obtain ⟨hx, a⟩ := a
        obtain ⟨-, a'⟩ := a'
        have w1 := r1.write (x := x) (by omega)
        have w2 := r2.write (x := x) (by omega)
        rw [hx] at w1 w2
        simp only [streamPut, bind, M.bind, M.zoom, e1, e2, a, a', M.modify_def, Int.toNat_natCast]
        exact ⟨rfl, hs, l1, l2, _, w1, w2⟩
      | some (x, s, some e), some (x', s', e') =>
        rw [hf, hf'] at v
        obtain ⟨rfl, h, hs⟩ := v
        obtain rfl : e' = some e := h.symm
        rw [hf] at a; rw [hf'] at a'
        obtain ⟨hx, a⟩ := a
        obtain ⟨-, a'⟩ := a'
        simp only [streamPut, bind, M.bind, M.zoom, e1, e2, a, a']
        exact ⟨rfl, hs, l1, l2, _, r1.scratch (by omega), r2.scratch (by omega)⟩
    · obtain ⟨o1, e1, r1⟩ := ensureCapacity_any r len hfit
      obtain ⟨o2, e2, r2⟩ := ensureCapacity_any r' len (he ▸ hfit)
      rcases hB hr with hB | hB
      · simp only [streamPut, bind, M.bind, M.zoom, e1, e2, hB, Sim]
      · simp only [streamPut, bind, M.bind, M.zoom, e1, e2, hB]
        exact ⟨rfl, hc, l1, l2, _, r1, r2⟩
  · obtain ⟨n, rfl⟩ := Int.eq_ofNat_of_zero_le (show 0 ≤ len by omega)
    have e1 := OBuf.ensureCapacity_overflow r n (by omega)
    have e2 := OBuf.ensureCapacity_overflow r' n (he ▸ by omega)
    simp only [streamPut, bind, M.bind, M.zoom, e1, e2]
    exact ⟨rfl, hc, l1, l2, _, r, r'⟩

theorem stream_keep (he : SameMachine env env') {c : StreamCipher σ}
    {F : σ → Bytes → Option (Bytes × σ × Option Exn)} {V : σ → σ → Prop} (hF : StreamDet c F) (hB : StreamBad c)
    (hV : SameEffect V F) (x : Call) :
    Keep (StreamLike env env' V) (perform (streamTransform env c) x) (perform (streamTransform env' c) x) := by
  have hch : ∀ ch, Keep (StreamLike env env' V) (streamPutChar env c ch) (streamPutChar env' c ch) := by
    rintro ch t t' ⟨hc, l1, l2, ho⟩
    rw [streamPutChar_eq l1, streamPutChar_eq l2]
    exact streamPut_keep he hF hB hV _ _ _ _ _ ⟨hc, rfl, rfl, ho⟩
  have hu : Keep (StreamLike env env' V) (M.pure () : M (StreamSt σ) Unit) (M.pure ()) := fun _ _ h => ⟨rfl, h⟩
  exact inheritBuf_keep (fun _ _ h => h.2.2.2) (fun _ _ _ _ h ho => ⟨h.1, h.2.1, h.2.2.1, ho⟩)
    (fun b ofs len => streamPut_keep he hF hB hV b ofs len)
    (fun b => streamPut_keep he hF hB hV b 0 b.length) hch (fun ch => hch (BitVec.ofInt 8 ch)) hu hu x

theorem streamLike_init (he : SameMachine env env') (hm : 256 ≤ env.maxLen) {V : σ → σ → Prop} {s s' : σ} (h : V s s') :
    StreamLike env env' V (streamInit env s) (streamInit env' s') :=
  ⟨h, by simp [streamInit], by simp [streamInit], sameOut_init he (by decide) hm⟩

end

/-! ### Partly filled buffers -/

/-- The contexts agree, but for the part of the buffer that is not filled yet. -/
structure SameCtx (n : Nat) (c c' : MDBuf γ) : Prop where
  h : c.h = c'.h
  num : c.numbytes = c'.numbytes
  le : c.numbytes ≤ n
  len : c.buffer.length = n
  len' : c'.buffer.length = n
  pre : c.buffer.take c.numbytes = c'.buffer.take c.numbytes

/-- Both fail, or both give related results. -/
def SameOpt (P : α → β → Prop) : Option α → Option β → Prop
  | some a, some b => P a b
  | none, none => True
  | _, _ => False

/-- Filling the buffer further. -/
theorem write_same {n i : Nat} {b b' x : Bytes} (l : b.length = n) (l' : b'.length = n) (hi : i ≤ n)
    (hp : b.take i = b'.take i) :
    SameOpt (fun c c' => c.length = n ∧ c'.length = n ∧ c.take (i + x.length) = c'.take (i + x.length) ∧ i + x.length ≤ n)
      (cWrite b i x) (cWrite b' i x) := by
  by_cases h : i + x.length ≤ n
  · rw [cWrite_ok (by omega), cWrite_ok (by omega)]
    refine ⟨by rw [splice_length (by omega)]; exact l, by rw [splice_length (by omega)]; exact l', ?_, h⟩
    rw [take_splice (by omega), take_splice (by omega), hp]
  · have e : cWrite b i x = none := by unfold cWrite InRange; rw [if_neg (by omega)]
    have e' : cWrite b' i x = none := by unfold cWrite InRange; rw [if_neg (by omega)]
    rw [e, e']; trivial

theorem take_all {n : Nat} {b b' : Bytes} (l : b.length = n) (l' : b'.length = n) {k : Nat} (hk : n ≤ k)
    (h : b.take k = b'.take k) : b = b' := by
  rwa [List.take_of_length_le (by omega), List.take_of_length_le (by omega)] at h

theorem mdTail_same {n : Nat} (hn : 0 < n) {via : Bool} {tr : γ → Bytes → γ} (k : Nat) : ∀ {c c' : MDBuf γ} {data : Bytes},
    data.length ≤ k → c.h = c'.h → c.buffer.length = n → c'.buffer.length = n →
    SameOpt (SameCtx n) (mdTail n via tr c data) (mdTail n via tr c' data) := by
  induction k using Nat.strongRecOn with
  | _ k ih =>
    intro c c' data hk hh l l'
    rw [mdTail.eq_def n via tr c, mdTail.eq_def n via tr c']
    by_cases hd : 0 < n ∧ n ≤ data.length
    · rw [dif_pos hd, dif_pos hd]
      have hl : (data.take n).length = n := by rw [List.length_take]; omega
      have hdr : (data.drop n).length ≤ k - n := by rw [List.length_drop]; omega
      cases via with
      | true =>
        have w := write_same (i := 0) (x := data.take n) l l' (by omega) rfl
        simp only [if_true]
        rw [Int.natCast_zero] at w
        cases h1 : cWrite c.buffer 0 (data.take n) <;> cases h2 : cWrite c'.buffer 0 (data.take n) <;> rw [h1, h2] at w
        · trivial
        · exact w.elim
        · exact w.elim
        · obtain ⟨w1, w2, w3, w4⟩ := w
          obtain rfl := take_all w1 w2 (by omega) w3
          exact ih (k - n) (by omega) hdr (by simp only [hh]) w1 w1
      | false =>
        simp only [Bool.false_eq_true, if_false]
        exact ih (k - n) (by omega) hdr (by simp only [hh]) l l'
    · rw [dif_neg hd, dif_neg hd]
      have w := write_same (i := 0) (x := data) l l' (by omega) rfl
      rw [Int.natCast_zero] at w
      cases h1 : cWrite c.buffer 0 data <;> cases h2 : cWrite c'.buffer 0 data <;> rw [h1, h2] at w
      · trivial
      · exact w.elim
      · exact w.elim
      · obtain ⟨w1, w2, w3, w4⟩ := w
        rw [Nat.zero_add] at w3
        exact ⟨hh, rfl, by simp only; omega, w1, w2, w3⟩

theorem mdAdd_same {n : Nat} (hn : 0 < n) {via : Bool} {tr : γ → Bytes → γ} {c c' : MDBuf γ} (h : SameCtx n c c')
    (data : Bytes) : SameOpt (SameCtx n) (mdAdd n via tr c data) (mdAdd n via tr c' data) := by
  have hle := h.le
  rw [mdAdd, mdAdd, ← h.num]
  by_cases h0 : c.numbytes ≠ 0
  · rw [if_pos h0, if_pos h0]
    simp only
    by_cases hd : data.length < n - c.numbytes
    · rw [if_pos hd, if_pos hd]
      have w := write_same (x := data) h.len h.len' h.le h.pre
      cases h1 : cWrite c.buffer c.numbytes data <;> cases h2 : cWrite c'.buffer c.numbytes data <;> rw [h1, h2] at w
      · trivial
      · exact w.elim
      · exact w.elim
      · obtain ⟨w1, w2, w3, w4⟩ := w
        exact ⟨h.h, rfl, w4, w1, w2, w3⟩
    · rw [if_neg hd, if_neg hd]
      have w := write_same (x := data.take (n - c.numbytes)) h.len h.len' h.le h.pre
      cases h1 : cWrite c.buffer c.numbytes (data.take (n - c.numbytes)) <;>
        cases h2 : cWrite c'.buffer c.numbytes (data.take (n - c.numbytes)) <;> rw [h1, h2] at w
      · trivial
      · exact w.elim
      · exact w.elim
      · obtain ⟨w1, w2, w3, w4⟩ := w
        have hl : (data.take (n - c.numbytes)).length = n - c.numbytes := by rw [List.length_take]; omega
        obtain rfl := take_all w1 w2 (by omega) w3
        exact mdTail_same hn _ (Nat.le_refl _) (by simp only [h.h]) w1 w1
  · rw [if_neg h0, if_neg h0]
    exact mdTail_same hn _ (Nat.le_refl _) h.h h.len h.len'

theorem sameCtx_init {n : Nat} (a : γ) {b b' : Bytes} (l : b.length = n) (l' : b'.length = n) :
    SameCtx n (⟨a, 0, b⟩ : MDBuf γ) ⟨a, 0, b'⟩ := ⟨rfl, rfl, Nat.zero_le _, l, l', rfl⟩

end Verif
