import Verif.Spec.Inert
import Verif.Proof.BlockRun
import Verif.Props.C18_C21_Stream
import Verif.Proof.SafeStream
import Verif.Props.Example
/-
C86 A call that raises an exception has no effect.

`Spec.NoEffectIfRaises T t0 c` (Spec/Inert): whatever calls the object has been through, if `c`
raises, no sequence of calls tells the object from one on which `c` was not tried.

True of every call of the stream ciphers, and of `flush`, `finish`, `put_char`, `put_byte` and the
get methods of the block ciphers without padding. False of `put_substring` of the block ciphers,
which has processed the blocks that precede the end of the string when it notices that the range is
not valid (`C86_block_put_substring`).
-/
namespace Verif

open Spec

variable {τ σ : Type}

/-- From the states related to `s` and `q`, the method has the same result `r` and leads to states
related to `s'` and `q'`. -/
def Settled (R : τ → σ → Bytes → Prop) (m : M τ α) (s : σ) (q : Bytes) (r : Except Exn α) (s' : σ)
    (q' : Bytes) : Prop :=
  ∀ t, R t s q → ∃ t', m t = (match r with | .ok a => .ok a t' | .error e => .exn e t') ∧ R t' s' q'

/-- The method's result and effect depend on the abstract state only. -/
def Settles (R : τ → σ → Bytes → Prop) (m : M τ α) : Prop :=
  ∀ s q, (∃ t, R t s q) → ∃ r s' q', Settled R m s q r s' q'

/-- An exception leaves the abstract state as it was. -/
def Keeps (R : τ → σ → Bytes → Prop) (m : M τ α) : Prop :=
  ∀ s q t e t', R t s q → m t = .exn e t' → R t' s q

variable {R : τ → σ → Bytes → Prop} {T : Transform τ}

theorem Settled.unit {m : M τ Unit} {s q r s' q'} (h : Settled R m s q r s' q') :
    Settled R (do m; pure ([] : Bytes)) s q (r.map fun _ => []) s' q' := by
  intro t ht
  obtain ⟨t', h1, h2⟩ := h t ht
  refine ⟨t', ?_, h2⟩
  cases r with
  | ok a => exact M.bind_ok h1
  | error e => exact M.bind_exn h1

theorem Settles.unit {m : M τ Unit} (h : Settles R m) : Settles R (do m; pure ([] : Bytes)) := by
  intro s q hq
  obtain ⟨r, s', q', h1⟩ := h s q hq
  exact ⟨_, _, _, h1.unit⟩

theorem Keeps.unit {m : M τ Unit} (h : Keeps R m) : Keeps R (do m; pure ([] : Bytes)) := by
  intro s q t e t' hR hm
  cases hc : m t with
  | ok a t1 => rw [M.bind_ok hc] at hm; cases hm
  | exn e1 t1 =>
    rw [M.bind_exn hc] at hm
    obtain ⟨rfl, rfl⟩ : e1 = e ∧ t1 = t' := by injection hm; exact ⟨by assumption, by assumption⟩
    exact h _ _ _ _ _ hR hc
  | ub => simp [M.bind_def, hc] at hm
  | loop => simp [M.bind_def, hc] at hm

/-- Related states give the same trace. -/
theorem trace_settled (h : ∀ c, Settles R (perform T c)) (cs : List Call) :
    ∀ {s q t t'}, R t s q → R t' s q → trace T cs t = trace T cs t' := by
  induction cs with
  | nil => intros; rfl
  | cons c cs ih =>
    intro s q t t' h1 h2
    obtain ⟨r, s', q', hr⟩ := h c s q ⟨t, h1⟩
    obtain ⟨t1, e1, r1⟩ := hr t h1
    obtain ⟨t2, e2, r2⟩ := hr t' h2
    rw [trace, trace, e1, e2]
    cases r <;> simp only [ih r1 r2]

theorem after_settled (h : ∀ c, Settles R (perform T c)) {t0 t : τ} (h0 : ∃ s q, R t0 s q)
    (ht : After T t0 t) : ∃ s q, R t s q := by
  induction ht with
  | start => exact h0
  | @returned t t' c _ _ hr ih =>
    obtain ⟨s, q, hR⟩ := ih
    obtain ⟨r, s', q', hs⟩ := h c s q ⟨t, hR⟩
    obtain ⟨t1, e1, r1⟩ := hs t hR
    simp only [Spec.discard] at hr
    cases r with
    | ok a => rw [M.bind_ok e1] at hr; cases hr; exact ⟨s', q', r1⟩
    | error e => rw [M.bind_exn e1] at hr; cases hr
  | @raised t t' c e _ _ hr ih =>
    obtain ⟨s, q, hR⟩ := ih
    obtain ⟨r, s', q', hs⟩ := h c s q ⟨t, hR⟩
    obtain ⟨t1, e1, r1⟩ := hs t hR
    simp only [Spec.discard] at hr
    cases r with
    | ok a => rw [M.bind_ok e1] at hr; cases hr
    | error e => rw [M.bind_exn e1] at hr; cases hr; exact ⟨s', q', r1⟩

theorem noEffect_of_keeps (h : ∀ c, Settles R (perform T c)) {t0 : τ} (h0 : ∃ s q, R t0 s q) {c : Call}
    (hk : Keeps R (perform T c)) : NoEffectIfRaises T t0 c := by
  intro t ht e t' hr cs
  obtain ⟨s, q, hR⟩ := after_settled h h0 ht
  exact trace_settled h cs hR (hk s q t e t' hR hr)

/-- Get methods. -/
def IsGet : TOp → Prop
  | .getString | .getSubstring | .getChar | .getByte | .available => True
  | _ => False

theorem get_settled {S : XSpec σ} {maxLen : Nat} (h : Refines T S maxLen R) {o : TOp} (ho : IsGet o)
    (s : σ) (q : Bytes) :
    ∃ x q', Settled R (perform T (.op o)) s q (.ok x) s q' := by
  cases o with
  | getString =>
    refine ⟨q, [], fun t ht => ?_⟩
    obtain ⟨t', h1, h2⟩ := h.getString ht
    exact ⟨t', h1, h2⟩
  | getSubstring =>
    refine ⟨q, [], fun t ht => ?_⟩
    obtain ⟨b, ofs, t', h1, h2, h3, h4⟩ := h.getSubstring ht
    refine ⟨t', ?_, h4⟩
    simp only [perform, Transform.call]
    rw [M.bind_ok h1]
    simp only
    rw [bytesSub_ok h2, h3]; rfl
  | getChar =>
    cases q with
    | nil => exact ⟨[], [], fun t ht => ⟨t, by simp [perform, Transform.call, h.getChar_nil ht], ht⟩⟩
    | cons c q =>
      refine ⟨[c], q, fun t ht => ?_⟩
      obtain ⟨t', h1, h2⟩ := h.getChar_cons ht
      exact ⟨t', by simp [perform, Transform.call, h1], h2⟩
  | getByte =>
    cases q with
    | nil => exact ⟨[], [], fun t ht => ⟨t, by simp [perform, Transform.call, h.getByte_nil ht], ht⟩⟩
    | cons c q =>
      refine ⟨[c], q, fun t ht => ?_⟩
      obtain ⟨t', h1, h2⟩ := h.getByte_cons ht
      have : BitVec.ofInt 8 (c.toNat : Int) = c := by
        rw [BitVec.ofInt_natCast, BitVec.ofNat_toNat, BitVec.setWidth_eq]
      exact ⟨t', by simp [perform, Transform.call, h1, this], h2⟩
  | available => exact ⟨[], q, fun t ht => ⟨t, M.bind_ok (h.available ht), ht⟩⟩
  | putSubstring | putString | putChar | putByte => exact ho.elim

theorem get_settles {S : XSpec σ} {maxLen : Nat} (h : Refines T S maxLen R) {o : TOp} (ho : IsGet o) :
    Settles R (perform T (.op o)) := by
  intro s q _
  obtain ⟨x, q', h1⟩ := get_settled h ho s q
  exact ⟨_, _, _, h1⟩

theorem get_keeps {S : XSpec σ} {maxLen : Nat} (h : Refines T S maxLen R) {o : TOp} (ho : IsGet o) :
    Keeps R (perform T (.op o)) := by
  intro s q t e t' hR hm
  obtain ⟨x, q', h1⟩ := get_settled h ho s q
  obtain ⟨t1, e1, _⟩ := h1 t hR
  rw [e1] at hm; cases hm

theorem perform_settles {S : XSpec σ} {maxLen : Nat} (h : Refines T S maxLen R)
    (putSubstring : ∀ b ofs len, Settles R (T.putSubstring b ofs len))
    (putString : ∀ b, Settles R (T.putString b)) (putChar : ∀ c, Settles R (T.putChar c))
    (putByte : ∀ c, Settles R (T.putByte c)) (flush : Settles R T.flush) (finish : Settles R T.finish)
    (c : Call) : Settles R (perform T c) := by
  cases c with
  | flush => exact flush.unit
  | finish => exact finish.unit
  | op o =>
    cases o with
    | putSubstring b ofs len => exact (putSubstring b ofs len).unit
    | putString b => exact (putString b).unit
    | putChar c => exact (putChar c).unit
    | putByte c => exact (putByte c).unit
    | getString | getSubstring | getChar | getByte | available => exact get_settles h trivial

/-! ### Stream ciphers -/

section Stream

variable {next : σ → Option (Byte × σ)} {wipe : σ → σ} {At : σ → Nat → Prop} {ks : Nat → Byte} {env : Env}

/-- The object state of a stream cipher at position `p` with pending output `q`. -/
abbrev StreamRep (env : Env) (At : σ → Nat → Prop) (t : StreamSt σ) (p : Nat) (q : Bytes) : Prop :=
  StreamPos At t p ∧ OBuf.Rep env t.ob q

theorem ensureCapacity_any {o : OBuf} {q : Bytes} (h : OBuf.Rep env o q) (n : Int)
    (hn : n < 0 ∨ q.length + n ≤ env.maxLen) :
    ∃ o', OBuf.ensureCapacity env n o = .ok () o' ∧ OBuf.Rep env o' q := by
  rcases Int.lt_or_le n 0 with h0 | h0
  · refine ⟨o, ?_, h⟩
    have := h.bound
    unfold OBuf.ensureCapacity
    simp only
    rw [if_neg (by omega)]
  · obtain ⟨k, rfl⟩ := Int.eq_ofNat_of_zero_le h0
    obtain ⟨o', h1, h2, _⟩ := OBuf.ensureCapacity_ok h k (by omega)
    exact ⟨o', h1, h2⟩

/-- `put_substring` of a stream cipher, on any arguments: it fails without effect, or appends. -/
theorem streamPut_cases (h : Generates next At ks) (b : Bytes) (ofs len : Int) (p : Nat) (q : Bytes) :
    (∃ e, Settled (StreamRep env At) (streamPut env (checkedStream next wipe) b ofs len) p q (.error e) p q)
    ∨ ∃ p' q', Settled (StreamRep env At) (streamPut env (checkedStream next wipe) b ofs len) p q (.ok ()) p' q' := by
  by_cases hfit : len < 0 ∨ (q.length : Int) + len ≤ env.maxLen
  · by_cases hr : InRange b ofs len
    · right
      obtain ⟨h1, h2, h3⟩ := hr
      obtain ⟨ofs, rfl⟩ := Int.eq_ofNat_of_zero_le h2
      obtain ⟨len, rfl⟩ := Int.eq_ofNat_of_zero_le h1
      refine ⟨p + (slice b ofs len).length, q ++ xorKeystream ks p (slice b ofs len), fun t ht => ?_⟩
      have hs := streamPut_refines (checkedStream_implements h wipe) ht (show ofs + len ≤ b.length by omega)
      exact hs (by
        simp only [xorKeystream_length, slice_length_of_le (show ofs + len ≤ b.length by omega)]
        omega)
    · left
      refine ⟨.invalidArg, fun t ht => ?_⟩
      obtain ⟨⟨hA, hc⟩, hob⟩ := ht
      obtain ⟨o', e1, r1⟩ := ensureCapacity_any hob len hfit
      refine ⟨{ t with ob := o' }, ?_, ⟨hA, hc⟩, r1⟩
      have hbad : len < 0 ∨ ofs < 0 ∨ ofs > (b.length : Int) - len
          ∨ ((o'.oend : Int) < 0) ∨ (o'.oend : Int) > (o'.obuf.length : Int) - len := by
        unfold InRange at hr
        omega
      have htr : (checkedStream next wipe).transform (.other b) ofs o'.oend len (t.c, o'.obuf)
          = .exn .invalidArg (t.c, o'.obuf) := by
        simp only [checkedStream, M.bind_def, M.get_def]
        rw [if_pos (by exact hbad)]; rfl
      simp only [streamPut, bind, M.bind, M.zoom, e1, htr]
  · left
    refine ⟨.error .outputBufferOverflow, fun t ht => ?_⟩
    obtain ⟨n, rfl⟩ := Int.eq_ofNat_of_zero_le (show 0 ≤ len by omega)
    have := OBuf.ensureCapacity_overflow ht.2 n (by omega)
    refine ⟨t, ?_, ht⟩
    simp only [streamPut, bind, M.bind, M.zoom, this]

theorem Settled.of_cases {m : M τ Unit} {p : σ} {q : Bytes}
    (h : (∃ e, Settled R m p q (.error e) p q) ∨ ∃ p' q', Settled R m p q (.ok ()) p' q') :
    (∃ r s' q', Settled R m p q r s' q') ∧ ∀ t e t', R t p q → m t = .exn e t' → R t' p q := by
  rcases h with ⟨e, h⟩ | ⟨p', q', h⟩
  · refine ⟨⟨_, _, _, h⟩, fun t e' t' hR hm => ?_⟩
    obtain ⟨t1, e1, r1⟩ := h t hR
    rw [e1] at hm; cases hm; exact r1
  · refine ⟨⟨_, _, _, h⟩, fun t e' t' hR hm => ?_⟩
    obtain ⟨t1, e1, r1⟩ := h t hR
    rw [e1] at hm; cases hm

theorem streamPutChar_cases (h : Generates next At ks) (ch : Byte) (p : Nat) (q : Bytes) :
    (∃ e, Settled (StreamRep env At) (streamPutChar env (checkedStream next wipe) ch) p q (.error e) p q)
    ∨ ∃ p' q', Settled (StreamRep env At) (streamPutChar env (checkedStream next wipe) ch) p q (.ok ()) p' q' := by
  have hcode : ∀ t : StreamSt σ, t.charbuf.length = 1 → streamPutChar env (checkedStream next wipe) ch t
      = streamPut env (checkedStream next wipe) [ch] 0 1 { t with charbuf := [ch] } := by
    intro t hcb
    have hset := bytesSet_ok (b := t.charbuf) (i := 0) (c := ch) (by omega)
    rw [Int.natCast_zero] at hset
    have hc1 : t.charbuf.set 0 ch = [ch] := by
      match hb : t.charbuf, hcb with
      | [x], _ => rfl
    simp only [streamPutChar, M.bind_def, M.get_def, hset, M.orRaise_some, M.modify_def, hc1]
  rcases streamPut_cases (env := env) (wipe := wipe) h [ch] 0 1 p q with ⟨e, hs⟩ | ⟨p', q', hs⟩
  · refine .inl ⟨e, fun t ht => ?_⟩
    rw [hcode t ht.1.2]
    exact hs _ ⟨⟨ht.1.1, rfl⟩, ht.2⟩
  · refine .inr ⟨p', q', fun t ht => ?_⟩
    rw [hcode t ht.1.2]
    exact hs _ ⟨⟨ht.1.1, rfl⟩, ht.2⟩

theorem stream_settles (h : Generates next At ks) (c : Call) :
    Settles (StreamRep env At) (perform (streamTransform env (checkedStream next wipe)) c) := by
  refine perform_settles (streamTransform_refines env (checkedStream_implements h wipe)) ?_ ?_ ?_ ?_ ?_ ?_ c
  · exact fun b ofs len s q _ => (Settled.of_cases (streamPut_cases h b ofs len s q)).1
  · exact fun b s q _ => (Settled.of_cases (streamPut_cases h b 0 b.length s q)).1
  · exact fun ch s q _ => (Settled.of_cases (streamPutChar_cases h ch s q)).1
  · exact fun ch s q _ => (Settled.of_cases (streamPutChar_cases h (BitVec.ofInt 8 ch) s q)).1
  · exact fun s q _ => ⟨.ok (), s, q, fun t ht => ⟨t, rfl, ht⟩⟩
  · exact fun s q _ => ⟨.ok (), s, q, fun t ht => ⟨t, rfl, ht⟩⟩

theorem stream_keeps (h : Generates next At ks) (c : Call) :
    Keeps (StreamRep env At) (perform (streamTransform env (checkedStream next wipe)) c) := by
  have hf : Keeps (StreamRep env At) (M.pure () : M (StreamSt σ) Unit) := by
    intro s q t e t' _ hm; cases hm
  have hr := streamTransform_refines env (checkedStream_implements h wipe)
  cases c with
  | flush => exact hf.unit
  | finish => exact hf.unit
  | op o =>
    cases o with
    | putSubstring b ofs len =>
      exact Keeps.unit fun s q t e t' => (Settled.of_cases (streamPut_cases h b ofs len s q)).2 t e t'
    | putString b =>
      exact Keeps.unit fun s q t e t' => (Settled.of_cases (streamPut_cases h b 0 b.length s q)).2 t e t'
    | putChar ch =>
      exact Keeps.unit fun s q t e t' => (Settled.of_cases (streamPutChar_cases h ch s q)).2 t e t'
    | putByte ch =>
      exact Keeps.unit fun s q t e t' =>
        (Settled.of_cases (streamPutChar_cases h (BitVec.ofInt 8 ch) s q)).2 t e t'
    | getString | getSubstring | getChar | getByte | available => exact get_keeps hr trivial

end Stream

theorem stream_noEffect {next : σ → Option (Byte × σ)} {wipe : σ → σ} {At : σ → Nat → Prop}
    {ks : Nat → Byte} {env : Env} (h : Generates next At ks) {s : σ} (hs : At s 0) (hm : 256 ≤ env.maxLen)
    (c : Call) : NoEffectIfRaises (streamTransform env (checkedStream next wipe)) (streamInit env s) c :=
  noEffect_of_keeps (stream_settles h) ⟨_, _, streamRep_init env hm hs⟩ (stream_keeps h c)

/-- C86, ARCfour: no call that raises has an effect. -/
theorem C86_arcfour {env : Env} {key : Bytes} {dir : Dir} {A : Cipher.AnyTransform}
    (h : Cipher.arcfour env key dir = .ok A) (hm : 256 ≤ env.maxLen) (c : Call) :
    NoEffectIfRaises A.T A.t c := by
  by_cases hk : 1 ≤ key.length ∧ key.length ≤ 256
  · have hi := arcfourInit_at hk.1 hk.2
    simp only [Cipher.arcfour, hi.1, Except.map, Except.ok.injEq] at h
    subst h
    exact stream_noEffect (arcfour_generates key) hi.2 hm c
  · rw [Cipher.arcfour, C14_arcfour_key_size hk] at h
    cases h

/-- C86, ChaCha20: no call that raises has an effect. -/
theorem C86_chacha20 {env : Env} {iv : Option Bytes} {ctr : Option W64} {key : Bytes} {dir : Dir}
    {A : Cipher.AnyTransform} (h : Cipher.chacha20 env iv ctr key dir = .ok A) (hm : 256 ≤ env.maxLen)
    (c : Call) : NoEffectIfRaises A.T A.t c := by
  by_cases ha : Spec.ChaChaArgs key iv (ctr.getD 0)
  · simp only [Cipher.chacha20, chacha20Init_ok env ha, Except.map, Except.ok.injEq] at h
    subst h
    exact stream_noEffect (chacha_generates ha.1 (chachaIV_length ha) _)
      (chachaInit_at env _ ha.1 (chachaIV_length ha)) hm c
  · rw [Cipher.chacha20, C14_chacha20_args ha] at h
    cases h

/-! ### Block ciphers -/

section Block

variable {env : Env} {c : BlockCipher σ} {inv : σ → Prop} {f : σ → Bytes → BRes σ}

/-- `pushBlock`, whether or not there is room. -/
theorem pushBlock_settled (h : Implements c inv f) {t : CipherSt σ} {q : Bytes} (hinv : inv t.c)
    (hib : t.ibuf.length = c.blocksize) (hob : OBuf.Rep env t.ob q) :
    if q.length + c.blocksize ≤ env.maxLen then
      match (f t.c t.ibuf).exn with
      | none => ∃ ob', CipherSt.pushBlock env c t = .ok () { t with c := (f t.c t.ibuf).st, ob := ob' }
          ∧ OBuf.Rep env ob' (q ++ (f t.c t.ibuf).out)
      | some e => ∃ ob', CipherSt.pushBlock env c t = .exn e { t with c := (f t.c t.ibuf).st, ob := ob' }
          ∧ OBuf.Rep env ob' q
    else CipherSt.pushBlock env c t = .exn (.error .outputBufferOverflow) t := by
  split
  · rename_i hfit
    obtain ⟨o', h1, h2, h3⟩ := OBuf.ensureCapacity_ok hob c.blocksize hfit
    have hrun := h.run (s := t.c) (src := .other t.ibuf) (so := 0) (dofs := o'.oend)
      (dst := o'.obuf) hinv (by simp only [Src.read_other]; omega) h3
    simp only [Src.read_other, slice_full' hib, Int.natCast_zero] at hrun
    have hol := h.out_len hinv hib
    cases hexn : (f t.c t.ibuf).exn with
    | none =>
      simp only [BRes.toOut, hexn] at hrun
      simp only
      refine ⟨_, ?_, h2.write (by omega)⟩
      simp only [CipherSt.pushBlock, M.bind_def, CipherSt.onBuf, M.zoom, h1, CipherSt.callOut,
        hrun, M.modify_def, hol]
    | some e =>
      simp only [BRes.toOut, hexn] at hrun
      simp only
      exact ⟨_, by simp only [CipherSt.pushBlock, M.bind_def, CipherSt.onBuf, M.zoom, h1,
        CipherSt.callOut, hrun], h2.scratch (x := (f t.c t.ibuf).out) (by omega)⟩
  · rename_i hfit
    have h1 := OBuf.ensureCapacity_overflow hob c.blocksize (by omega)
    simp only [CipherSt.pushBlock, M.bind_def, CipherSt.onBuf, M.zoom, h1]

theorem put_blit_none {src : Bytes} {ofs len : Int} {t : CipherSt σ} 
    (hlen : ¬ len ≤ 0) (hfull : ¬ (t.used : Int) + len ≤ c.blocksize)
    (hb : bytesBlit src ofs t.ibuf t.used ((c.blocksize : Int) - t.used) = none) :
    cipherPutSubstring env c src ofs len t = .exn .invalidArg t := by
  rw [cipherPutSubstring, if_neg hlen, if_neg hfull]
  simp only
  split
  · rfl
  · rename_i ib h0; rw [hb] at h0; cases h0

theorem cipherPut_settles (h : Implements c inv f) (src : Bytes) :
    ∀ (m : Nat) (ofs len : Int) (s : σ × Bytes) (q : Bytes),
    len.toNat * 2 + (if s.2.length = 0 then 0 else 1) = m → inv s.1 → s.2.length ≤ c.blocksize →
    ∃ r s' q', Settled (BlockRep env c inv) (cipherPutSubstring env c src ofs len) s q r s' q' := by
  intro m
  induction m using Nat.strongRecOn with
  | _ m ih =>
    intro ofs len s q hm hinv hle
    have hpos := h.pos
    by_cases hlen : len ≤ 0
    · refine ⟨.ok (), s, q, fun t ht => ⟨t, ?_, ht⟩⟩
      rw [cipherPutSubstring, if_pos hlen]
    by_cases hfit : (s.2.length : Int) + len ≤ c.blocksize
    · by_cases hr : InRange src ofs len
      · obtain ⟨h1, h2, h3⟩ := hr
        obtain ⟨ofs, rfl⟩ := Int.eq_ofNat_of_zero_le h2
        obtain ⟨len, rfl⟩ := Int.eq_ofNat_of_zero_le h1
        refine ⟨.ok (), (s.1, s.2 ++ slice src ofs len), q, fun t ht => ?_⟩
        obtain ⟨ib, hb1, hb2, hb3⟩ := blit_ibuf (m := len) (src := src) (ofs := ofs) ht.ilen ht.pend ht.used
          (by have := ht.used; omega) (by omega)
        have hsl : (slice src ofs len).length = len := slice_length_of_le (by omega)
        refine ⟨{ t with ibuf := ib, used := t.used + len }, ?_, ?_⟩
        · rw [cipherPutSubstring, if_neg hlen, if_pos (by rw [ht.used]; exact hfit), hb1]
          simp
        · exact { inv := ht.inv, st := ht.st, ilen := hb2
                  used := by simp only [List.length_append, ht.used, hsl]
                  le := by simp only [List.length_append, hsl]; omega
                  pend := hb3, ob := ht.ob }
      · refine ⟨.error .invalidArg, s, q, fun t ht => ⟨t, ?_, ht⟩⟩
        rw [cipherPutSubstring, if_neg hlen, if_pos (by rw [ht.used]; exact hfit), bytesBlit_bad_src hr]
    · by_cases hr : InRange src ofs ((c.blocksize : Int) - s.2.length)
      · obtain ⟨h1, h2, h3⟩ := hr
        obtain ⟨ofs, rfl⟩ := Int.eq_ofNat_of_zero_le h2
        have hn : (c.blocksize : Int) - s.2.length = ((c.blocksize - s.2.length : Nat) : Int) := by omega
        have hsl : (slice src ofs (c.blocksize - s.2.length)).length = c.blocksize - s.2.length :=
          slice_length_of_le (by omega)
        -- the block that is processed
        have hblk : ∀ t, BlockRep env c inv t s q →
            bytesBlit src ofs t.ibuf t.used ((c.blocksize : Int) - t.used)
              = some (s.2 ++ slice src ofs (c.blocksize - s.2.length)) := by
          intro t ht
          obtain ⟨ib, hb1, hb2, hb3⟩ := blit_ibuf (m := c.blocksize - s.2.length) (src := src) (ofs := ofs)
            ht.ilen ht.pend ht.used (by have := ht.used; omega) (by omega)
          rw [List.take_of_length_le (by rw [hb2, ht.used]; omega)] at hb3
          rw [ht.used] at hb1 ⊢
          rw [hn, hb1, hb3]
        generalize hib : s.2 ++ slice src ofs (c.blocksize - s.2.length) = ib at hblk
        have hibl : ib.length = c.blocksize := by rw [← hib, List.length_append, hsl]; omega
        have hpend : ib.take s.2.length = s.2 := by rw [← hib, List.take_left]
        have hpush : ∀ t, BlockRep env c inv t s q → _ := fun t ht =>
          pushBlock_settled (env := env) (q := q) h (t := { t with ibuf := ib }) ht.inv hibl ht.ob
        by_cases hroom : q.length + c.blocksize ≤ env.maxLen
        · simp only [if_pos hroom] at hpush
          cases hexn : (f s.1 ib).exn with
          | some e =>
            refine ⟨.error e, ((f s.1 ib).st, s.2), q, fun t ht => ?_⟩
            have hp := hpush t ht
            have hexn' := hexn
            rw [← ht.st] at hexn'
            rw [hexn'] at hp
            obtain ⟨ob', e1, r1⟩ := hp
            refine ⟨_, put_full_exn hlen (by rw [ht.used]; exact hfit) (hblk t ht) e1, ?_⟩
            exact { inv := h.inv_step ht.inv hibl, st := by rw [ht.st], ilen := hibl, used := ht.used, le := hle
                    pend := by simp only [ht.used, hpend], ob := r1 }
          | none =>
            obtain ⟨r, s', q', hrec⟩ := ih ((len - ((c.blocksize : Int) - s.2.length)).toNat * 2)
              (by
                rw [← hm]
                split <;> omega)
              ((ofs : Int) + ((c.blocksize : Int) - s.2.length)) (len - ((c.blocksize : Int) - s.2.length))
              ((f s.1 ib).st, []) (q ++ (f s.1 ib).out) (by simp) (h.inv_step hinv hibl) (by simp)
            refine ⟨r, s', q', fun t ht => ?_⟩
            have hp := hpush t ht
            have hexn' := hexn
            rw [← ht.st] at hexn'
            rw [hexn'] at hp
            obtain ⟨ob', e1, r1⟩ := hp
            have e2 := put_full_ok hlen (by rw [ht.used]; exact hfit) hpos (hblk t ht) e1
            rw [e2, ht.used]
            refine hrec _ { inv := h.inv_step ht.inv hibl, st := by rw [ht.st], ilen := hibl, used := rfl
                            le := by simp, pend := by simp, ob := ?_ }
            rw [ht.st] at r1
            exact r1
        · simp only [if_neg hroom] at hpush
          refine ⟨.error (.error .outputBufferOverflow), s, q, fun t ht => ?_⟩
          refine ⟨_, put_full_exn hlen (by rw [ht.used]; exact hfit) (hblk t ht) (hpush t ht), ?_⟩
          exact { inv := ht.inv, st := ht.st, ilen := hibl, used := ht.used, le := hle
                  pend := by simp only [ht.used, hpend], ob := ht.ob }
      · refine ⟨.error .invalidArg, s, q, fun t ht => ⟨t, ?_, ht⟩⟩
        refine put_blit_none hlen (by rw [ht.used]; exact hfit) ?_
        rw [ht.used]
        exact bytesBlit_bad_src hr

/-- `put_char`: it fails without effect (or with the effect the block function has when it raises), or
it succeeds. -/
theorem cipherPutChar_cases (h : Implements c inv f) (ch : Byte) (s : σ × Bytes) (q : Bytes)
    (hinv : inv s.1) :
    (∃ e s', Settled (BlockRep env c inv) (cipherPutChar env c ch) s q (.error e) s' q ∧ (s' = s ∨ (f s.1 s.2).exn = some e))
    ∨ ∃ s' q', Settled (BlockRep env c inv) (cipherPutChar env c ch) s q (.ok ()) s' q' := by
  have hpos := h.pos
  by_cases hlt : s.2.length < c.blocksize
  · refine .inr ⟨(s.1, s.2 ++ [ch]), q, fun t ht => ?_⟩
    have hput := cipherPutChar_refines h.runs ht ch
    simp only [blockSpec, List.cons_ne_self, if_false] at hput
    rw [lazyBlocks_le (by simp; omega)] at hput
    simpa using hput (by have := ht.ob.max; have := ht.ob.length; have := ht.ob.bound; simp; omega)
  · by_cases hroom : q.length + c.blocksize ≤ env.maxLen
    · cases hexn : (f s.1 s.2).exn with
      | some e =>
        refine .inl ⟨e, ((f s.1 s.2).st, s.2), fun t ht => ?_, .inr rfl⟩
        · have hle := ht.le
          have hib : t.ibuf = s.2 := by
            rw [← ht.pend, List.take_of_length_le (by rw [ht.ilen, ht.used]; omega)]
          have hp := pushBlock_settled (env := env) (q := q) h (t := t) ht.inv ht.ilen ht.ob
          have hexn' := hexn
          rw [← ht.st, ← hib] at hexn'
          rw [if_pos hroom, hexn'] at hp
          obtain ⟨ob', e1, r1⟩ := hp
          refine ⟨{ t with c := (f t.c t.ibuf).st, ob := ob' }, ?_, ?_⟩
          · rw [cipherPutChar, if_neg (by rw [ht.used]; exact hlt), M.bind_exn e1]
          · exact { inv := h.inv_step ht.inv ht.ilen, st := by rw [ht.st, hib], ilen := ht.ilen
                    used := ht.used, le := ht.le, pend := ht.pend, ob := r1 }
      | none =>
        refine .inr ⟨((f s.1 s.2).st, [ch]), q ++ (f s.1 s.2).out, fun t ht => ?_⟩
        have hle := ht.le
        have hput := cipherPutChar_refines h.runs ht ch
        simp only [blockSpec, List.cons_ne_self, if_false] at hput
        rw [lazyBlocks_gt hpos (by simp; omega), List.take_left' (by omega), List.drop_left' (by omega), hexn] at hput
        have hl : lazyBlocks c.blocksize f (f s.1 s.2).st [ch] = .ok [] ((f s.1 s.2).st, [ch]) :=
          lazyBlocks_le (by simp; omega)
        simp only [SRes.andThen, hl, List.append_nil] at hput
        exact hput (by rw [h.out_len hinv (by omega)]; exact hroom)
    · refine .inl ⟨.error .outputBufferOverflow, s, fun t ht => ?_, .inl rfl⟩
      have hp := pushBlock_settled (env := env) (q := q) h (t := t) ht.inv ht.ilen ht.ob
      rw [if_neg hroom] at hp
      refine ⟨t, ?_, ht⟩
      rw [cipherPutChar, if_neg (by rw [ht.used]; exact hlt), M.bind_exn hp]

theorem cipherFlush_cases (h : Implements c inv f) (s : σ × Bytes) (q : Bytes) (hinv : inv s.1) :
    (∃ e s', Settled (BlockRep env c inv) (cipherFlush env c) s q (.error e) s' q ∧ (s' = s ∨ (f s.1 s.2).exn = some e))
    ∨ ∃ s' q', Settled (BlockRep env c inv) (cipherFlush env c) s q (.ok ()) s' q' := by
  have hpos := h.pos
  by_cases h0 : s.2.length = 0
  · refine .inr ⟨s, q, fun t ht => ⟨t, ?_, ht⟩⟩
    rw [cipherFlush, if_pos (by rw [ht.used]; exact h0)]
  by_cases hfull : s.2.length = c.blocksize
  · by_cases hroom : q.length + c.blocksize ≤ env.maxLen
    · cases hexn : (f s.1 s.2).exn with
      | some e =>
        refine .inl ⟨e, ((f s.1 s.2).st, s.2), fun t ht => ?_, .inr rfl⟩
        · have hib : t.ibuf = s.2 := by
            rw [← ht.pend, List.take_of_length_le (by rw [ht.ilen, ht.used]; omega)]
          have hp := pushBlock_settled (env := env) (q := q) h (t := t) ht.inv ht.ilen ht.ob
          have hexn' := hexn
          rw [← ht.st, ← hib] at hexn'
          rw [if_pos hroom, hexn'] at hp
          obtain ⟨ob', e1, r1⟩ := hp
          refine ⟨{ t with c := (f t.c t.ibuf).st, ob := ob' }, ?_, ?_⟩
          · rw [cipherFlush, if_neg (by rw [ht.used]; exact h0), if_pos (by rw [ht.used]; exact hfull),
              M.bind_exn e1]
          · exact { inv := h.inv_step ht.inv ht.ilen, st := by rw [ht.st, hib], ilen := ht.ilen
                    used := ht.used, le := ht.le, pend := ht.pend, ob := r1 }
      | none =>
        refine .inr ⟨((f s.1 s.2).st, []), q ++ (f s.1 s.2).out, fun t ht => ?_⟩
        have hput := cipherFlush_refines h.runs ht
        rw [blockFlush, if_neg h0, if_pos hfull, oneBlock, hexn] at hput
        exact hput (by rw [h.out_len hinv hfull]; exact hroom)
    · refine .inl ⟨.error .outputBufferOverflow, s, fun t ht => ?_, .inl rfl⟩
      have hp := pushBlock_settled (env := env) (q := q) h (t := t) ht.inv ht.ilen ht.ob
      rw [if_neg hroom] at hp
      refine ⟨t, ?_, ht⟩
      rw [cipherFlush, if_neg (by rw [ht.used]; exact h0), if_pos (by rw [ht.used]; exact hfull),
        M.bind_exn hp]
  · refine .inl ⟨.error .wrongDataLength, s, fun t ht => ⟨t, ?_, ht⟩, .inl rfl⟩
    rw [cipherFlush, if_neg (by rw [ht.used]; exact h0), if_neg (by rw [ht.used]; exact hfull)]

theorem Settled.of_cases' {m : M τ Unit} {p : σ} {q : Bytes} {x : Option Exn}
    (h : (∃ e s', Settled R m p q (.error e) s' q ∧ (s' = p ∨ x = some e))
      ∨ ∃ p' q', Settled R m p q (.ok ()) p' q') :
    (∃ r s' q', Settled R m p q r s' q') ∧ ∀ t e t', x ≠ some e → R t p q → m t = .exn e t' → R t' p q := by
  rcases h with ⟨e, s', h, hp⟩ | ⟨p', q', h⟩
  · refine ⟨⟨_, _, _, h⟩, fun t e' t' hP hR hm => ?_⟩
    obtain ⟨t1, e1, r1⟩ := h t hR
    rw [e1] at hm; cases hm
    rcases hp with rfl | hp
    · exact r1
    · exact absurd hp hP
  · refine ⟨⟨_, _, _, h⟩, fun t e' t' _ hR hm => ?_⟩
    obtain ⟨t1, e1, r1⟩ := h t hR
    rw [e1] at hm; cases hm

theorem block_settles (h : Implements c inv f) (x : Call) :
    Settles (BlockRep env c inv) (perform (blockTransform env c) x) := by
  have hi : ∀ {s q}, (∃ t, BlockRep env c inv t s q) → inv s.1 ∧ s.2.length ≤ c.blocksize := by
    rintro s q ⟨t, ht⟩
    exact ⟨ht.st ▸ ht.inv, ht.le⟩
  refine perform_settles (blockTransform_refines env h) ?_ ?_ ?_ ?_ ?_ ?_ x
  · exact fun b ofs len s q hq => cipherPut_settles h b _ ofs len s q rfl (hi hq).1 (hi hq).2
  · exact fun b s q hq => cipherPut_settles h b _ 0 b.length s q rfl (hi hq).1 (hi hq).2
  · exact fun ch s q hq => (Settled.of_cases' (cipherPutChar_cases h ch s q (hi hq).1)).1
  · exact fun ch s q hq => (Settled.of_cases' (cipherPutChar_cases h (BitVec.ofInt 8 ch) s q (hi hq).1)).1
  · exact fun s q hq => (Settled.of_cases' (cipherFlush_cases h s q (hi hq).1)).1
  · exact fun s q hq => (Settled.of_cases' (cipherFlush_cases h s q (hi hq).1)).1

end Block

/-- The calls other than `put_substring` and `put_string`. -/
def Spec.Single : Call → Prop
  | .op (.putSubstring ..) | .op (.putString _) => False
  | _ => True

theorem block_keeps {env : Env} {c : BlockCipher σ} {inv : σ → Prop} {f : σ → Bytes → BRes σ}
    (h : Implements c inv f) (hf : Total f) {x : Call} (hx : Single x) :
    Keeps (BlockRep env c inv) (perform (blockTransform env c) x) := by
  have hi : ∀ {s q t}, BlockRep env c inv t s q → inv s.1 := fun ht => ht.st ▸ ht.inv
  have hr := blockTransform_refines env h
  cases x with
  | flush =>
    exact Keeps.unit fun s q t e t' ht => (Settled.of_cases' (cipherFlush_cases h s q (hi ht))).2 t e t' (by rw [hf]; exact nofun) ht
  | finish =>
    exact Keeps.unit fun s q t e t' ht => (Settled.of_cases' (cipherFlush_cases h s q (hi ht))).2 t e t' (by rw [hf]; exact nofun) ht
  | op o =>
    cases o with
    | putSubstring b ofs len => exact hx.elim
    | putString b => exact hx.elim
    | putChar ch =>
      exact Keeps.unit fun s q t e t' ht =>
        (Settled.of_cases' (cipherPutChar_cases h ch s q (hi ht))).2 t e t' (by rw [hf]; exact nofun) ht
    | putByte ch =>
      exact Keeps.unit fun s q t e t' ht =>
        (Settled.of_cases' (cipherPutChar_cases h (BitVec.ofInt 8 ch) s q (hi ht))).2 t e t' (by rw [hf]; exact nofun) ht
    | getString | getSubstring | getChar | getByte | available => exact get_keeps hr trivial

/-- C86, block ciphers without padding, for the calls other than `put_substring` and `put_string`. -/
theorem C86_block_partial {env : Env} {c : BlockCipher σ} {inv : σ → Prop} {f : σ → Bytes → BRes σ} {s : σ}
    (h : Implements c inv f) (hf : Total f) (hs : inv s) (hm : max 256 (2 * c.blocksize) ≤ env.maxLen)
    (x : Call) (hx : Single x) : NoEffectIfRaises (blockTransform env c) (cipherInit env c s) x :=
  noEffect_of_keeps (block_settles h) ⟨_, _, blockRep_init env hs hm⟩ (block_keeps h hf hx)

/-- C86 is false of `put_substring` of the block ciphers: when the range exceeds the string, which holds
one block, the exception is raised after the block has been processed, and its image is output. -/
theorem C86_block_put_substring {env : Env} {c : BlockCipher σ} {inv : σ → Prop} {f : σ → Bytes → BRes σ}
    {s : σ} (h : Implements c inv f) (hf : Total f) (hs : inv s) (hm : max 256 (2 * c.blocksize) ≤ env.maxLen)
    (b : Bytes) (hb : b.length = c.blocksize) (len : Int) (hlen : (c.blocksize : Int) < len) :
    trace (blockTransform env c) [.op (.putSubstring b 0 len), .op .getString] (cipherInit env c s)
      = [some (.error .invalidArg), some (.ok (f s b).out)]
    ∧ ¬ NoEffectIfRaises (blockTransform env c) (cipherInit env c s) (.op (.putSubstring b 0 len)) := by
  have hpos := h.pos
  have hR := blockRep_init env (c := c) (inv := inv) (s := s) hs hm
  have hp := pushBlock_settled (env := env) (q := []) h (t := { cipherInit env c s with ibuf := b }) hs hb
    hR.ob
  rw [if_pos (by simp; omega), hf] at hp
  obtain ⟨ob', e1, r1⟩ := hp
  have hbl : bytesBlit b 0 (cipherInit env c s).ibuf (cipherInit env c s).used
      ((c.blocksize : Int) - (cipherInit env c s).used) = some b := by
    have := bytesBlit_ok (src := b) (so := 0) (dst := (cipherInit env c s).ibuf) (dofs := 0) (n := c.blocksize)
      (by omega) (by rw [hR.ilen]; omega)
    simp only [Int.natCast_zero] at this
    rw [show (cipherInit env c s).used = 0 from rfl, Int.natCast_zero, Int.sub_zero, this]
    have hil := hR.ilen
    congr 1
    rw [slice_full' hb, splice, List.take_zero, List.nil_append, List.drop_of_length_le (by omega),
      List.append_nil]
  have e2 := put_full_ok (env := env) (len := len) (by omega) (by
    rw [show (cipherInit env c s).used = 0 from rfl]; omega) hpos hbl e1
  rw [show (cipherInit env c s).used = 0 from rfl, Int.natCast_zero, Int.sub_zero, Int.zero_add] at e2
  have e3 : cipherPutSubstring env c b c.blocksize (len - c.blocksize)
      { c := (f s b).st, ibuf := b, used := 0, ob := ob' }
      = .exn .invalidArg { c := (f s b).st, ibuf := b, used := 0, ob := ob' } := by
    by_cases hsm : len - c.blocksize ≤ c.blocksize
    · rw [cipherPutSubstring, if_neg (by omega), if_pos (by simpa using hsm),
        bytesBlit_bad_src (by unfold InRange; omega)]
    · exact put_blit_none (by omega) (by simpa using hsm)
        (bytesBlit_bad_src (by unfold InRange; simp only [Int.natCast_zero]; omega))
  have hcall : perform (blockTransform env c) (.op (.putSubstring b 0 len)) (cipherInit env c s)
      = .exn .invalidArg { c := (f s b).st, ibuf := b, used := 0, ob := ob' } := by
    refine M.bind_exn (Eq.trans e2 e3)
  have hget : ∀ (t : CipherSt σ) (q : Bytes), OBuf.Rep env t.ob q →
      trace (blockTransform env c) [.op .getString] t = [some (.ok q)] := by
    intro t q ht
    have : perform (blockTransform env c) (.op .getString) t
        = .ok q { t with ob := { t.ob with obeg := 0, oend := 0 } } := by
      simp only [perform, Transform.call, blockTransform, CipherSt.onBuf, M.zoom, OBuf.getString_ok ht]
    simp only [trace, this]
  have hg := hget { c := (f s b).st, ibuf := b, used := 0, ob := ob' } _ r1
  refine ⟨?_, fun hn => ?_⟩
  · rw [trace, hcall]
    simp only [hg, List.nil_append]
    rfl
  · have h1 := hn _ .start _ _ hcall [.op .getString]
    rw [hg, hget _ _ hR.ob] at h1
    have h2 := congrArg (fun l : List (Option (Except Exn Bytes)) =>
      match l with | [some (.ok x)] => x.length | _ => 0) h1
    simp only [List.nil_append, List.length_nil] at h2
    have h3 := h.out_len hs hb
    change 0 = (f s b).out.length at h2
    omega

/-! ### Non-vacuity -/

open Example in
/-- A state in which `flush` raises. -/
example : ∃ t t', After (blockTransform env64 toyEnc) (cipherInit env64 toyEnc key) t
    ∧ perform (blockTransform env64 toyEnc) .flush t = .exn (.error .wrongDataLength) t' := by
  have h1 : perform (blockTransform env64 toyEnc) (.op (.putChar 1)) (cipherInit env64 toyEnc key)
      = .ok [] { cipherInit env64 toyEnc key with
          ibuf := (cipherInit env64 toyEnc key).ibuf.set 0 1, used := 1 } := by rfl
  exact ⟨_, { cipherInit env64 toyEnc key with
    ibuf := (cipherInit env64 toyEnc key).ibuf.set 0 1, used := 1 },
    .returned (c := .op (.putChar 1)) .start trivial (M.bind_ok h1), rfl⟩

open Example in
example : trace (blockTransform env64 toyEnc) [.op (.putSubstring [1, 2, 3, 4] 0 9), .op .getString]
    (cipherInit env64 toyEnc key) = [some (.error .invalidArg), some (.ok (toyE key [1, 2, 3, 4]))] :=
  (C86_block_put_substring toyEnc_pure (fun _ _ => rfl) rfl (by decide) [1, 2, 3, 4] rfl 9 (by decide)).1

open Example in
/-- A call that raises, on a stream cipher. -/
example : ∃ A e t', Cipher.arcfour env64 key .encrypt = .ok A
    ∧ perform A.T (.op (.putSubstring [1, 2, 3] 2 2)) A.t = .exn e t' := by
  have hi := arcfourInit_at (key := key) (by decide) (by decide)
  obtain ⟨e, t', he, _⟩ := streamPut_range arcfour_safe env64 (streamInit env64 (arcfourCookKey key))
    (streamInit_safe env64 (arcfourInit_safe hi.1)) [1, 2, 3] 2 2 (by decide)
  exact ⟨⟨streamTransform env64 arcfour, streamInit env64 (arcfourCookKey key)⟩, e, t',
    by simp only [Cipher.arcfour, hi.1, Except.map], M.bind_exn he⟩

end Verif
