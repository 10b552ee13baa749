import Verif.Spec.Uninit
import Verif.Props.C86_InertMore
/-
Two runs of the same calls on two machines: both follow the same abstract run.
-/
namespace Verif

open Spec

variable {τ τ' ρ : Type}

/-- From the states related to `p`, the method has the result and the abstract state `o`; `none` stands for undefined
behaviour or a loop. -/
def Follows (R : τ → ρ → Prop) (m : M τ α) (p : ρ) (o : Option (Except Exn α × ρ)) : Prop :=
  ∀ t, R t p →
    match o with
    | none => m t = .ub ∨ m t = .loop
    | some (.ok a, p') => ∃ t', m t = .ok a t' ∧ R t' p'
    | some (.error e, p') => ∃ t', m t = .exn e t' ∧ R t' p'

/-- Two methods follow the same abstract run. -/
def Agree (R : τ → ρ → Prop) (R' : τ' → ρ → Prop) (m : M τ α) (m' : M τ' α) : Prop :=
  ∀ p, (∃ t, R t p) → ∃ o, Follows R m p o ∧ Follows R' m' p o

theorem Follows.unit {R : τ → ρ → Prop} {m : M τ Unit} {p : ρ} {o : Option (Except Exn Unit × ρ)}
    (h : Follows R m p o) :
    Follows R (do m; pure ([] : Bytes)) p (o.map fun r => (r.1.map fun _ => [], r.2)) := by
  intro t ht
  have a := h t ht
  match o with
  | none =>
    simp only [Option.map_none] at a ⊢
    rcases a with a | a <;> simp [M.bind_def, a]
  | some (.ok u, p') =>
    obtain ⟨t', e1, r1⟩ := a
    exact ⟨t', M.bind_ok e1, r1⟩
  | some (.error e, p') =>
    obtain ⟨t', e1, r1⟩ := a
    exact ⟨t', M.bind_exn e1, r1⟩

theorem Agree.unit {R : τ → ρ → Prop} {R' : τ' → ρ → Prop} {m : M τ Unit} {m' : M τ' Unit}
    (h : Agree R R' m m') : Agree R R' (do m; pure ([] : Bytes)) (do m'; pure ([] : Bytes)) := by
  intro p hp
  obtain ⟨o, h1, h2⟩ := h p hp
  exact ⟨_, h1.unit, h2.unit⟩

theorem traceBy_agree {R : τ → ρ → Prop} {R' : τ' → ρ → Prop} {step : γ → M τ Bytes} {step' : γ → M τ' Bytes}
    (h : ∀ c, Agree R R' (step c) (step' c)) (cs : List γ) :
    ∀ {p t t'}, R t p → R' t' p → traceBy step cs t = traceBy step' cs t' := by
  induction cs with
  | nil => intros; rfl
  | cons c cs ih =>
    intro p t t' h1 h2
    obtain ⟨o, f1, f2⟩ := h c p ⟨t, h1⟩
    have a := f1 t h1
    have b := f2 t' h2
    match o with
    | none =>
      simp only [] at a b
      rw [traceBy, traceBy]
      rcases a with a | a <;> rcases b with b | b <;> rw [a, b]
    | some (.ok u, p') =>
      obtain ⟨s, e1, r1⟩ := a
      obtain ⟨s', e2, r2⟩ := b
      rw [traceBy, traceBy, e1, e2]
      simp only [ih r1 r2]
    | some (.error e, p') =>
      obtain ⟨s, e1, r1⟩ := a
      obtain ⟨s', e2, r2⟩ := b
      rw [traceBy, traceBy, e1, e2]
      simp only [ih r1 r2]

theorem trace_traceBy (T : Transform τ) (cs : List Call) : ∀ t, trace T cs t = traceBy (perform T) cs t := by
  induction cs with
  | nil => intro t; rfl
  | cons c cs ih =>
    intro t
    rw [trace, traceBy]
    cases perform T c t <;> simp only [ih]

theorem trace_agree {R : τ → ρ → Prop} {R' : τ' → ρ → Prop} {T : Transform τ} {T' : Transform τ'}
    (h : ∀ c, Agree R R' (perform T c) (perform T' c)) {p : ρ} {t : τ} {t' : τ'} (h1 : R t p) (h2 : R' t' p)
    (cs : List Call) : trace T cs t = trace T' cs t' := by
  rw [trace_traceBy, trace_traceBy]
  exact traceBy_agree h cs h1 h2

/-- The calls of a transform, from its methods. -/
theorem perform_agree {R : τ → ρ → Prop} {R' : τ' → ρ → Prop} {T : Transform τ} {T' : Transform τ'}
    (putSubstring : ∀ b ofs len, Agree R R' (T.putSubstring b ofs len) (T'.putSubstring b ofs len))
    (putString : ∀ b, Agree R R' (T.putString b) (T'.putString b))
    (putChar : ∀ c, Agree R R' (T.putChar c) (T'.putChar c))
    (putByte : ∀ c, Agree R R' (T.putByte c) (T'.putByte c))
    (flush : Agree R R' T.flush T'.flush) (finish : Agree R R' T.finish T'.finish)
    (get : ∀ o, IsGet o → Agree R R' (perform T (.op o)) (perform T' (.op o)))
    (c : Call) : Agree R R' (perform T c) (perform T' c) := by
  cases c with
  | flush => exact flush.unit
  | finish => exact finish.unit
  | op o =>
    cases o with
    | putSubstring b ofs len => exact (putSubstring b ofs len).unit
    | putString b => exact (putString b).unit
    | putChar c => exact (putChar c).unit
    | putByte c => exact (putByte c).unit
    | getString | getSubstring | getChar | getByte | available => exact get _ trivial

/-- What a get method returns and leaves depends on the pending output only. -/
theorem get_uniform {o : TOp} (ho : IsGet o) (q : Bytes) :
    ∃ x q', ∀ {τ σ : Type} {R : τ → σ → Bytes → Prop} {T : Transform τ} {S : XSpec σ} {maxLen : Nat},
      Refines T S maxLen R → ∀ s, Settled R (perform T (.op o)) s q (.ok x) s q' := by
  cases o with
  | getString =>
    refine ⟨q, [], fun h s t ht => ?_⟩
    obtain ⟨t', h1, h2⟩ := h.getString ht
    exact ⟨t', h1, h2⟩
  | getSubstring =>
    refine ⟨q, [], fun h s t ht => ?_⟩
    obtain ⟨b, ofs, t', h1, h2, h3, h4⟩ := h.getSubstring ht
    refine ⟨t', ?_, h4⟩
    simp only [perform, Transform.call]
    rw [M.bind_ok h1]
    simp only
    rw [bytesSub_ok h2, h3]; rfl
  | getChar =>
    cases q with
    | nil => exact ⟨[], [], fun h s t ht => ⟨t, by simp [perform, Transform.call, h.getChar_nil ht], ht⟩⟩
    | cons c q =>
      refine ⟨[c], q, fun h s t ht => ?_⟩
      obtain ⟨t', h1, h2⟩ := h.getChar_cons ht
      exact ⟨t', by simp [perform, Transform.call, h1], h2⟩
  | getByte =>
    cases q with
    | nil => exact ⟨[], [], fun h s t ht => ⟨t, by simp [perform, Transform.call, h.getByte_nil ht], ht⟩⟩
    | cons c q =>
      refine ⟨[c], q, fun h s t ht => ?_⟩
      obtain ⟨t', h1, h2⟩ := h.getByte_cons ht
      have : BitVec.ofInt 8 (c.toNat : Int) = c := by
        rw [BitVec.ofInt_natCast, BitVec.ofNat_toNat, BitVec.setWidth_eq]
      exact ⟨t', by simp [perform, Transform.call, h1, this], h2⟩
  | available => exact ⟨[], q, fun h s t ht => ⟨t, M.bind_ok (h.available ht), ht⟩⟩
  | putSubstring | putString | putChar | putByte => exact ho.elim

/-! ### Block ciphers -/

section Block

/-- A block cipher object on some machine, whose effect on blocks, seen through the relation `V`, is `g`. -/
structure BlockImpl {υ : Type} (g : υ → Bytes → BRes υ) (n N : Nat) where
  {σ : Type}
  env : Env
  c : BlockCipher σ
  inv : σ → Prop
  f : σ → Bytes → BRes σ
  V : σ → υ → Prop
  impl : Implements c inv f
  size : c.blocksize = n
  mem : env.maxLen = N
  out : ∀ {s v b}, inv s → V s v → b.length = n → (f s b).out = (g v b).out
  exn : ∀ {s v b}, inv s → V s v → b.length = n → (f s b).exn = (g v b).exn
  st : ∀ {s v b}, inv s → V s v → b.length = n → V (f s b).st (g v b).st

variable {υ : Type} {g : υ → Bytes → BRes υ} {n N : Nat}

/-- The object's state, seen as the state of the cipher, the incomplete block and the pending output. -/
structure BlockImpl.Rep (I : BlockImpl g n N) (t : CipherSt I.σ) (p : υ × Bytes × Bytes) : Prop where
  inv : I.inv t.c
  view : I.V t.c p.1
  ilen : t.ibuf.length = n
  used : t.used = p.2.1.length
  le : p.2.1.length ≤ n
  pend : t.ibuf.take t.used = p.2.1
  ob : OBuf.Rep I.env t.ob p.2.2

theorem BlockImpl.Rep.full {I : BlockImpl g n N} {t : CipherSt I.σ} {p : υ × Bytes × Bytes} (h : I.Rep t p)
    (hf : p.2.1.length = n) : t.ibuf = p.2.1 := by
  rw [← h.pend, List.take_of_length_le (by rw [h.ilen, h.used]; omega)]

theorem BlockImpl.push (I : BlockImpl g n N) {t : CipherSt I.σ} {v : υ} {q b : Bytes} (hinv : I.inv t.c)
    (hv : I.V t.c v) (hb : b.length = n) (hib : t.ibuf = b) (hob : OBuf.Rep I.env t.ob q) :
    if q.length + n ≤ N then
      ∃ s' ob', I.inv s' ∧ I.V s' (g v b).st ∧
      match (g v b).exn with
      | none => CipherSt.pushBlock I.env I.c t = .ok () { t with c := s', ob := ob' }
          ∧ OBuf.Rep I.env ob' (q ++ (g v b).out)
      | some e => CipherSt.pushBlock I.env I.c t = .exn e { t with c := s', ob := ob' } ∧ OBuf.Rep I.env ob' q
    else CipherSt.pushBlock I.env I.c t = .exn (.error .outputBufferOverflow) t := by
  have hil : t.ibuf.length = n := by rw [hib]; exact hb
  have h := pushBlock_settled I.impl hinv (by rw [I.size]; exact hil) hob
  rw [I.size, I.mem] at h
  by_cases hfit : q.length + n ≤ N
  · rw [if_pos hfit] at h ⊢
    rw [I.exn hinv hv hil, I.out hinv hv hil, hib] at h
    have hi := I.impl.inv_step hinv (by rw [I.size]; exact hil)
    have hs := I.st hinv hv hil
    rw [hib] at hi hs
    cases hx : (g v b).exn with
    | none =>
      rw [hx] at h
      obtain ⟨ob', e1, r1⟩ := h
      exact ⟨_, ob', hi, hs, by rw [e1, hib], r1⟩
    | some e =>
      rw [hx] at h
      obtain ⟨ob', e1, r1⟩ := h
      exact ⟨_, ob', hi, hs, by rw [e1, hib], r1⟩
  · rw [if_neg hfit] at h ⊢
    exact h

theorem cipherPut_follows (hn : 0 < n) (src : Bytes) :
    ∀ (m : Nat) (ofs len : Int) (p : υ × Bytes × Bytes),
    len.toNat * 2 + (if p.2.1.length = 0 then 0 else 1) = m → p.2.1.length ≤ n →
    ∃ o, ∀ I : BlockImpl g n N, Follows I.Rep (cipherPutSubstring I.env I.c src ofs len) p o := by
  intro m
  induction m using Nat.strongRecOn with
  | _ m ih =>
    rintro ofs len ⟨v, pend, q⟩ hm hle
    simp only at hm hle
    by_cases hlen : len ≤ 0
    · refine ⟨some (.ok (), v, pend, q), fun I t ht => ⟨t, ?_, ht⟩⟩
      rw [cipherPutSubstring, if_pos hlen]
    by_cases hfit : (pend.length : Int) + len ≤ n
    · by_cases hr : InRange src ofs len
      · obtain ⟨h1, h2, h3⟩ := hr
        obtain ⟨ofs, rfl⟩ := Int.eq_ofNat_of_zero_le h2
        obtain ⟨len, rfl⟩ := Int.eq_ofNat_of_zero_le h1
        refine ⟨some (.ok (), v, pend ++ slice src ofs len, q), fun I t ht => ?_⟩
        have hu := ht.used
        simp only at hu
        obtain ⟨ib, hb1, hb2, hb3⟩ := blit_ibuf (m := len) (src := src) (ofs := ofs) ht.ilen ht.pend ht.used
          (by omega) (by omega)
        have hsl : (slice src ofs len).length = len := slice_length_of_le (by omega)
        refine ⟨{ t with ibuf := ib, used := t.used + len }, ?_, ?_⟩
        · rw [cipherPutSubstring, if_neg hlen, if_pos (by rw [hu, I.size]; exact hfit), hb1]
          simp
        · exact { inv := ht.inv, view := ht.view, ilen := hb2
                  used := by simp only [List.length_append, hu, hsl]
                  le := by simp only [List.length_append, hsl]; omega
                  pend := hb3, ob := ht.ob }
      · refine ⟨some (.error .invalidArg, v, pend, q), fun I t ht => ⟨t, ?_, ht⟩⟩
        have hu := ht.used
        simp only at hu
        rw [cipherPutSubstring, if_neg hlen, if_pos (by rw [hu, I.size]; exact hfit), bytesBlit_bad_src hr]
    · by_cases hr : InRange src ofs ((n : Int) - pend.length)
      · obtain ⟨h1, h2, h3⟩ := hr
        obtain ⟨ofs, rfl⟩ := Int.eq_ofNat_of_zero_le h2
        have hnn : (n : Int) - pend.length = ((n - pend.length : Nat) : Int) := by omega
        have hsl : (slice src ofs (n - pend.length)).length = n - pend.length :=
          slice_length_of_le (by omega)
        have hblk : ∀ (I : BlockImpl g n N) (t : CipherSt I.σ), I.Rep t (v, pend, q) →
            bytesBlit src ofs t.ibuf t.used ((I.c.blocksize : Int) - t.used)
              = some (pend ++ slice src ofs (n - pend.length)) := by
          intro I t ht
          have hu := ht.used
          simp only at hu
          obtain ⟨ib, hb1, hb2, hb3⟩ := blit_ibuf (m := n - pend.length) (src := src) (ofs := ofs)
            ht.ilen ht.pend ht.used (by omega) (by omega)
          rw [List.take_of_length_le (by rw [hb2, hu]; omega)] at hb3
          rw [hu] at hb1 ⊢
          rw [I.size, hnn, hb1, hb3]
        generalize hib : pend ++ slice src ofs (n - pend.length) = ib at hblk
        have hibl : ib.length = n := by rw [← hib, List.length_append, hsl]; omega
        have hpend : ib.take pend.length = pend := by rw [← hib, List.take_left]
        have hful : ∀ (I : BlockImpl g n N) (t : CipherSt I.σ), I.Rep t (v, pend, q) →
            ¬ (t.used : Int) + len ≤ I.c.blocksize := by
          intro I t ht
          have hu := ht.used
          simp only at hu
          rw [hu, I.size]; exact hfit
        have hpush : ∀ (I : BlockImpl g n N) (t : CipherSt I.σ), I.Rep t (v, pend, q) → _ := fun I t ht =>
          I.push (t := { t with ibuf := ib }) (q := q) ht.inv ht.view hibl rfl ht.ob
        by_cases hroom : q.length + n ≤ N
        · simp only [if_pos hroom] at hpush
          cases hexn : (g v ib).exn with
          | some e =>
            refine ⟨some (.error e, (g v ib).st, pend, q), fun I t ht => ?_⟩
            have hu := ht.used
            simp only at hu
            obtain ⟨s', ob', i1, v1, e1⟩ := hpush I t ht
            rw [hexn] at e1
            refine ⟨_, put_full_exn hlen (hful I t ht) (hblk I t ht) e1.1, ?_⟩
            exact { inv := i1, view := v1, ilen := hibl, used := ht.used, le := hle
                    pend := by simp only [hu, hpend], ob := e1.2 }
          | none =>
            obtain ⟨o, hrec⟩ := ih ((len - ((n : Int) - pend.length)).toNat * 2)
              (by
                rw [← hm]
                split <;> omega)
              ((ofs : Int) + ((n : Int) - pend.length)) (len - ((n : Int) - pend.length))
              ((g v ib).st, [], q ++ (g v ib).out) (by simp) (by simp)
            refine ⟨o, fun I t ht => ?_⟩
            have hu := ht.used
            simp only at hu
            obtain ⟨s', ob', i1, v1, e1⟩ := hpush I t ht
            rw [hexn] at e1
            have e2 := put_full_ok hlen (hful I t ht) (by rw [I.size]; exact hn) (hblk I t ht) e1.1
            have h3 := hrec I { c := s', ibuf := ib, used := 0, ob := ob' }
              { inv := i1, view := v1, ilen := hibl, used := rfl, le := by simp, pend := by simp, ob := e1.2 }
            rw [hu, I.size] at e2
            rw [e2]
            exact h3
        · simp only [if_neg hroom] at hpush
          refine ⟨some (.error (.error .outputBufferOverflow), v, pend, q), fun I t ht => ?_⟩
          have hu := ht.used
          simp only at hu
          refine ⟨_, put_full_exn hlen (hful I t ht) (hblk I t ht) (hpush I t ht), ?_⟩
          exact { inv := ht.inv, view := ht.view, ilen := hibl, used := ht.used, le := hle
                  pend := by simp only [hu, hpend], ob := ht.ob }
      · refine ⟨some (.error .invalidArg, v, pend, q), fun I t ht => ⟨t, ?_, ht⟩⟩
        have hu := ht.used
        simp only at hu
        refine put_blit_none hlen (by rw [hu, I.size]; exact hfit) ?_
        rw [hu, I.size]
        exact bytesBlit_bad_src hr

theorem cipherPutChar_follows (hn : 0 < n) (ch : Byte) (p : υ × Bytes × Bytes) :
    ∃ o, ∀ I : BlockImpl g n N, Follows I.Rep (cipherPutChar I.env I.c ch) p o := by
  obtain ⟨v, pend, q⟩ := p
  by_cases hlt : pend.length < n
  · refine ⟨some (.ok (), v, pend ++ [ch], q), fun I t ht => ?_⟩
    have hu := ht.used
    have hil := ht.ilen
    simp only at hu
    have hset := bytesSet_ok (b := t.ibuf) (i := t.used) (c := ch) (by omega)
    refine ⟨{ t with ibuf := t.ibuf.set t.used ch, used := t.used + 1 }, ?_, ?_⟩
    · rw [cipherPutChar, if_pos (by rw [hu, I.size]; exact hlt), hset]
    · exact { inv := ht.inv, view := ht.view, ilen := by simp only [List.length_set]; exact hil
              used := by simp only [List.length_append, hu, List.length_singleton]
              le := by simp only [List.length_append, List.length_singleton]; omega
              pend := by
                have hp := ht.pend
                simp only at hp ⊢
                rw [List.take_add_one, List.take_set_of_le (Nat.le_refl _), hp,
                  List.getElem?_set_self (by omega)]
                rfl
              ob := ht.ob }
  · by_cases hfull : pend.length = n
    swap
    · exact ⟨none, fun I t ht => absurd ht.le (by simp only; omega)⟩
    have hul : ∀ (I : BlockImpl g n N) (t : CipherSt I.σ), I.Rep t (v, pend, q) → ¬ t.used < I.c.blocksize := by
      intro I t ht
      have hu := ht.used
      simp only at hu
      rw [hu, I.size]; exact hlt
    have hpush : ∀ (I : BlockImpl g n N) (t : CipherSt I.σ), I.Rep t (v, pend, q) → _ := fun I t ht =>
      I.push (t := t) (q := q) ht.inv ht.view hfull (ht.full hfull) ht.ob
    by_cases hroom : q.length + n ≤ N
    · simp only [if_pos hroom] at hpush
      cases hexn : (g v pend).exn with
      | some e =>
        refine ⟨some (.error e, (g v pend).st, pend, q), fun I t ht => ?_⟩
        obtain ⟨s', ob', i1, v1, e1⟩ := hpush I t ht
        rw [hexn] at e1
        refine ⟨{ t with c := s', ob := ob' }, ?_, ?_⟩
        · rw [cipherPutChar, if_neg (hul I t ht), M.bind_exn e1.1]
        · exact { inv := i1, view := v1, ilen := ht.ilen, used := ht.used, le := ht.le, pend := ht.pend, ob := e1.2 }
      | none =>
        refine ⟨some (.ok (), (g v pend).st, [ch], q ++ (g v pend).out), fun I t ht => ?_⟩
        obtain ⟨s', ob', i1, v1, e1⟩ := hpush I t ht
        rw [hexn] at e1
        have hil := ht.ilen
        have hset := bytesSet_ok (b := t.ibuf) (i := 0) (c := ch) (by omega)
        rw [Int.natCast_zero] at hset
        refine ⟨⟨s', t.ibuf.set 0 ch, 1, ob'⟩, ?_, ?_⟩
        · rw [cipherPutChar, if_neg (hul I t ht), M.bind_ok e1.1]
          simp only [M.bind_def, M.get_def, hset, M.orRaise_some, M.modify_def]
        · exact { inv := i1, view := v1, ilen := by simp only [List.length_set]; exact hil, used := rfl
                  le := by simp only [List.length_singleton]; omega
                  pend := by
                    simp only
                    match hb : t.ibuf, hil with
                    | x :: xs, _ => rfl
                    | [], h0 => simp at h0; omega
                  ob := e1.2 }
    · simp only [if_neg hroom] at hpush
      refine ⟨some (.error (.error .outputBufferOverflow), v, pend, q), fun I t ht => ⟨t, ?_, ht⟩⟩
      rw [cipherPutChar, if_neg (hul I t ht), M.bind_exn (hpush I t ht)]

theorem cipherFlush_follows (p : υ × Bytes × Bytes) :
    ∃ o, ∀ I : BlockImpl g n N, Follows I.Rep (cipherFlush I.env I.c) p o := by
  obtain ⟨v, pend, q⟩ := p
  by_cases h0 : pend.length = 0
  · refine ⟨some (.ok (), v, pend, q), fun I t ht => ⟨t, ?_, ht⟩⟩
    rw [cipherFlush, if_pos (by rw [ht.used]; exact h0)]
  by_cases hfull : pend.length = n
  · have hul : ∀ (I : BlockImpl g n N) (t : CipherSt I.σ), I.Rep t (v, pend, q) → t.used = I.c.blocksize := by
      intro I t ht
      have hu := ht.used
      simp only at hu
      rw [hu, I.size]; exact hfull
    have hu0 : ∀ (I : BlockImpl g n N) (t : CipherSt I.σ), I.Rep t (v, pend, q) → t.used ≠ 0 := by
      intro I t ht
      have hu := ht.used
      simp only at hu
      omega
    have hpush : ∀ (I : BlockImpl g n N) (t : CipherSt I.σ), I.Rep t (v, pend, q) → _ := fun I t ht =>
      I.push (t := t) (q := q) ht.inv ht.view hfull (ht.full hfull) ht.ob
    by_cases hroom : q.length + n ≤ N
    · simp only [if_pos hroom] at hpush
      cases hexn : (g v pend).exn with
      | some e =>
        refine ⟨some (.error e, (g v pend).st, pend, q), fun I t ht => ?_⟩
        obtain ⟨s', ob', i1, v1, e1⟩ := hpush I t ht
        rw [hexn] at e1
        refine ⟨{ t with c := s', ob := ob' }, ?_, ?_⟩
        · rw [cipherFlush, if_neg (hu0 I t ht), if_pos (hul I t ht), M.bind_exn e1.1]
        · exact { inv := i1, view := v1, ilen := ht.ilen, used := ht.used, le := ht.le, pend := ht.pend, ob := e1.2 }
      | none =>
        refine ⟨some (.ok (), (g v pend).st, [], q ++ (g v pend).out), fun I t ht => ?_⟩
        obtain ⟨s', ob', i1, v1, e1⟩ := hpush I t ht
        rw [hexn] at e1
        refine ⟨⟨s', t.ibuf, 0, ob'⟩, ?_, ?_⟩
        · rw [cipherFlush, if_neg (hu0 I t ht), if_pos (hul I t ht), M.bind_ok e1.1]
          rfl
        · exact { inv := i1, view := v1, ilen := ht.ilen, used := rfl, le := by simp, pend := by simp, ob := e1.2 }
    · simp only [if_neg hroom] at hpush
      refine ⟨some (.error (.error .outputBufferOverflow), v, pend, q), fun I t ht => ⟨t, ?_, ht⟩⟩
      rw [cipherFlush, if_neg (hu0 I t ht), if_pos (hul I t ht), M.bind_exn (hpush I t ht)]
  · refine ⟨some (.error (.error .wrongDataLength), v, pend, q), fun I t ht => ⟨t, ?_, ht⟩⟩
    have hu := ht.used
    simp only at hu
    rw [cipherFlush, if_neg (by rw [hu]; exact h0), if_neg (by rw [hu, I.size]; exact hfull)]

theorem BlockImpl.Rep.block {I : BlockImpl g n N} {t : CipherSt I.σ} {p : υ × Bytes × Bytes} (h : I.Rep t p) :
    BlockRep I.env I.c I.inv t (t.c, p.2.1) p.2.2 :=
  { inv := h.inv, st := rfl, ilen := by rw [I.size]; exact h.ilen, used := h.used
    le := by rw [I.size]; exact h.le, pend := h.pend, ob := h.ob }

theorem blockGet_follows {o : TOp} (ho : IsGet o) (p : υ × Bytes × Bytes) :
    ∃ r, ∀ I : BlockImpl g n N, Follows I.Rep (perform (blockTransform I.env I.c) (.op o)) p r := by
  obtain ⟨x, q', h⟩ := get_uniform ho p.2.2
  refine ⟨some (.ok x, p.1, p.2.1, q'), fun I t ht => ?_⟩
  obtain ⟨t', e1, r1⟩ := h (blockTransform_refines I.env I.impl) (t.c, p.2.1) t ht.block
  refine ⟨t', e1, ?_⟩
  have hc := r1.st
  simp only at hc
  exact { inv := r1.inv, view := by rw [hc]; exact ht.view, ilen := r1.ilen.trans I.size, used := r1.used
          le := ht.le, pend := r1.pend, ob := r1.ob }

theorem block_follows (hn : 0 < n) (I J : BlockImpl g n N) (x : Call) :
    Agree I.Rep J.Rep (perform (blockTransform I.env I.c) x) (perform (blockTransform J.env J.c) x) := by
  have hle : ∀ {p : υ × Bytes × Bytes}, (∃ t, I.Rep t p) → p.2.1.length ≤ n := fun ⟨t, ht⟩ => ht.le
  refine perform_agree ?_ ?_ ?_ ?_ ?_ ?_ ?_ x
  · intro b ofs len p hp
    obtain ⟨o, ho⟩ := cipherPut_follows (g := g) (N := N) hn b _ ofs len p rfl (hle hp)
    exact ⟨o, ho I, ho J⟩
  · intro b p hp
    obtain ⟨o, ho⟩ := cipherPut_follows (g := g) (N := N) hn b _ 0 b.length p rfl (hle hp)
    exact ⟨o, ho I, ho J⟩
  · intro ch p hp
    obtain ⟨o, ho⟩ := cipherPutChar_follows (g := g) (N := N) hn ch p
    exact ⟨o, ho I, ho J⟩
  · intro ch p hp
    obtain ⟨o, ho⟩ := cipherPutChar_follows (g := g) (N := N) hn (BitVec.ofInt 8 ch) p
    exact ⟨o, ho I, ho J⟩
  · intro p hp
    obtain ⟨o, ho⟩ := cipherFlush_follows (g := g) (n := n) (N := N) p
    exact ⟨o, ho I, ho J⟩
  · intro p hp
    obtain ⟨o, ho⟩ := cipherFlush_follows (g := g) (n := n) (N := N) p
    exact ⟨o, ho I, ho J⟩
  · intro o ho p hp
    obtain ⟨o, ho⟩ := blockGet_follows (g := g) (n := n) (N := N) ho p
    exact ⟨o, ho I, ho J⟩

/-- The methods other than `finish` are those of the class without padding. -/
theorem padded_agree (hn : 0 < n) (I J : BlockImpl g n N) {m : M (CipherSt I.σ) Unit} {m' : M (CipherSt J.σ) Unit}
    (hf : Agree I.Rep J.Rep m m') (x : Call) :
    Agree I.Rep J.Rep (perform { blockTransform I.env I.c with finish := m } x)
      (perform { blockTransform J.env J.c with finish := m' } x) := by
  cases x with
  | finish => exact hf.unit
  | flush => exact block_follows hn I J .flush
  | op o =>
    have h := block_follows hn I J (.op o)
    cases o <;> exact h

/-- The end of `finish` of the padded encryption. -/
theorem padLast_follows {P : PadScheme} {pad : Bytes → Bytes} (hp : P.Computes n pad) (p : υ × Bytes × Bytes)
    (hlt : p.2.1.length < n) :
    ∃ o, ∀ I : BlockImpl g n N, Follows I.Rep
      (do let st ← M.get
          let ib ← ofExcept (P.pad st.ibuf st.used)
          M.modify fun st => { st with ibuf := ib }
          CipherSt.pushBlock I.env I.c : M (CipherSt I.σ) Unit) p o := by
  obtain ⟨v, pend, q⟩ := p
  simp only at hlt
  have hlen := hp.pad_len hlt
  have hstep : ∀ (I : BlockImpl g n N) (t : CipherSt I.σ), I.Rep t (v, pend, q) →
      (do let st ← M.get
          let ib ← ofExcept (P.pad st.ibuf st.used)
          M.modify fun st => { st with ibuf := ib }
          CipherSt.pushBlock I.env I.c : M (CipherSt I.σ) Unit) t
      = CipherSt.pushBlock I.env I.c { t with ibuf := pad pend } := by
    intro I t hR
    have hu := hR.used
    simp only at hu
    have hpad := hp.pad_ok (b := t.ibuf) (used := t.used) hR.ilen (by omega)
    rw [hR.pend] at hpad
    simp only [M.bind_def, M.get_def, hpad, ofExcept, M.pure, M.modify_def]
  have hpush : ∀ (I : BlockImpl g n N) (t : CipherSt I.σ), I.Rep t (v, pend, q) → _ := fun I t ht =>
    I.push (t := { t with ibuf := pad pend }) (q := q) ht.inv ht.view hlen rfl ht.ob
  have htk : ∀ (I : BlockImpl g n N) (t : CipherSt I.σ), I.Rep t (v, pend, q) → (pad pend).take t.used = pend := by
    intro I t ht
    rw [ht.used]; exact hp.pad_take
  by_cases hroom : q.length + n ≤ N
  · simp only [if_pos hroom] at hpush
    cases hexn : (g v (pad pend)).exn with
    | some e =>
      refine ⟨some (.error e, (g v (pad pend)).st, pend, q), fun I t ht => ?_⟩
      obtain ⟨s', ob', i1, v1, e1⟩ := hpush I t ht
      rw [hexn] at e1
      refine ⟨_, (hstep I t ht).trans e1.1, ?_⟩
      exact { inv := i1, view := v1, ilen := hlen, used := ht.used, le := ht.le, pend := htk I t ht, ob := e1.2 }
    | none =>
      refine ⟨some (.ok (), (g v (pad pend)).st, pend, q ++ (g v (pad pend)).out), fun I t ht => ?_⟩
      obtain ⟨s', ob', i1, v1, e1⟩ := hpush I t ht
      rw [hexn] at e1
      refine ⟨_, (hstep I t ht).trans e1.1, ?_⟩
      exact { inv := i1, view := v1, ilen := hlen, used := ht.used, le := ht.le, pend := htk I t ht, ob := e1.2 }
  · simp only [if_neg hroom] at hpush
    refine ⟨some (.error (.error .outputBufferOverflow), v, pend, q), fun I t ht => ?_⟩
    refine ⟨_, (hstep I t ht).trans (hpush I t ht), ?_⟩
    exact { inv := ht.inv, view := ht.view, ilen := hlen, used := ht.used, le := ht.le, pend := htk I t ht, ob := ht.ob }

theorem padEncFinish_agree (hn : 0 < n) {P : PadScheme} {pad : Bytes → Bytes} (hp : P.Computes n pad)
    (I J : BlockImpl g n N) :
    Agree I.Rep J.Rep (paddedEncryptFinish I.env P I.c) (paddedEncryptFinish J.env P J.c) := by
  suffices ∀ p : υ × Bytes × Bytes, p.2.1.length ≤ n →
      ∃ o, ∀ I : BlockImpl g n N, Follows I.Rep (paddedEncryptFinish I.env P I.c) p o by
    rintro p ⟨t, ht⟩
    obtain ⟨o, ho⟩ := this p ht.le
    exact ⟨o, ho I, ho J⟩
  rintro ⟨v, pend, q⟩ hle
  simp only at hle
  by_cases hfull : pend.length = n
  · have hge : ∀ (I : BlockImpl g n N) (t : CipherSt I.σ), I.Rep t (v, pend, q) → t.used ≥ I.c.blocksize := by
      intro I t ht
      have hu := ht.used
      simp only at hu
      rw [hu, I.size]; omega
    have hpush : ∀ (I : BlockImpl g n N) (t : CipherSt I.σ), I.Rep t (v, pend, q) → _ := fun I t ht =>
      I.push (t := t) (q := q) ht.inv ht.view hfull (ht.full hfull) ht.ob
    have hexnstep : ∀ (I : BlockImpl g n N) (t : CipherSt I.σ) e t', I.Rep t (v, pend, q) →
        CipherSt.pushBlock I.env I.c t = .exn e t' → paddedEncryptFinish I.env P I.c t = .exn e t' := by
      intro I t e t' ht h1
      unfold paddedEncryptFinish
      rw [M.bind_ok (M.get_def _)]
      simp only [if_pos (hge I t ht)]
      simp only [M.bind_def, h1]
    by_cases hroom : q.length + n ≤ N
    · simp only [if_pos hroom] at hpush
      cases hexn : (g v pend).exn with
      | some e =>
        refine ⟨some (.error e, (g v pend).st, pend, q), fun I t ht => ?_⟩
        obtain ⟨s', ob', i1, v1, e1⟩ := hpush I t ht
        rw [hexn] at e1
        refine ⟨_, hexnstep I t _ _ ht e1.1, ?_⟩
        exact { inv := i1, view := v1, ilen := ht.ilen, used := ht.used, le := ht.le, pend := ht.pend, ob := e1.2 }
      | none =>
        obtain ⟨o, hlast⟩ := padLast_follows (g := g) (N := N) hp ((g v pend).st, [], q ++ (g v pend).out)
          (by simpa using hn)
        refine ⟨o, fun I t ht => ?_⟩
        obtain ⟨s', ob', i1, v1, e1⟩ := hpush I t ht
        rw [hexn] at e1
        have e2 : paddedEncryptFinish I.env P I.c t
            = (do let st ← M.get
                  let ib ← ofExcept (P.pad st.ibuf st.used)
                  M.modify fun st => { st with ibuf := ib }
                  CipherSt.pushBlock I.env I.c : M (CipherSt I.σ) Unit)
                { c := s', ibuf := t.ibuf, used := 0, ob := ob' } := by
          unfold paddedEncryptFinish
          rw [M.bind_ok (M.get_def _)]
          simp only [if_pos (hge I t ht)]
          simp only [M.bind_def, e1.1, M.modify_def]
        have h3 := hlast I { c := s', ibuf := t.ibuf, used := 0, ob := ob' }
          { inv := i1, view := v1, ilen := ht.ilen, used := rfl, le := by simp, pend := by simp, ob := e1.2 }
        rw [e2]
        exact h3
    · simp only [if_neg hroom] at hpush
      exact ⟨some (.error (.error .outputBufferOverflow), v, pend, q),
        fun I t ht => ⟨t, hexnstep I t _ _ ht (hpush I t ht), ht⟩⟩
  · obtain ⟨o, hlast⟩ := padLast_follows (g := g) (N := N) hp (v, pend, q) (by simp only; omega)
    refine ⟨o, fun I t ht => ?_⟩
    have hu := ht.used
    simp only at hu
    have heq : paddedEncryptFinish I.env P I.c t
        = (do let st ← M.get
              let ib ← ofExcept (P.pad st.ibuf st.used)
              M.modify fun st => { st with ibuf := ib }
              CipherSt.pushBlock I.env I.c : M (CipherSt I.σ) Unit) t := by
      unfold paddedEncryptFinish
      rw [M.bind_ok (M.get_def _)]
      simp only [if_neg (show ¬ t.used ≥ I.c.blocksize by rw [hu, I.size]; omega)]
    have h3 := hlast I t ht
    rw [heq]
    exact h3

theorem padDecFinish_agree {P : PadScheme} {pad : Bytes → Bytes} (hp : P.Computes n pad) (I J : BlockImpl g n N) :
    Agree I.Rep J.Rep (paddedDecryptFinish I.env P I.c) (paddedDecryptFinish J.env P J.c) := by
  suffices ∀ p : υ × Bytes × Bytes,
      ∃ o, ∀ I : BlockImpl g n N, Follows I.Rep (paddedDecryptFinish I.env P I.c) p o by
    rintro p ⟨t, ht⟩
    obtain ⟨o, ho⟩ := this p
    exact ⟨o, ho I, ho J⟩
  rintro ⟨v, pend, q⟩
  by_cases hfull : pend.length = n
  · have hrun : ∀ (I : BlockImpl g n N) (t : CipherSt I.σ), I.Rep t (v, pend, q) →
        ∃ s', I.inv s' ∧ I.V s' (g v pend).st ∧ (g v pend).out.length = n ∧ callIbuf I.c t = (match (g v pend).exn with
        | some e => .exn e { t with c := s', ibuf := (g v pend).out }
        | none => .ok () { t with c := s', ibuf := (g v pend).out }) := by
      intro I t hR
      have hil : t.ibuf.length = I.c.blocksize := by rw [I.size]; exact hR.ilen
      have hrun := I.impl.run (s := t.c) (src := .self) (so := 0) (dofs := 0)
        (dst := t.ibuf) hR.inv (by simp only [Src.read_self]; omega) (by omega)
      simp only [Src.read_self, slice_full' hil, Int.natCast_zero] at hrun
      have hsp : splice t.ibuf 0 (I.f t.c t.ibuf).out = (I.f t.c t.ibuf).out :=
        splice_full (by rw [I.impl.out_len hR.inv hil, hil])
      have hib := hR.full hfull
      simp only at hib
      have ho := I.out hR.inv hR.view hR.ilen
      have hx := I.exn hR.inv hR.view hR.ilen
      have hs := I.st hR.inv hR.view hR.ilen
      have hol := I.impl.out_len hR.inv hil
      rw [ho, I.size, hib] at hol
      refine ⟨(I.f t.c t.ibuf).st, I.impl.inv_step hR.inv hil, by rw [hib] at hs ⊢; exact hs, hol, ?_⟩
      rw [hib] at ho hx
      rw [← ho, ← hx, hib]
      rw [hib] at hsp hrun
      cases hexn : (I.f t.c pend).exn <;> simp only [BRes.toOut, hexn, hsp] at hrun <;>
        simp only [callIbuf, M.zoom, hib, hrun]
    have hrep : ∀ (I : BlockImpl g n N) (t : CipherSt I.σ), I.Rep t (v, pend, q) → ∀ s' ob' q', I.inv s' →
        I.V s' (g v pend).st → (g v pend).out.length = n → OBuf.Rep I.env ob' q' →
        I.Rep ⟨s', (g v pend).out, t.used, ob'⟩ ((g v pend).st, (g v pend).out, q') := by
      intro I t ht s' ob' q' hi hv hol hob
      have hu := ht.used
      simp only at hu
      exact { inv := hi, view := hv, ilen := hol, used := by simp only; omega
              le := by simp only; omega
              pend := by simp only; exact List.take_of_length_le (by omega), ob := hob }
    have hif : ∀ (I : BlockImpl g n N) (t : CipherSt I.σ), I.Rep t (v, pend, q) → ¬ t.used ≠ I.c.blocksize := by
      intro I t ht
      have hu := ht.used
      simp only at hu
      rw [hu, I.size]; omega
    cases hexn : (g v pend).exn with
    | some e =>
      refine ⟨some (.error e, (g v pend).st, (g v pend).out, q), fun I t ht => ?_⟩
      obtain ⟨s', hi, hv, hol, hr⟩ := hrun I t ht
      refine ⟨_, ?_, hrep I t ht s' _ _ hi hv hol ht.ob⟩
      rw [hexn] at hr
      unfold paddedDecryptFinish
      rw [M.bind_ok (M.get_def _)]
      simp only [if_neg (hif I t ht)]
      simp only [M.bind_def, hr]
    | none =>
      cases hst : P.strip (g v pend).out with
      | error e =>
        refine ⟨some (.error e, (g v pend).st, (g v pend).out, q), fun I t ht => ?_⟩
        obtain ⟨s', hi, hv, hol, hr⟩ := hrun I t ht
        refine ⟨_, ?_, hrep I t ht s' _ _ hi hv hol ht.ob⟩
        rw [hexn] at hr
        unfold paddedDecryptFinish
        rw [M.bind_ok (M.get_def _)]
        simp only [if_neg (hif I t ht)]
        simp only [M.bind_def, hr, M.get_def, hst, ofExcept]
        rfl
      | ok w =>
        by_cases hroom : q.length + w ≤ N
        · refine ⟨some (.ok (), (g v pend).st, (g v pend).out, q ++ (g v pend).out.take w), fun I t ht => ?_⟩
          obtain ⟨s', hi, hv, hol, hr⟩ := hrun I t ht
          have hw : w ≤ n := by
            rcases hp.strip_inv hol with ⟨v', h1, h2, _⟩ | h1
            · rw [hst] at h1; cases h1; omega
            · rw [hst] at h1; cases h1
          obtain ⟨o', h1, h2, h3⟩ := OBuf.ensureCapacity_ok ht.ob w (by rw [I.mem]; exact hroom)
          have hbl := bytesBlit_ok (src := (g v pend).out) (so := 0) (dst := o'.obuf)
            (dofs := o'.oend) (n := w) (by omega) h3
          have hsl : slice (g v pend).out 0 w = (g v pend).out.take w := by simp [slice]
          rw [hsl, Int.natCast_zero] at hbl
          have htl : ((g v pend).out.take w).length = w := by simp; omega
          have hwr := h2.write (x := (g v pend).out.take w) (by omega)
          rw [htl] at hwr
          refine ⟨_, ?_, hrep I t ht s' _ _ hi hv hol hwr⟩
          rw [hexn] at hr
          unfold paddedDecryptFinish
          rw [M.bind_ok (M.get_def _)]
          simp only [if_neg (hif I t ht)]
          simp only [M.bind_def, hr, M.get_def, hst, ofExcept, M.pure,
            CipherSt.onBuf, M.zoom, h1, hbl, M.orRaise_some, M.modify_def]
        · refine ⟨some (.error (.error .outputBufferOverflow), (g v pend).st, (g v pend).out, q), fun I t ht => ?_⟩
          obtain ⟨s', hi, hv, hol, hr⟩ := hrun I t ht
          have h1 := OBuf.ensureCapacity_overflow ht.ob w (by rw [I.mem]; simp only; omega)
          refine ⟨_, ?_, hrep I t ht s' _ _ hi hv hol ht.ob⟩
          rw [hexn] at hr
          unfold paddedDecryptFinish
          rw [M.bind_ok (M.get_def _)]
          simp only [if_neg (hif I t ht)]
          simp only [M.bind_def, hr, M.get_def, hst, ofExcept, M.pure, CipherSt.onBuf, M.zoom, h1]
  · refine ⟨some (.error (.error .wrongDataLength), v, pend, q), fun I t ht => ⟨t, ?_, ht⟩⟩
    have hu := ht.used
    simp only at hu
    unfold paddedDecryptFinish
    rw [M.bind_ok (M.get_def _)]
    simp only [if_pos (show t.used ≠ I.c.blocksize by rw [hu, I.size]; omega)]
    rfl

theorem BlockImpl.rep_init (I : BlockImpl g n N) {s : I.σ} {v : υ} (hs : I.inv s) (hv : I.V s v)
    (hm : max 256 (2 * n) ≤ N) : I.Rep (cipherInit I.env I.c s) (v, [], []) := by
  have h := blockRep_init I.env (c := I.c) (inv := I.inv) hs (by rw [I.size, I.mem]; exact hm)
  exact { inv := h.inv, view := hv, ilen := h.ilen.trans I.size, used := h.used, le := by simp
          pend := h.pend, ob := h.ob }

end Block

end Verif
