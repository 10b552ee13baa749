import Verif.Props.C86_Inert
import Verif.Proof.Padded
import Verif.Proof.SafeCodec
import Verif.Proof.Hex
import Verif.Proof.Base64
import Verif.Props.C45_C48_Codec
/-
C86, continued: ciphers with padding, Base64 and hexadecimal.
-/
namespace Verif

open Spec

variable {τ σ : Type}

theorem Post.of_exn {o : Out σ α} {Q : α → σ → Prop} {E : Exn → σ → Prop} (h : o.Post Q E) {e : Exn} {s' : σ}
    (he : o = .exn e s') : E e s' := by subst he; exact h

/-! ### Ciphers with padding -/

section Padded

variable {env : Env} {c : BlockCipher σ} {inv : σ → Prop} {f : σ → Bytes → BRes σ}

/-- The end of `finish` of the padded encryption. -/
theorem padLast_settled (h : Implements c inv f) {p : PadScheme} {pad : Bytes → Bytes}
    (hp : p.Computes c.blocksize pad) (s : σ × Bytes) (q : Bytes) (hlt : s.2.length < c.blocksize) :
    ∃ r s' q', Settled (BlockRep env c inv)
      (do let st ← M.get
          let ib ← ofExcept (p.pad st.ibuf st.used)
          M.modify fun st => { st with ibuf := ib }
          CipherSt.pushBlock env c : M (CipherSt σ) Unit) s q r s' q' := by
  have hlen := hp.pad_len hlt
  have hstep : ∀ t, BlockRep env c inv t s q →
      (do let st ← M.get
          let ib ← ofExcept (p.pad st.ibuf st.used)
          M.modify fun st => { st with ibuf := ib }
          CipherSt.pushBlock env c : M (CipherSt σ) Unit) t
      = CipherSt.pushBlock env c { t with ibuf := pad s.2 } := by
    intro t hR
    have hpad := hp.pad_ok (b := t.ibuf) (used := t.used) hR.ilen (by have := hR.used; omega)
    rw [hR.pend] at hpad
    simp only [M.bind_def, M.get_def, hpad, ofExcept, M.pure, M.modify_def]
  have hpush : ∀ t, BlockRep env c inv t s q → _ := fun t ht =>
    pushBlock_settled (env := env) (q := q) h (t := { t with ibuf := pad s.2 }) ht.inv hlen ht.ob
  by_cases hroom : q.length + c.blocksize ≤ env.maxLen
  · simp only [if_pos hroom] at hpush
    cases hexn : (f s.1 (pad s.2)).exn with
    | some e =>
      refine ⟨.error e, ((f s.1 (pad s.2)).st, s.2), q, fun t ht => ?_⟩
      have hq := hpush t ht
      have hexn' := hexn
      rw [← ht.st] at hexn'
      rw [hexn'] at hq
      obtain ⟨ob', e1, r1⟩ := hq
      refine ⟨_, (hstep t ht).trans e1, ?_⟩
      rw [← ht.st]
      exact { inv := h.inv_step ht.inv hlen, st := rfl, ilen := hlen, used := ht.used, le := ht.le
              pend := by simp only; rw [ht.used]; exact hp.pad_take, ob := r1 }
    | none =>
      refine ⟨.ok (), ((f s.1 (pad s.2)).st, s.2), q ++ (f s.1 (pad s.2)).out, fun t ht => ?_⟩
      have hq := hpush t ht
      have hexn' := hexn
      rw [← ht.st] at hexn'
      rw [hexn'] at hq
      obtain ⟨ob', e1, r1⟩ := hq
      refine ⟨_, (hstep t ht).trans e1, ?_⟩
      rw [← ht.st]
      exact { inv := h.inv_step ht.inv hlen, st := rfl, ilen := hlen, used := ht.used, le := ht.le
              pend := by simp only; rw [ht.used]; exact hp.pad_take, ob := r1 }
  · simp only [if_neg hroom] at hpush
    refine ⟨.error (.error .outputBufferOverflow), s, q, fun t ht => ?_⟩
    refine ⟨_, (hstep t ht).trans (hpush t ht), ?_⟩
    exact { inv := ht.inv, st := ht.st, ilen := hlen, used := ht.used, le := ht.le
            pend := by simp only; rw [ht.used]; exact hp.pad_take, ob := ht.ob }

theorem padEncFinish_settles (h : Implements c inv f) {p : PadScheme} {pad : Bytes → Bytes}
    (hp : p.Computes c.blocksize pad) : Settles (BlockRep env c inv) (paddedEncryptFinish env p c) := by
  rintro s q ⟨t0, ht0⟩
  have hpos := h.pos
  have hinv : inv s.1 := ht0.st ▸ ht0.inv
  by_cases hfull : s.2.length = c.blocksize
  · have hpend : ∀ t, BlockRep env c inv t s q → t.ibuf = s.2 := fun t hR => by
      rw [← hR.pend, List.take_of_length_le (by rw [hR.ilen, hR.used]; omega)]
    have hpush : ∀ t, BlockRep env c inv t s q → _ := fun t ht =>
      pushBlock_settled (env := env) (q := q) h (t := t) ht.inv ht.ilen ht.ob
    have hexnstep : ∀ t e t', BlockRep env c inv t s q → CipherSt.pushBlock env c t = .exn e t' →
        paddedEncryptFinish env p c t = .exn e t' := by
      intro t e t' ht h1
      unfold paddedEncryptFinish
      rw [M.bind_ok (M.get_def _)]
      simp only [if_pos (show t.used ≥ c.blocksize by rw [ht.used]; omega)]
      simp only [M.bind_def, h1]
    by_cases hroom : q.length + c.blocksize ≤ env.maxLen
    · simp only [if_pos hroom] at hpush
      cases hexn : (f s.1 s.2).exn with
      | some e =>
        refine ⟨.error e, ((f s.1 s.2).st, s.2), q, fun t ht => ?_⟩
        have hq := hpush t ht
        have hexn' := hexn
        rw [← ht.st, ← hpend t ht] at hexn'
        rw [hexn'] at hq
        obtain ⟨ob', e1, r1⟩ := hq
        refine ⟨_, hexnstep t _ _ ht e1, ?_⟩
        exact { inv := h.inv_step ht.inv ht.ilen, st := by rw [ht.st, hpend t ht], ilen := ht.ilen, used := ht.used, le := ht.le
                pend := ht.pend, ob := r1 }
      | none =>
        obtain ⟨r, s', q', hlast⟩ := padLast_settled (env := env) h hp ((f s.1 s.2).st, [])
          (q ++ (f s.1 s.2).out) (by simpa using hpos)
        refine ⟨r, s', q', fun t ht => ?_⟩
        have hq := hpush t ht
        have hexn' := hexn
        rw [← ht.st, ← hpend t ht] at hexn'
        rw [hexn'] at hq
        obtain ⟨ob', e1, r1⟩ := hq
        rw [ht.st, hpend t ht] at r1
        have e2 : paddedEncryptFinish env p c t
            = (do let st ← M.get
                  let ib ← ofExcept (p.pad st.ibuf st.used)
                  M.modify fun st => { st with ibuf := ib }
                  CipherSt.pushBlock env c : M (CipherSt σ) Unit)
                { c := (f s.1 s.2).st, ibuf := t.ibuf, used := 0, ob := ob' } := by
          unfold paddedEncryptFinish
          rw [M.bind_ok (M.get_def _)]
          simp only [if_pos (show t.used ≥ c.blocksize by rw [ht.used]; omega)]
          simp only [M.bind_def, e1, M.modify_def]
          rw [ht.st, hpend t ht]
        rw [e2]
        exact hlast _ { inv := h.inv_step hinv hfull, st := rfl, ilen := ht.ilen, used := rfl, le := by simp
                        pend := by simp, ob := r1 }
    · simp only [if_neg hroom] at hpush
      exact ⟨.error (.error .outputBufferOverflow), s, q, fun t ht => ⟨t, hexnstep t _ _ ht (hpush t ht), ht⟩⟩
  · obtain ⟨r, s', q', hlast⟩ := padLast_settled (env := env) h hp s q (by have := ht0.le; omega)
    refine ⟨r, s', q', fun t ht => ?_⟩
    have heq : paddedEncryptFinish env p c t
        = (do let st ← M.get
              let ib ← ofExcept (p.pad st.ibuf st.used)
              M.modify fun st => { st with ibuf := ib }
              CipherSt.pushBlock env c : M (CipherSt σ) Unit) t := by
      unfold paddedEncryptFinish
      rw [M.bind_ok (M.get_def _)]
      simp only [if_neg (show ¬ t.used ≥ c.blocksize by have := ht.le; rw [ht.used]; omega)]
    rw [heq]
    exact hlast t ht

theorem padDecFinish_settles (h : Implements c inv f) {p : PadScheme} {pad : Bytes → Bytes}
    (hp : p.Computes c.blocksize pad) : Settles (BlockRep env c inv) (paddedDecryptFinish env p c) := by
  rintro s q ⟨t0, ht0⟩
  by_cases hfull : s.2.length = c.blocksize
  · have hpend : ∀ t, BlockRep env c inv t s q → t.ibuf = s.2 := fun t hR => by
      rw [← hR.pend, List.take_of_length_le (by rw [hR.ilen, hR.used]; omega)]
    have hrun : ∀ t, BlockRep env c inv t s q → callIbuf c t = (match (f s.1 s.2).exn with
        | some e => .exn e { t with c := (f s.1 s.2).st, ibuf := (f s.1 s.2).out }
        | none => .ok () { t with c := (f s.1 s.2).st, ibuf := (f s.1 s.2).out }) := by
      intro t hR
      have hil := hR.ilen
      have hrun := h.run (s := t.c) (src := .self) (so := 0) (dofs := 0)
        (dst := t.ibuf) hR.inv (by simp only [Src.read_self]; omega) (by omega)
      simp only [Src.read_self, slice_full' hil, Int.natCast_zero] at hrun
      have hsp : splice t.ibuf 0 (f t.c t.ibuf).out = (f t.c t.ibuf).out :=
        splice_full (by rw [h.out_len hR.inv hil, hil])
      rw [← hR.st, ← hpend t hR]
      cases hexn : (f t.c t.ibuf).exn <;> simp only [BRes.toOut, hexn, hsp] at hrun <;>
        simp only [callIbuf, M.zoom, hrun]
    have hol := h.out_len (ht0.st ▸ ht0.inv : inv s.1) hfull
    have hinv' := h.inv_step (ht0.st ▸ ht0.inv : inv s.1) hfull
    -- the state after the block has been decrypted in place
    have hrep : ∀ t, BlockRep env c inv t s q → ∀ ob' q', OBuf.Rep env ob' q' →
        BlockRep env c inv ⟨(f s.1 s.2).st, (f s.1 s.2).out, t.used, ob'⟩ ((f s.1 s.2).st, (f s.1 s.2).out) q' := by
      intro t ht ob' q' hob
      exact { inv := hinv', st := rfl, ilen := hol, used := by simp only; rw [ht.used]; omega
              le := by simp only; omega
              pend := by simp only; exact List.take_of_length_le (by rw [ht.used]; omega), ob := hob }
    have hif : ∀ t, BlockRep env c inv t s q → ¬ t.used ≠ c.blocksize := by
      intro t ht; rw [ht.used]; omega
    cases hexn : (f s.1 s.2).exn with
    | some e =>
      refine ⟨.error e, ((f s.1 s.2).st, (f s.1 s.2).out), q, fun t ht => ?_⟩
      refine ⟨_, ?_, hrep t ht _ _ ht.ob⟩
      have hr := hrun t ht
      rw [hexn] at hr
      unfold paddedDecryptFinish
      rw [M.bind_ok (M.get_def _)]
      simp only [if_neg (hif t ht)]
      simp only [M.bind_def, hr]
    | none =>
      cases hst : p.strip (f s.1 s.2).out with
      | error e =>
        refine ⟨.error e, ((f s.1 s.2).st, (f s.1 s.2).out), q, fun t ht => ?_⟩
        refine ⟨_, ?_, hrep t ht _ _ ht.ob⟩
        have hr := hrun t ht
        rw [hexn] at hr
        unfold paddedDecryptFinish
        rw [M.bind_ok (M.get_def _)]
        simp only [if_neg (hif t ht)]
        simp only [M.bind_def, hr, M.get_def, hst, ofExcept]
        rfl
      | ok v =>
        have hv : v ≤ c.blocksize := by
          rcases hp.strip_inv hol with ⟨v', h1, h2, _⟩ | h1
          · rw [hst] at h1; cases h1; omega
          · rw [hst] at h1; cases h1
        by_cases hroom : q.length + v ≤ env.maxLen
        · refine ⟨.ok (), ((f s.1 s.2).st, (f s.1 s.2).out), q ++ (f s.1 s.2).out.take v, fun t ht => ?_⟩
          obtain ⟨o', h1, h2, h3⟩ := OBuf.ensureCapacity_ok ht.ob v hroom
          have hbl := bytesBlit_ok (src := (f s.1 s.2).out) (so := 0) (dst := o'.obuf)
            (dofs := o'.oend) (n := v) (by omega) h3
          have hsl : slice (f s.1 s.2).out 0 v = (f s.1 s.2).out.take v := by simp [slice]
          rw [hsl, Int.natCast_zero] at hbl
          have htl : ((f s.1 s.2).out.take v).length = v := by simp; omega
          have hw := h2.write (x := (f s.1 s.2).out.take v) (by omega)
          rw [htl] at hw
          refine ⟨_, ?_, hrep t ht _ _ hw⟩
          have hr := hrun t ht
          rw [hexn] at hr
          unfold paddedDecryptFinish
          rw [M.bind_ok (M.get_def _)]
          simp only [if_neg (hif t ht)]
          simp only [M.bind_def, hr, M.get_def, hst, ofExcept, M.pure,
            CipherSt.onBuf, M.zoom, h1, hbl, M.orRaise_some, M.modify_def]
        · refine ⟨.error (.error .outputBufferOverflow), ((f s.1 s.2).st, (f s.1 s.2).out), q, fun t ht => ?_⟩
          have h1 := OBuf.ensureCapacity_overflow ht.ob v (by omega)
          refine ⟨_, ?_, hrep t ht _ _ ht.ob⟩
          have hr := hrun t ht
          rw [hexn] at hr
          unfold paddedDecryptFinish
          rw [M.bind_ok (M.get_def _)]
          simp only [if_neg (hif t ht)]
          simp only [M.bind_def, hr, M.get_def, hst, ofExcept, M.pure, CipherSt.onBuf, M.zoom, h1]
  · refine ⟨.error (.error .wrongDataLength), s, q, fun t ht => ⟨t, ?_, ht⟩⟩
    unfold paddedDecryptFinish
    rw [M.bind_ok (M.get_def _)]
    simp only [if_pos (show t.used ≠ c.blocksize by rw [ht.used]; omega)]
    rfl

end Padded

/-- The calls other than `put_substring`, `put_string` and `finish`. -/
def Spec.Simple (x : Call) : Prop := Single x ∧ x ≠ .finish

/-- C86, ciphers with padding, for the calls other than `put_substring`, `put_string` and `finish`. -/
theorem C86_padded_partial {env : Env} {c : BlockCipher σ} {inv : σ → Prop} {f : σ → Bytes → BRes σ} {s : σ}
    (h : Implements c inv f) (hf : Total f) (hs : inv s) (hm : max 256 (2 * c.blocksize) ≤ env.maxLen)
    {p : PadScheme} {pad : Bytes → Bytes} (hp : p.Computes c.blocksize pad) (x : Call) (hx : Simple x) :
    NoEffectIfRaises (paddedEncrypt env p c) (cipherInit env c s) x
    ∧ NoEffectIfRaises (paddedDecrypt env p c) (cipherInit env c s) x := by
  have hr := blockTransform_refines env h
  have hb := block_settles (env := env) h
  have hk := block_keeps (env := env) h hf hx.1
  have he : ∀ o, perform (paddedEncrypt env p c) (.op o) = perform (blockTransform env c) (.op o) := by
    intro o; cases o <;> rfl
  have hd : ∀ o, perform (paddedDecrypt env p c) (.op o) = perform (blockTransform env c) (.op o) := by
    intro o; cases o <;> rfl
  constructor
  · refine noEffect_of_keeps (R := BlockRep env c inv) (fun y => ?_) ⟨_, _, blockRep_init env hs hm⟩ ?_
    · cases y with
      | op o => rw [he]; exact hb (.op o)
      | flush => exact hb .flush
      | finish => exact Settles.unit (padEncFinish_settles h hp)
    · cases x with
      | op o => rw [he]; exact hk
      | flush => exact hk
      | finish => exact absurd rfl hx.2
  · refine noEffect_of_keeps (R := BlockRep env c inv) (fun y => ?_) ⟨_, _, blockRep_init env hs hm⟩ ?_
    · cases y with
      | op o => rw [hd]; exact hb (.op o)
      | flush => exact hb .flush
      | finish => exact Settles.unit (padDecFinish_settles h hp)
    · cases x with
      | op o => rw [hd]; exact hk
      | flush => exact hk
      | finish => exact absurd rfl hx.2


theorem padDecFinish_bad {env : Env} {c : BlockCipher σ} {inv : σ → Prop} {f : σ → Bytes → BRes σ}
    (h : Implements c inv f) (hf : Total f) {p : PadScheme} {e : Exn} {t : CipherSt σ} {s : σ × Bytes} {q : Bytes}
    (ht : BlockRep env c inv t s q) (hfull : s.2.length = c.blocksize) (hst : p.strip (f s.1 s.2).out = .error e) :
    ∃ t', paddedDecryptFinish env p c t = .exn e t'
      ∧ BlockRep env c inv t' ((f s.1 s.2).st, (f s.1 s.2).out) q := by
  have hpend : t.ibuf = s.2 := by
    rw [← ht.pend, List.take_of_length_le (by rw [ht.ilen, ht.used]; omega)]
  have hil := ht.ilen
  have hrun := h.run (s := t.c) (src := .self) (so := 0) (dofs := 0)
    (dst := t.ibuf) ht.inv (by simp only [Src.read_self]; omega) (by omega)
  simp only [Src.read_self, slice_full' hil, Int.natCast_zero] at hrun
  have hol := h.out_len ht.inv hil
  have hsp : splice t.ibuf 0 (f t.c t.ibuf).out = (f t.c t.ibuf).out :=
    splice_full (by rw [hol, hil])
  rw [← ht.st, ← hpend] at hst ⊢
  simp only [BRes.toOut, hf t.c t.ibuf, hsp] at hrun
  refine ⟨{ t with c := (f t.c t.ibuf).st, ibuf := (f t.c t.ibuf).out }, ?_,
    { inv := h.inv_step ht.inv hil, st := rfl, ilen := hol, used := by simp only; rw [ht.used]; omega
      le := by simp only; omega
      pend := by simp only; exact List.take_of_length_le (by rw [ht.used]; omega), ob := ht.ob }⟩
  unfold paddedDecryptFinish
  rw [M.bind_ok (M.get_def _)]
  simp only [if_neg (show ¬ t.used ≠ c.blocksize by rw [ht.used]; omega)]
  simp only [M.bind_def, callIbuf, M.zoom, hrun, M.get_def, hst, ofExcept]
  rfl

/-- C86 is false of `finish` of the decryption with padding: when the padding is wrong, the exception
is raised once the last block has been decrypted in place. If `finish` is called again, that block is
decrypted a second time, and the result is output if it happens to be padded. -/
theorem C86_padded_decrypt_finish {env : Env} {c : BlockCipher σ} {inv : σ → Prop} {f : σ → Bytes → BRes σ}
    {s : σ} (h : Implements c inv f) (hf : Total f) (hs : inv s) (hm : max 256 (2 * c.blocksize) ≤ env.maxLen)
    {p : PadScheme} {pad : Bytes → Bytes} (hp : p.Computes c.blocksize pad) {b : Bytes}
    (hb : b.length = c.blocksize) {e : Exn} (hbad : p.strip (f s b).out = .error e) {v : Nat}
    (hok : p.strip (f (f s b).st (f s b).out).out = .ok v) :
    trace (paddedDecrypt env p c) [.op (.putString b), .finish, .finish, .op .getString] (cipherInit env c s)
      = [some (.ok []), some (.error e), some (.ok []), some (.ok ((f (f s b).st (f s b).out).out.take v))]
    ∧ ¬ NoEffectIfRaises (paddedDecrypt env p c) (cipherInit env c s) .finish := by
  have hpos := h.pos
  have hR := blockRep_init env (c := c) (inv := inv) (s := s) hs hm
  have hr := paddedDecrypt_refines env h hp
  have hput := hr.putString (b := b) hR
  have hspec : (padDecSpec c.blocksize f p.strip).put (s, []) b = .ok [] (s, b) := by
    show (blockSpec c.blocksize f).put (s, []) b = _
    have hne : b ≠ [] := by intro h0; subst h0; simp at hb; omega
    simp only [blockSpec, if_neg hne, List.nil_append]
    exact lazyBlocks_le (by omega)
  rw [hspec] at hput
  obtain ⟨t1, e1, r1⟩ := hput (by simp)
  obtain ⟨t2, e2, r2⟩ := padDecFinish_bad h hf r1 hb hbad
  have hol := h.out_len hs hb
  have hol2 := h.out_len (h.inv_step hs hb) hol
  have hv : v ≤ c.blocksize := by
    rcases hp.strip_inv hol2 with ⟨v', h1, h2, _⟩ | h1
    · rw [hok] at h1; cases h1; omega
    · rw [hok] at h1; cases h1
  have hfin := hr.finish r2
  have hfs : (padDecSpec c.blocksize f p.strip).finish ((f s b).st, (f s b).out)
      = .ok ((f (f s b).st (f s b).out).out.take v) ((f (f s b).st (f s b).out).st, (f (f s b).st (f s b).out).out) := by
    show padDecFinish c.blocksize f p.strip _ = _
    unfold padDecFinish
    rw [if_pos hol]
    simp only [hf _ _, hok]
  rw [hfs] at hfin
  obtain ⟨t3, e3, r3⟩ := hfin (by simp only [List.nil_append, List.length_nil, List.length_take]; omega)
  obtain ⟨t4, e4, r4⟩ := hr.getString r3
  have p1 : perform (paddedDecrypt env p c) (.op (.putString b)) (cipherInit env c s) = .ok [] t1 := M.bind_ok e1
  have p2 : perform (paddedDecrypt env p c) .finish t1 = .exn e t2 := M.bind_exn e2
  have p3 : perform (paddedDecrypt env p c) .finish t2 = .ok [] t3 := M.bind_ok e3
  have p4 : perform (paddedDecrypt env p c) (.op .getString) t3 = .ok ([] ++ [] ++ (f (f s b).st (f s b).out).out.take v) t4 := e4
  refine ⟨?_, fun hn => ?_⟩
  · simp only [trace, p1, p2, p3, p4, List.nil_append]
  · have := hn t1 (.returned (c := .op (.putString b)) .start trivial (M.bind_ok p1)) e t2 p2 [.finish]
    simp only [trace, p2, p3] at this
    cases this

/-! ### Base64 and hexadecimal -/

theorem noEffect_same {T : Transform τ} {t0 : τ} {I : τ → Prop} (h0 : I t0)
    (hI : ∀ x t, I t → (perform T x t).Post (fun _ => I) (fun _ => I)) {x : Call} {P : Exn → Prop}
    (hx : ∀ t, I t → ∀ e t', P e → perform T x t = .exn e t' → t' = t) : NoEffectWhen T t0 x P := by
  intro t ht e t' hP hr cs
  have hi : I t := by
    refine Preserves.reachable (run := fun c => Spec.discard (perform T c)) (allowed := anyCall) ?_ h0 ht
    exact fun y _ u hu => Post.discard (hI y u hu)
  rw [hx t hi e t' hP hr]

/-- `emit` raises `Output_buffer_overflow`, if anything. -/
theorem OBuf.emit_overflow (env : Env) (cs : Bytes) (o : OBuf) (h : o.Safe) :
    (OBuf.emit env cs o).Post (fun _ => OBuf.Safe)
      (fun e o' => o'.Safe ∧ e = .error .outputBufferOverflow) := by
  unfold OBuf.emit
  refine Post.bind (Post.mono (OBuf.ensureCapacity_safe env cs.length o h) (fun _ _ x => x)
    fun _ _ x => ⟨x.2 ▸ h, x.1⟩) ?_
  rintro - o1 ⟨h1, c1⟩
  have hs := OBuf.sets_ok cs 0 o1 (by omega)
  rw [M.bind_ok hs]
  refine ⟨?_, ?_, ?_⟩
  · have := h1.pos
    show 0 < (splice o1.obuf (o1.oend + 0) cs).length
    rw [splice_length (by omega)]; exact this
  · have := h1.beg
    show o1.obeg ≤ o1.oend + cs.length
    omega
  · show o1.oend + cs.length ≤ (splice o1.obuf (o1.oend + 0) cs).length
    rw [splice_length (by omega)]; omega

/-- A character-wise transform: an exception of `put` other than overflow leaves the state. -/
abbrev CharInert (put : Byte → M τ Unit) (I : τ → Prop) : Prop :=
  ∀ c t, I t → (put c t).Post (fun _ => I)
    (fun e t' => I t' ∧ (e = .error .outputBufferOverflow ∨ t' = t))

theorem putLoop_inv {put : Byte → M τ Unit} {I : τ → Prop} (h : CharInert put I) (s : Bytes) :
    ∀ (n : Nat) (i : Int) (t : τ), I t → (putLoop put s i n t).Post (fun _ => I) (fun _ => I) := by
  intro n
  induction n with
  | zero => intro i t ht; exact ht
  | succ n ih =>
    intro i t ht
    rw [putLoop]
    exact Post.bind_orRaise ht fun c _ =>
      Post.bind (Post.mono (h c t ht) (fun _ _ x => x) fun _ _ x => x.1) fun _ t1 h1 => ih (i + 1) t1 h1

theorem iterChars_inv {put : Byte → M τ Unit} {I : τ → Prop} (h : CharInert put I) :
    ∀ (s : Bytes) (t : τ), I t → (iterChars put s t).Post (fun _ => I) (fun _ => I) := by
  intro s
  induction s with
  | nil => intro t ht; exact ht
  | cons c s ih =>
    intro t ht
    rw [iterChars]
    exact Post.bind (Post.mono (h c t ht) (fun _ _ x => x) fun _ _ x => x.1) fun _ t1 h1 => ih t1 h1

theorem charMethods_inert {get : τ → OBuf} {set : OBuf → τ → τ} {put : Byte → M τ Unit} {I : τ → Prop}
    {flush finish wipe : M τ Unit} {t0 : τ} (hg : ∀ t, I t → (get t).Safe)
    (hs : ∀ t o, I t → o.Safe → I (set o t)) (h : CharInert put I)
    (hf : ∀ t, I t → (flush t).Post (fun _ => I) (fun e t' => I t' ∧ (e = .error .outputBufferOverflow ∨ t' = t)))
    (hfi : ∀ t, I t → (finish t).Post (fun _ => I) (fun _ => I)) (h0 : I t0) (x : Call) (hx : Single x)
    (hfx : x = .finish → ∀ t, I t → (finish t).Post (fun _ _ => True)
      (fun e t' => e = .error .outputBufferOverflow ∨ t' = t)) :
    NoEffectWhen (inheritBuf get set (charMethods put (putByteChr put) flush finish wipe)) t0 x notOverflow := by
  have unit : ∀ {m : M τ Unit} {t : τ}, (m t).Post (fun _ => I) (fun _ => I) →
      ((do m; pure ([] : Bytes) : M τ Bytes) t).Post (fun _ => I) (fun _ => I) :=
    fun hm => Post.bind hm fun _ _ h => h
  have hb : ∀ b t, I t → (putByteChr put b t).Post (fun _ => I)
      (fun e t' => I t' ∧ (e = .error .outputBufferOverflow ∨ t' = t)) := by
    intro b t ht
    unfold putByteChr
    exact Post.bind_orRaise ⟨ht, .inr rfl⟩ fun c _ => h c t ht
  have fst : ∀ {m : M τ Unit} {t : τ}, (m t).Post (fun _ => I)
      (fun e t' => I t' ∧ (e = .error .outputBufferOverflow ∨ t' = t)) → (m t).Post (fun _ => I) (fun _ => I) :=
    fun hm => Post.mono hm (fun _ _ x => x) fun _ _ x => x.1
  have nonget : ∀ {o : TOp} {t : τ}, IsGet o → I t →
      (perform (inheritBuf get set (charMethods put (putByteChr put) flush finish wipe)) (.op o) t).Post
        (fun _ => I) (fun _ _ => False) := by
    intro o t ho ht
    have hsafe := hg t ht
    have hz := hs t { get t with obeg := 0, oend := 0 } ht ⟨hsafe.pos, Nat.le_refl _, Nat.zero_le _⟩
    have hr : bytesSub (get t).obuf ((get t).obeg : Int) (((get t).oend : Int) - (get t).obeg)
        = some (slice (get t).obuf (get t).obeg ((get t).oend - (get t).obeg)) := by
      have := hsafe.beg; have := hsafe.le
      rw [show ((get t).oend : Int) - (get t).obeg = (((get t).oend - (get t).obeg : Nat) : Int) by omega]
      exact bytesSub_ok (by omega)
    have hself := hs t (get t) ht hsafe
    have hch : ¬ (get t).obeg ≥ (get t).oend → ∃ c, bytesGet (get t).obuf ((get t).obeg : Int) = some c := by
      intro hlt
      have := hsafe.le
      refine ⟨(get t).obuf[(get t).obeg]'(by omega), ?_⟩
      unfold bytesGet
      rw [if_pos (by omega)]
      simp
    have hbeg : ¬ (get t).obeg ≥ (get t).oend → I (set { get t with obeg := (get t).obeg + 1 } t) := fun hlt =>
      hs t _ ht ⟨hsafe.pos, by simp only; omega, hsafe.le⟩
    cases o with
    | putSubstring b ofs len => exact ho.elim
    | putString b => exact ho.elim
    | putChar b => exact ho.elim
    | putByte b => exact ho.elim
    | getString =>
      simp only [perform, Transform.call, inheritBuf, M.zoom, OBuf.getString, hr]
      exact hz
    | getSubstring =>
      simp only [perform, Transform.call, inheritBuf, M.bind_def, M.zoom, OBuf.getSubstring, hr, M.orRaise_some]
      exact hz
    | available =>
      simp only [perform, Transform.call, inheritBuf, M.bind_def, M.zoom, OBuf.availableOutput]
      exact hself
    | getChar =>
      simp only [perform, Transform.call, inheritBuf, M.zoom, OBuf.getChar]
      by_cases hlt : (get t).obeg ≥ (get t).oend
      · simp only [if_pos hlt]; exact hself
      · obtain ⟨c, hc⟩ := hch hlt
        simp only [if_neg hlt, hc]
        exact hbeg hlt
    | getByte =>
      simp only [perform, Transform.call, inheritBuf, M.zoom, OBuf.getByte, M.bind_def, OBuf.getChar]
      by_cases hlt : (get t).obeg ≥ (get t).oend
      · simp only [if_pos hlt]; exact hself
      · obtain ⟨c, hc⟩ := hch hlt
        simp only [if_neg hlt, hc]
        exact hbeg hlt
  refine noEffect_same (I := I) h0 ?_ ?_
  · intro y t ht
    cases y with
    | flush => exact unit (fst (hf t ht))
    | finish => exact unit (hfi t ht)
    | op o =>
      cases o with
      | putSubstring b ofs len => exact unit (putLoop_inv h b len.toNat ofs t ht)
      | putString b => exact unit (iterChars_inv h b t ht)
      | putChar c => exact unit (fst (h c t ht))
      | putByte b => exact unit (fst (hb b t ht))
      | getString => exact Post.mono (nonget (o := .getString) trivial ht) (fun _ _ x => x) fun _ _ x => x.elim
      | getSubstring => exact Post.mono (nonget (o := .getSubstring) trivial ht) (fun _ _ x => x) fun _ _ x => x.elim
      | getChar => exact Post.mono (nonget (o := .getChar) trivial ht) (fun _ _ x => x) fun _ _ x => x.elim
      | getByte => exact Post.mono (nonget (o := .getByte) trivial ht) (fun _ _ x => x) fun _ _ x => x.elim
      | available => exact Post.mono (nonget (o := .available) trivial ht) (fun _ _ x => x) fun _ _ x => x.elim
  · intro t ht e t' hP hr
    have fin : ∀ {m : M τ Unit}, (m t).Post (fun _ _ => True) (fun e t' => e = .error .outputBufferOverflow ∨ t' = t) →
        (do m; pure ([] : Bytes) : M τ Bytes) t = .exn e t' → t' = t := by
      intro m hm hm'
      have hb : ((do m; pure ([] : Bytes) : M τ Bytes) t).Post (fun _ _ => True)
          (fun e t' => e = .error .outputBufferOverflow ∨ t' = t) := Post.bind hm fun _ _ _ => trivial
      exact (Post.of_exn hb hm').resolve_left hP
    have fin2 : ∀ {m : M τ Unit}, (m t).Post (fun _ => I)
        (fun e t' => I t' ∧ (e = .error .outputBufferOverflow ∨ t' = t)) →
        (do m; pure ([] : Bytes) : M τ Bytes) t = .exn e t' → t' = t := fun hm =>
      fin (Post.mono hm (fun _ _ _ => trivial) fun _ _ x => x.2)
    cases x with
    | flush => exact fin2 (hf t ht) hr
    | finish => exact fin (hfx rfl t ht) hr
    | op o =>
      cases o with
      | putSubstring b ofs len => exact hx.elim
      | putString b => exact hx.elim
      | putChar c => exact fin2 (h c t ht) hr
      | putByte b => exact fin2 (hb b t ht) hr
      | getString => exact (Post.of_exn (nonget (o := .getString) trivial ht) hr).elim
      | getSubstring => exact (Post.of_exn (nonget (o := .getSubstring) trivial ht) hr).elim
      | getChar => exact (Post.of_exn (nonget (o := .getChar) trivial ht) hr).elim
      | getByte => exact (Post.of_exn (nonget (o := .getByte) trivial ht) hr).elim
      | available => exact (Post.of_exn (nonget (o := .available) trivial ht) hr).elim

namespace B64

open Spec.Base64

theorem encChars3 (a b c : Byte) : charsAt convTable
    [lsr a 2, land a 2 * 2 ^ 4 + lsr b 4, land b 4 * 2 ^ 2 + lsr c 6, land c 6]
    = some ((groupDigits [a, b, c]).map digit) := by
  have ha := a.isLt; have hb' := b.isLt; have hc := c.isLt
  rw [digits3, ← charsAt_ok _ (by
    intro i hi
    simp only [List.mem_cons, List.not_mem_nil, or_false] at hi
    omega)]
  rfl

theorem encChars2 (a b : Byte) : charsAt convTable [lsr a 2, land a 2 * 2 ^ 4 + lsr b 4, land b 4 * 2 ^ 2]
    = some ((groupDigits [a, b]).map digit) := by
  have ha := a.isLt; have hb' := b.isLt
  rw [digits2, ← charsAt_ok _ (by
    intro i hi
    simp only [List.mem_cons, List.not_mem_nil, or_false] at hi
    omega)]
  rfl

theorem encChars1 (a : Byte) : charsAt convTable [lsr a 2, land a 2 * 2 ^ 4]
    = some ((groupDigits [a]).map digit) := by
  have ha := a.isLt
  rw [digits1, ← charsAt_ok _ (by
    intro i hi
    simp only [List.mem_cons, List.not_mem_nil, or_false] at hi
    omega)]
  rfl

/-- The state of the encoder. -/
structure EncInv (t : Enc) : Prop where
  len : t.ibuf.length = 3
  ob : t.ob.Safe

theorem encPutChar_inert (env : Env) (multiline : Bool) : CharInert (encPutChar env multiline) EncInv := by
  intro c t ht
  unfold encPutChar
  refine Post.bind_get ?_
  refine Post.bind_orRaise ⟨ht, .inr rfl⟩ ?_
  intro ib hib
  have hl := bytesSet_length hib
  refine Post.bind_modify ?_
  refine Post.bind_get ?_
  have h1 : EncInv { t with ibuf := ib, ipos := t.ipos + 1 } := ⟨hl.trans ht.len, ht.ob⟩
  revert h1
  generalize ({ t with ibuf := ib, ipos := t.ipos + 1 } : Enc) = t1
  intro h1
  split
  · have out : ∀ (cs : Bytes) (t2 : Enc), EncInv t2 → (Enc.out (OBuf.emit env cs) t2).Post (fun _ => EncInv)
        (fun e t' => EncInv t' ∧ (e = .error .outputBufferOverflow ∨ t' = t)) := fun cs t2 h2 =>
      Post.zoom (OBuf.emit_overflow env cs _ h2.ob) (fun _ _ x => ⟨h2.len, x⟩) fun _ _ x => ⟨⟨h2.len, x.1⟩, .inl x.2⟩
    match hb : t1.ibuf, h1.len with
    | [b0, b1, b2], _ =>
      unfold encGroup
      refine Post.bind_get ?_
      rw [hb]
      refine Post.bind_orRaise_some (a := b0) rfl ?_
      refine Post.bind_orRaise_some (a := b1) rfl ?_
      refine Post.bind_orRaise_some (a := b2) rfl ?_
      refine Post.bind_orRaise_some (encChars3 b0 b1 b2) ?_
      refine Post.bind (out _ t1 h1) ?_
      rintro - t2 h2
      refine Post.bind_modify ?_
      refine Post.bind_get ?_
      split
      · refine Post.bind (out _ { t2 with ipos := 0, ocolumn := t2.ocolumn + 4 } ⟨h2.len, h2.ob⟩) ?_
        rintro - t3 h3
        exact ⟨h3.len, h3.ob⟩
      · exact ⟨h2.len, h2.ob⟩
  · exact h1

theorem encFinish_inert (env : Env) (multiline padding : Bool) (t : Enc) (ht : EncInv t) :
    (encFinish env multiline padding t).Post (fun _ => EncInv)
      (fun e t' => EncInv t' ∧ e = .error .outputBufferOverflow) := by
  have out : ∀ (cs : Bytes) (t2 : Enc), EncInv t2 → (Enc.out (OBuf.emit env cs) t2).Post (fun _ => EncInv)
      (fun e t' => EncInv t' ∧ e = .error .outputBufferOverflow) := fun cs t2 h2 =>
    Post.zoom (OBuf.emit_overflow env cs _ h2.ob) (fun _ _ x => ⟨h2.len, x⟩) fun _ _ x => ⟨⟨h2.len, x.1⟩, x.2⟩
  unfold encFinish
  refine Post.bind (Q := fun _ => EncInv) ?_ ?_
  · match hb : t.ibuf, ht.len with
    | [b0, b1, b2], _ =>
      unfold encRest
      refine Post.bind_get ?_
      rw [hb]
      match t.ipos with
      | 0 => exact ht
      | 1 =>
        refine Post.bind_orRaise_some (a := b0) rfl ?_
        rw [encChars1]
        exact ht
      | 2 =>
        refine Post.bind_orRaise_some (a := b0) rfl ?_
        refine Post.bind_orRaise_some (a := b1) rfl ?_
        rw [encChars2]
        exact ht
      | _ + 3 => exact ht
  rintro cs t1 h1
  refine Post.bind (out cs t1 h1) ?_
  rintro - t2 h2
  refine Post.bind (Q := fun _ => EncInv) ?_ ?_
  · unfold encPad
    refine Post.bind_get ?_
    split
    · exact out _ _ h2
    · exact h2
  rintro - t3 h3
  refine Post.bind (Q := fun _ => EncInv) ?_ ?_
  · unfold encNewline
    refine Post.bind_get ?_
    split
    · exact out _ _ h3
    · exact h3
  rintro - t4 h4
  exact ⟨h4.len, h4.ob⟩

/-- The state of the decoder. -/
structure DecInv (t : Dec) : Prop where
  len : t.ibuf.length = 4
  small : ∀ n ∈ t.ibuf, n < 64
  ob : t.ob.Safe

theorem decodeChar_lt {c : Byte} {n : Int} (h : decodeChar c = .ok n) : n < 64 := by
  unfold decodeChar at h
  simp only [] at h
  repeat' split at h
  all_goals first
    | (cases h; done)
    | (obtain rfl := Except.ok.inj h; omega)

theorem byte0_some {a b : Nat} (ha : a < 64) (hb : b < 64) : ∃ c, byte0 a b = some c := by
  unfold byte0 charChr; rw [if_pos (by omega)]; exact ⟨_, rfl⟩
theorem byte1_some {a b : Nat} (ha : a < 64) (hb : b < 64) : ∃ c, byte1 a b = some c := by
  unfold byte1 charChr; rw [if_pos (by omega)]; exact ⟨_, rfl⟩
theorem byte2_some {a b : Nat} (ha : a < 64) (hb : b < 64) : ∃ c, byte2 a b = some c := by
  unfold byte2 charChr; rw [if_pos (by omega)]; exact ⟨_, rfl⟩

theorem decPutChar_inert (env : Env) : CharInert (decPutChar env) DecInv := by
  intro c t ht
  unfold decPutChar
  split
  · exact ⟨ht.len, ht.small, ht.ob⟩
  · refine Post.bind_ofExcept (fun e he => ⟨ht, .inr rfl⟩) ?_
    intro n hn
    have hn64 := decodeChar_lt hn
    split
    · unfold decDigit
      refine Post.bind_get ?_
      split
      · exact ⟨ht, .inr rfl⟩
      · split
        · exact ⟨ht, .inr rfl⟩
        · refine Post.bind_modify ?_
          refine Post.bind_get ?_
          have h1 : DecInv { t with ibuf := t.ibuf.set t.ipos n.toNat, ipos := t.ipos + 1 } := by
            refine ⟨by simp [ht.len], fun m hm => ?_, ht.ob⟩
            rcases List.mem_or_eq_of_mem_set hm with h | rfl
            · exact ht.small m h
            · omega
          revert h1
          generalize ({ t with ibuf := t.ibuf.set t.ipos n.toNat, ipos := t.ipos + 1 } : Dec) = t1
          intro h1
          split
          · match hb : t1.ibuf, h1.len with
            | [a0, a1, a2, a3], _ =>
              have hsm := h1.small
              rw [hb] at hsm
              simp only [List.mem_cons, List.not_mem_nil, or_false, forall_eq_or_imp, forall_eq] at hsm
              obtain ⟨s0, s1, s2, s3⟩ := hsm
              obtain ⟨c0, e0⟩ := byte0_some s0 s1
              obtain ⟨c1, e1⟩ := byte1_some s1 s2
              obtain ⟨c2, e2⟩ := byte2_some s2 s3
              have hgr : decGroup env t1 = (do Dec.out (OBuf.emit env [c0, c1, c2]); M.modify fun t => { t with ipos := 0 }) t1 := by
                have k0 : t1.at 0 = some (a0 : Int) := by simp [Dec.at, hb]
                have k1 : t1.at 1 = some (a1 : Int) := by simp [Dec.at, hb]
                have k2 : t1.at 2 = some (a2 : Int) := by simp [Dec.at, hb]
                have k3 : t1.at 3 = some (a3 : Int) := by simp [Dec.at, hb]
                simp only [decGroup, M.bind_def, M.get_def, k0, k1, k2, k3, M.orRaise_some, e0, e1, e2]
              rw [hgr]
              refine Post.bind (Q := fun _ => DecInv) (Post.zoom (OBuf.emit_overflow env _ _ h1.ob)
                (fun _ _ x => ⟨h1.len, h1.small, x⟩) fun _ _ x => ⟨⟨h1.len, h1.small, x.1⟩, .inl x.2⟩) ?_
              rintro - t2 h2
              exact ⟨h2.len, h2.small, h2.ob⟩
          · exact h1
    · exact ht

theorem decFinish_inv (env : Env) (t : Dec) (ht : DecInv t) :
    (decFinish env t).Post (fun _ => DecInv) (fun _ => DecInv) := by
  unfold decFinish
  refine Post.bind_modify ?_
  have h1 : DecInv { t with finished := true } := ⟨ht.len, ht.small, ht.ob⟩
  revert h1
  generalize ({ t with finished := true } : Dec) = t1
  intro h1
  refine Post.bind (Q := fun _ => DecInv) ?_ ?_
  · unfold decRest
    refine Post.bind_get ?_
    match t1.ipos with
    | 0 => exact h1
    | 1 => exact h1
    | 2 => exact Post.bind_orRaise h1 fun _ _ => Post.bind_orRaise h1 fun _ _ => Post.bind_orRaise h1 fun _ _ => h1
    | 3 => exact Post.bind_orRaise h1 fun _ _ => Post.bind_orRaise h1 fun _ _ => Post.bind_orRaise h1 fun _ _ =>
        Post.bind_orRaise h1 fun _ _ => Post.bind_orRaise h1 fun _ _ => h1
    | _ + 4 => exact h1
  · rintro cs t2 h2
    exact Post.zoom (OBuf.emit_overflow env _ _ h2.ob)
      (fun _ _ x => ⟨h2.len, h2.small, x⟩) fun _ _ x => ⟨h2.len, h2.small, x.1⟩

end B64

namespace Hex

/-- The state of the decoder. -/
structure DecInv (t : Dec) : Prop where
  len : t.ibuf.length = 2
  small : ∀ n ∈ t.ibuf, n < 16
  ob : t.ob.Safe

theorem decodeChar_lt {c : Byte} {n : Int} (h : decodeChar c = .ok n) : n < 16 := by
  unfold decodeChar at h
  simp only [] at h
  repeat' split at h
  all_goals first
    | (cases h; done)
    | (obtain rfl := Except.ok.inj h; omega)

theorem decPutChar_inert (env : Env) : CharInert (decPutChar env) DecInv := by
  intro c t ht
  unfold decPutChar
  refine Post.bind_ofExcept (fun e he => ⟨ht, .inr rfl⟩) ?_
  intro n hn
  have hn64 := decodeChar_lt hn
  split
  · unfold decDigit
    refine Post.bind_get ?_
    split
    · exact ⟨ht, .inr rfl⟩
    · refine Post.bind_modify ?_
      refine Post.bind_get ?_
      have h1 : DecInv { t with ibuf := t.ibuf.set t.ipos n.toNat, ipos := t.ipos + 1 } := by
        refine ⟨by simp [ht.len], fun m hm => ?_, ht.ob⟩
        rcases List.mem_or_eq_of_mem_set hm with h | rfl
        · exact ht.small m h
        · omega
      revert h1
      generalize ({ t with ibuf := t.ibuf.set t.ipos n.toNat, ipos := t.ipos + 1 } : Dec) = t1
      intro h1
      split
      · match hb : t1.ibuf, h1.len with
        | [a0, a1], _ =>
          have hsm := h1.small
          rw [hb] at hsm
          simp only [List.mem_cons, List.not_mem_nil, or_false, forall_eq_or_imp, forall_eq] at hsm
          obtain ⟨s0, s1⟩ := hsm
          have hlt : a0 * 16 ||| a1 < 2 ^ 8 := Nat.or_lt_two_pow (by omega) (by omega)
          have hc : ∃ c, charChr ((a0 * 16 ||| a1 : Nat) : Int) = some c := by
            unfold charChr; rw [if_pos (by omega)]; exact ⟨_, rfl⟩
          obtain ⟨c0, e0⟩ := hc
          unfold decGroup
          refine Post.bind_get ?_
          refine Post.bind_orRaise_some (a := a0) (by simp [hb]) ?_
          refine Post.bind_orRaise_some (a := a1) (by simp [hb]) ?_
          rw [e0]; refine Post.bind_orRaise_some (a := c0) rfl ?_
          refine Post.bind (Q := fun _ => DecInv) (Post.zoom (OBuf.emit_overflow env _ _ h1.ob)
            (fun _ _ x => ⟨h1.len, h1.small, x⟩) fun _ _ x => ⟨⟨h1.len, h1.small, x.1⟩, .inl x.2⟩) ?_
          rintro - t2 h2
          exact ⟨h2.len, h2.small, h2.ob⟩
      · exact h1
  · exact ht

end Hex

theorem B64.encInit_inv (env : Env) : B64.EncInv (B64.encInit env) :=
  ⟨by simp [B64.encInit], OBuf.safe_init env (by decide)⟩

theorem B64.decInit_inv (env : Env) : B64.DecInv (B64.decInit env) :=
  ⟨by simp [B64.decInit], by simp [B64.decInit], OBuf.safe_init env (by decide)⟩

/-- C86, Base64 encoding, for the calls other than `put_substring` and `put_string`, and the
exceptions other than `Output_buffer_overflow`. -/
theorem C86_base64_encode_partial (env : Env) (multiline padding : Bool) (x : Call) (hx : Single x) :
    NoEffectWhen (B64.encode env multiline padding) (B64.encInit env) x notOverflow := by
  have hset : ∀ (t : B64.Enc) (o : OBuf), B64.EncInv t → o.Safe → B64.EncInv { t with ob := o } :=
    fun _ _ h ho => ⟨h.len, ho⟩
  have hfl : ∀ t, B64.EncInv t → ((M.raise (.error .wrongDataLength) : M B64.Enc Unit) t).Post (fun _ => B64.EncInv)
      (fun e t' => B64.EncInv t' ∧ (e = .error .outputBufferOverflow ∨ t' = t)) := fun t h => ⟨h, .inr rfl⟩
  have hfi : ∀ t, B64.EncInv t → (B64.encFinish env multiline padding t).Post (fun _ => B64.EncInv)
      (fun _ => B64.EncInv) := fun t h =>
    Post.mono (B64.encFinish_inert env multiline padding t h) (fun _ _ x => x) fun _ _ x => x.1
  unfold B64.encode
  refine charMethods_inert (I := B64.EncInv) (set := fun o t => { t with ob := o }) (fun _ h => h.ob) hset
    (B64.encPutChar_inert env multiline) hfl hfi (B64.encInit_inv env) x hx ?_
  exact fun _ t h => Post.mono (B64.encFinish_inert env multiline padding t h) (fun _ _ _ => trivial)
      fun _ _ x => .inl x.2

/-- C86, Base64 decoding; not for `finish` either. -/
theorem C86_base64_decode_partial (env : Env) (x : Call) (hx : Simple x) :
    NoEffectWhen (B64.decode env) (B64.decInit env) x notOverflow := by
  have hset : ∀ (t : B64.Dec) (o : OBuf), B64.DecInv t → o.Safe → B64.DecInv { t with ob := o } :=
    fun _ _ h ho => ⟨h.len, h.small, ho⟩
  have hfl : ∀ t, B64.DecInv t → ((M.raise (.error .wrongDataLength) : M B64.Dec Unit) t).Post (fun _ => B64.DecInv)
      (fun e t' => B64.DecInv t' ∧ (e = .error .outputBufferOverflow ∨ t' = t)) := fun t h => ⟨h, .inr rfl⟩
  unfold B64.decode
  exact charMethods_inert (I := B64.DecInv) (set := fun o t => { t with ob := o }) (fun _ h => h.ob) hset
    (B64.decPutChar_inert env) hfl (B64.decFinish_inv env) (B64.decInit_inv env) x hx.1
    (fun h => absurd h hx.2)

/-- C86, hexadecimal decoding. -/
theorem C86_hex_decode_partial (env : Env) (x : Call) (hx : Single x) :
    NoEffectWhen (Hex.decode env) (Hex.decInit env) x notOverflow := by
  have hend : ∀ (e : Exn) (t : Hex.Dec), Hex.DecInv t →
      ((do let t ← M.get; if t.ipos ≠ 0 then M.raise e : M Hex.Dec Unit) t).Post (fun _ => Hex.DecInv)
        (fun _ t' => Hex.DecInv t' ∧ t' = t) := by
    intro e t ht
    refine Post.bind_get ?_
    split
    · exact ⟨ht, rfl⟩
    · exact ht
  exact charMethods_inert (I := Hex.DecInv) (get := (·.ob)) (set := fun o t => { t with ob := o })
    (t0 := Hex.decInit env) (fun _ h => h.ob) (fun _ _ h ho => ⟨h.len, h.small, ho⟩)
    (Hex.decPutChar_inert env) (fun t h => Post.mono (hend _ t h) (fun _ _ x => x) fun _ _ x => ⟨x.1, .inr x.2⟩)
    (fun t h => Post.mono (hend _ t h) (fun _ _ x => x) fun _ _ x => x.1)
    ⟨by simp [Hex.decInit], by simp [Hex.decInit], OBuf.safe_init env (by decide)⟩ x hx
    (fun _ t h => Post.mono (hend _ t h) (fun _ _ _ => trivial) fun _ _ x => .inr x.2)

/-! ### Hexadecimal encoding -/

theorem charsAt_two {s cs : Bytes} {a b : Int} (h : charsAt s [a, b] = some cs) : cs.length = 2 := by
  unfold charsAt at h
  rw [List.mapM_cons, List.mapM_cons, List.mapM_nil] at h
  cases ha : bytesGet s a <;> rw [ha] at h
  · cases h
  cases hb : bytesGet s b <;> rw [hb] at h
  · cases h
  · obtain rfl := (Option.some.inj h).symm
    rfl

/-- The outcome of `put_byte` depends on the contents of the buffer only, and an exception keeps them. -/
theorem Hex.encPutByte_cases (env : Env) (b : Int) (s : Unit) (q : Bytes) :
    (∃ e, Settled (Hex.EncRep env) (Hex.encPutByte env b) s q (.error e) s q)
    ∨ ∃ s' q', Settled (Hex.EncRep env) (Hex.encPutByte env b) s q (.ok ()) s' q' := by
  by_cases hfit : q.length + 2 ≤ env.maxLen
  · cases hc : (if b < 0 then none else charsAt Hex.convTable [b / 16, b % 16]) with
    | none =>
      refine .inl ⟨.invalidArg, fun t ht => ?_⟩
      obtain ⟨o1, h0, hr, _⟩ := OBuf.ensureCapacity_ok (o := t) ht.2 2 hfit
      simp only [Int.cast_ofNat_Int] at h0
      refine ⟨o1, ?_, trivial, hr⟩
      unfold Hex.encPutByte
      rw [M.bind_ok h0, hc]; rfl
    | some cs =>
      have hl : cs.length = 2 := by
        split at hc
        · cases hc
        · exact charsAt_two hc
      refine .inr ⟨s, q ++ cs, fun t ht => ?_⟩
      obtain ⟨o1, h0, hr, _⟩ := OBuf.ensureCapacity_ok (o := t) ht.2 2 hfit
      simp only [Int.cast_ofNat_Int] at h0
      obtain ⟨o2, h1, h2⟩ := OBuf.emit_ok hr cs (by omega)
      refine ⟨o2, ?_, trivial, h2⟩
      unfold Hex.encPutByte
      rw [M.bind_ok h0, hc]
      exact h1
  · refine .inl ⟨.error .outputBufferOverflow, fun t ht => ⟨t, ?_, ht⟩⟩
    · exact M.bind_exn (OBuf.ensureCapacity_overflow ht.2 2 (by omega))

theorem Settles.bind' {τ σ : Type} {R : τ → σ → Bytes → Prop} {m : M τ Unit} {k : M τ Unit} (h : Settles R m)
    (hk : Settles R k) : Settles R (do m; k) := by
  intro s q hq
  obtain ⟨r, s', q', h1⟩ := h s q hq
  obtain ⟨t, ht⟩ := hq
  cases r with
  | error e => exact ⟨.error e, s', q', fun t ht => by
      obtain ⟨t', e1, r1⟩ := h1 t ht
      exact ⟨t', M.bind_exn e1, r1⟩⟩
  | ok a =>
    obtain ⟨t', _, r1⟩ := h1 t ht
    obtain ⟨r2, s2, q2, h2⟩ := hk s' q' ⟨t', r1⟩
    refine ⟨r2, s2, q2, fun t ht => ?_⟩
    obtain ⟨t1, e1, r1⟩ := h1 t ht
    obtain ⟨t2, e2, r2⟩ := h2 t1 r1
    exact ⟨t2, by rw [M.bind_ok e1, e2], r2⟩

theorem hex_encode_settles (env : Env) (x : Call) : Settles (Hex.EncRep env) (perform (Hex.encode env) x) := by
  have hb : ∀ b : Int, Settles (Hex.EncRep env) (Hex.encPutByte env b) := fun b s q _ =>
    (Settled.of_cases (Hex.encPutByte_cases env b s q)).1
  have hu : Settles (Hex.EncRep env) (M.pure () : M OBuf Unit) := fun s q _ => ⟨.ok (), s, q, fun t ht => ⟨t, rfl, ht⟩⟩
  have hg : ∀ {o : TOp}, IsGet o → Settles (Hex.EncRep env) (perform (Hex.encode env) (.op o)) := by
    intro o ho
    have := get_settles (Hex.encode_refines env) ho
    cases o <;> first | exact ho.elim | exact this
  cases x with
  | flush => exact hu.unit
  | finish => exact hu.unit
  | op o =>
    cases o with
    | putSubstring b ofs len =>
      refine Settles.unit ?_
      show Settles _ (putLoop (Hex.encPutChar env) b ofs len.toNat)
      generalize len.toNat = n
      induction n generalizing ofs with
      | zero => exact hu
      | succ n ih =>
        rw [putLoop]
        cases hc : bytesGet b ofs with
        | none => exact fun s q _ => ⟨.error .invalidArg, s, q, fun t ht => ⟨t, rfl, ht⟩⟩
        | some c => exact Settles.bind' (hb _) (ih (ofs + 1))
    | putString b =>
      refine Settles.unit ?_
      show Settles _ (iterChars (Hex.encPutChar env) b)
      induction b with
      | nil => exact hu
      | cons c b ih => exact Settles.bind' (hb _) ih
    | putChar c => exact (hb _).unit
    | putByte b => exact (hb b).unit
    | getString | getSubstring | getChar | getByte | available => exact hg trivial

/-- C86, hexadecimal encoding, for the calls other than `put_substring` and `put_string`. -/
theorem C86_hex_encode_partial (env : Env) (hm : 256 ≤ env.maxLen) (x : Call) (hx : Single x) :
    NoEffectIfRaises (Hex.encode env) (Hex.encInit env) x := by
  have hb : ∀ b : Int, Keeps (Hex.EncRep env) (Hex.encPutByte env b) := fun b s q t e t' =>
    (Settled.of_cases (Hex.encPutByte_cases env b s q)).2 t e t'
  have hu : Keeps (Hex.EncRep env) (M.pure () : M OBuf Unit) := fun s q t e t' _ h => by cases h
  have hg : ∀ {o : TOp}, IsGet o → Keeps (Hex.EncRep env) (perform (Hex.encode env) (.op o)) := by
    intro o ho
    have := get_keeps (Hex.encode_refines env) ho
    cases o <;> first | exact ho.elim | exact this
  refine noEffect_of_keeps (hex_encode_settles env) ⟨_, _, Hex.encRep_init env hm⟩ ?_
  cases x with
  | flush => exact hu.unit
  | finish => exact hu.unit
  | op o =>
    cases o with
    | putSubstring b ofs len => exact hx.elim
    | putString b => exact hx.elim
    | putChar c => exact (hb _).unit
    | putByte b => exact (hb b).unit
    | getString | getSubstring | getChar | getByte | available => exact hg trivial

/-! ### What does have an effect -/

/-- C86 is false of `finish` of Base64 decoding: when the text is truncated, the exception is raised once
the decoder is marked as finished, and refuses all further input. -/
theorem C86_base64_decode_finish (env : Env) :
    trace (B64.decode env) [.op (.putChar 65), .finish, .op (.putChar 65)] (B64.decInit env)
      = [some (.ok []), some (.error (.error .badEncoding)), some (.error (.error .badEncoding))]
    ∧ trace (B64.decode env) [.op (.putChar 65), .op (.putChar 65)] (B64.decInit env)
      = [some (.ok []), some (.ok [])]
    ∧ ¬ NoEffectIfRaises (B64.decode env) (B64.decInit env) .finish := by
  have p1 : perform (B64.decode env) (.op (.putChar 65)) (B64.decInit env)
      = .ok [] ⟨[0, 0, 0, 0], 1, false, OBuf.init env 256⟩ := rfl
  have p2 : perform (B64.decode env) .finish ⟨[0, 0, 0, 0], 1, false, OBuf.init env 256⟩
      = .exn (.error .badEncoding) ⟨[0, 0, 0, 0], 1, true, OBuf.init env 256⟩ := rfl
  have p3 : perform (B64.decode env) (.op (.putChar 65)) ⟨[0, 0, 0, 0], 1, true, OBuf.init env 256⟩
      = .exn (.error .badEncoding) ⟨[0, 0, 0, 0], 1, true, OBuf.init env 256⟩ := rfl
  have p4 : perform (B64.decode env) (.op (.putChar 65)) ⟨[0, 0, 0, 0], 1, false, OBuf.init env 256⟩
      = .ok [] ⟨[0, 0, 0, 0], 2, false, OBuf.init env 256⟩ := rfl
  refine ⟨by simp only [trace, p1, p2, p3], by simp only [trace, p1, p4], fun hn => ?_⟩
  have := hn _ (.returned (c := .op (.putChar 65)) .start trivial (M.bind_ok p1)) _ _ p2 [.op (.putChar 65)]
  simp only [trace, p3, p4] at this
  cases this

theorem iterChars_append (put : Byte → M τ Unit) (a b : Bytes) :
    iterChars put (a ++ b) = (do iterChars put a; iterChars put b) := by
  induction a with
  | nil => rfl
  | cons c a ih =>
    show (do put c; iterChars put (a ++ b)) = _
    rw [ih]
    funext t
    simp only [iterChars, M.bind_def]
    cases put c t <;> rfl

/-- C86 is false of `put_string` of hexadecimal decoding: what precedes the character that is not allowed
is decoded and output. -/
theorem C86_hex_decode_put_string (env : Env) (hm : 256 ≤ env.maxLen) (x : Bytes) (hx : Spec.Hex.WellFormed x)
    (hlen : x.length ≤ env.maxLen) (z : Byte) (hz : ¬ (z ∈ Spec.Hex.lower ∨ z ∈ Spec.Hex.upper ∨ z ∈ Spec.blanks)) :
    trace (Hex.decode env) [.op (.putString (x ++ [z])), .op .getString] (Hex.decInit env)
      = [some (.error (.error .badEncoding)), some (.ok (Spec.Hex.decode x))]
    ∧ (Spec.Hex.decode x ≠ [] →
        ¬ NoEffectIfRaises (Hex.decode env) (Hex.decInit env) (.op (.putString (x ++ [z])))) := by
  obtain ⟨out, ds', h1, h2, h3, h4⟩ := Hex.run_good x [] hx.1 (by simp)
  have hds : ds' = [] := List.eq_nil_of_length_eq_zero (by rw [h2]; simp [hx.2])
  have hout : out = Spec.Hex.decode x := h4 hds
  have hput := (Hex.decode_refines env).putString (b := x) (Hex.decRep_init env hm)
  have hsp : Hex.decSpec.put [] x = .ok out [] := by rw [hds] at h1; exact h1
  rw [hsp] at hput
  obtain ⟨t1, e1, r1⟩ := hput (by simp at h3 ⊢; omega)
  change iterChars (Hex.decPutChar env) x (Hex.decInit env) = _ at e1
  have hz' : Hex.decodeChar z = .error (.error .badEncoding) := by
    have hv : Spec.Hex.value? z = none := by
      cases hv : Spec.Hex.value? z with
      | none => rfl
      | some v =>
        have := (Hex.value_isSome z).1 (by rw [hv]; rfl)
        exact absurd (this.elim .inl (fun h => .inr (.inl h))) hz
    rw [Hex.decodeChar_none hv, if_neg (fun h => hz (.inr (.inr h)))]
  have e2 : iterChars (Hex.decPutChar env) (x ++ [z]) (Hex.decInit env) = .exn (.error .badEncoding) t1 := by
    rw [iterChars_append, M.bind_ok e1]
    simp only [iterChars, Hex.decPutChar, hz']
    rfl
  have p1 : perform (Hex.decode env) (.op (.putString (x ++ [z]))) (Hex.decInit env) = .exn (.error .badEncoding) t1 :=
    M.bind_exn e2
  obtain ⟨t2, e3, _⟩ := (Hex.decode_refines env).getString r1
  have p2 : perform (Hex.decode env) (.op .getString) t1 = .ok (Spec.Hex.decode x) t2 := by
    rw [← hout]; exact e3
  obtain ⟨t3, e4, _⟩ := (Hex.decode_refines env).getString (Hex.decRep_init env hm)
  have p3 : perform (Hex.decode env) (.op .getString) (Hex.decInit env) = .ok [] t3 := e4
  refine ⟨by simp only [trace, p1, p2], fun hne hn => ?_⟩
  have := hn _ .start _ _ p1 [.op .getString]
  simp only [trace, p2, p3] at this
  simp at this
  exact hne this

namespace B64

open Spec.Base64

theorem run_zeros (k : Nat) : ∀ col : Nat, ∃ out col', runChars (encStep false) ([], col) (List.replicate (3 * k) 0)
    = .ok out ([], col') ∧ out.length = 4 * k := by
  induction k with
  | zero => exact fun col => ⟨[], col, rfl, rfl⟩
  | succ k ih =>
    intro col
    obtain ⟨out, col', h1, h2⟩ := ih (col + 4)
    have hs : encStep false ([0, 0], col) 0 = .ok ((groupDigits [0, 0, 0]).map digit) ([], col + 4) := by
      simp [encStep]
    refine ⟨(groupDigits [0, 0, 0]).map digit ++ out, col', ?_, ?_⟩
    · rw [show 3 * (k + 1) = 3 * k + 1 + 1 + 1 by omega, List.replicate_succ, List.replicate_succ, List.replicate_succ]
      simp only [runChars]
      rw [show encStep false ([], col) 0 = .ok [] ([0], col) from rfl, SRes.andThen_ok_nil,
        show encStep false ([0], col) 0 = .ok [] ([0, 0], col) from rfl, SRes.andThen_ok_nil, hs]
      simp only [SRes.andThen, h1]
    · rw [List.length_append, h2, digits3]
      simp only [List.length_map, List.length_cons, List.length_nil]
      omega

end B64

/-- C86 is false of `Output_buffer_overflow` in Base64 encoding: the exception is raised once the group is
complete, so that it is neither output nor forgotten, and the encoder refuses all further characters even
after its output has been retrieved. -/
theorem C86_base64_encode_overflow (env : Env) (hm : 256 ≤ env.maxLen) (padding : Bool) (c : Byte) :
    ∃ x q : Bytes,
      trace (B64.encode env false padding) [.op (.putString x), .op (.putChar c), .op .getString, .op (.putChar c)]
        (B64.encInit env)
        = [some (.ok []), some (.error (.error .outputBufferOverflow)), some (.ok q), some (.error .invalidArg)]
      ∧ trace (B64.encode env false padding) [.op (.putString x), .op .getString, .op (.putChar c)]
        (B64.encInit env) = [some (.ok []), some (.ok q), some (.ok [])]
      ∧ ¬ NoEffectIfRaises (B64.encode env false padding) (B64.encInit env) (.op (.putChar c)) := by
  let k := env.maxLen / 4
  obtain ⟨out, col', h1, h2⟩ := B64.run_zeros k 0
  have hR := B64.encRep_init env hm
  have hr := B64.encode_refines env false padding
  have hput := hr.putString (b := List.replicate (3 * k) 0 ++ [0, 0]) hR
  have hsp : (B64.encSpec false padding).put ([], 0) (List.replicate (3 * k) 0 ++ [0, 0]) = .ok out ([0, 0], col') := by
    show runChars _ _ _ = _
    rw [runChars_append, h1]
    simp only [SRes.andThen, runChars, B64.encStep, List.length_nil, List.nil_append]
    simp
  rw [hsp] at hput
  obtain ⟨t1, e1, r1, rb⟩ := hput (by simp; omega)
  rw [List.nil_append] at rb
  have hstep := B64.encPutChar_refines (ml := false) (c := c) (t := { t1 with ob := { t1.ob with obeg := 0, oend := 0 } })
    (s := ([0, 0], col')) (q := []) ⟨⟨r1.len, r1.ipos, r1.lt, r1.pend, r1.col⟩, rb.clear⟩
  rw [show B64.encStep false ([0, 0], col') c
    = .ok ((Spec.Base64.groupDigits [0, 0, c]).map Spec.Base64.digit) ([], col' + 4) by simp [B64.encStep]] at hstep
  obtain ⟨tc, ec, -⟩ := hstep (by
    rw [B64.digits3]
    simp only [List.length_map, List.length_cons, List.length_nil]
    omega)
  have hset := bytesSet_ok (b := t1.ibuf) (i := t1.ipos) (c := c) (by rw [r1.len, r1.ipos]; simp)
  let t2 : B64.Enc := { t1 with ibuf := t1.ibuf.set t1.ipos c, ipos := t1.ipos + 1 }
  have hl2 : t2.ibuf.length = 3 := by rw [← r1.len]; exact List.length_set
  have hi2 : t2.ipos = 3 := by show t1.ipos + 1 = 3; rw [r1.ipos]; rfl
  have e2 : B64.encPutChar env false c t1 = .exn (.error .outputBufferOverflow) t2 := by
    simp only [B64.encPutChar, M.bind_def, M.get_def, hset, M.orRaise_some, M.modify_def]
    rw [if_pos hi2]
    show B64.encGroup env false t2 = _
    match hb : t2.ibuf, hl2 with
    | [b0, b1, b2], _ =>
      have hg : bytesGet t2.ibuf 0 = some b0 ∧ bytesGet t2.ibuf 1 = some b1 ∧ bytesGet t2.ibuf 2 = some b2 := by
        rw [hb]; exact ⟨rfl, rfl, rfl⟩
      have hov : B64.Enc.out (OBuf.emit env ((Spec.Base64.groupDigits [b0, b1, b2]).map Spec.Base64.digit)) t2
          = .exn (.error .outputBufferOverflow) t2 := by
        have hdl : ((Spec.Base64.groupDigits [b0, b1, b2]).map Spec.Base64.digit).length = 4 := by rw [B64.digits3]; rfl
        have := OBuf.ensureCapacity_overflow (o := t2.ob) rb
          ((Spec.Base64.groupDigits [b0, b1, b2]).map Spec.Base64.digit).length (by rw [hdl]; omega)
        simp only [B64.Enc.out, M.zoom, OBuf.emit, M.bind_exn this]
      simp only [B64.encGroup, M.bind_def, M.get_def, hg, M.orRaise_some, B64.encChars3, hov]
  have e3 : bytesSet t2.ibuf t2.ipos c = none := by
    unfold bytesSet
    rw [if_neg (by rw [hl2, hi2]; omega)]
  let T := B64.encode env false padding
  have p1 : perform T (.op (.putString (List.replicate (3 * k) 0 ++ [0, 0]))) (B64.encInit env) = .ok [] t1 := M.bind_ok e1
  have p2 : perform T (.op (.putChar c)) t1 = .exn (.error .outputBufferOverflow) t2 := M.bind_exn e2
  have p3 : perform T (.op .getString) t2 = .ok out { t2 with ob := { t1.ob with obeg := 0, oend := 0 } } := by
    show M.zoom (fun t : B64.Enc => t.ob) (fun o t => { t with ob := o }) OBuf.getString t2 = _
    simp only [M.zoom, show OBuf.getString t2.ob = _ from OBuf.getString_ok rb]
    rfl
  have p4 : perform T (.op (.putChar c)) { t2 with ob := { t1.ob with obeg := 0, oend := 0 } }
      = .exn .invalidArg { t2 with ob := { t1.ob with obeg := 0, oend := 0 } } := by
    refine M.bind_exn ?_
    show B64.encPutChar env false c _ = _
    simp only [B64.encPutChar, M.bind_def, M.get_def, e3]
    rfl
  have p5 : perform T (.op .getString) t1 = .ok out { t1 with ob := { t1.ob with obeg := 0, oend := 0 } } := by
    show M.zoom (fun t : B64.Enc => t.ob) (fun o t => { t with ob := o }) OBuf.getString t1 = _
    simp only [M.zoom, show OBuf.getString t1.ob = _ from OBuf.getString_ok rb]
  have p6 : perform T (.op (.putChar c)) { t1 with ob := { t1.ob with obeg := 0, oend := 0 } } = .ok [] tc := M.bind_ok ec
  refine ⟨List.replicate (3 * k) 0 ++ [0, 0], out, ?_, ?_, fun hn => ?_⟩
  · show trace T _ _ = _
    simp only [trace, p1, p2, p3, p4]
  · show trace T _ _ = _
    simp only [trace, p1, p5, p6]
  · have := hn _ (.returned (c := .op (.putString (List.replicate (3 * k) 0 ++ [0, 0]))) .start trivial (M.bind_ok p1)) _ _ p2
      [.op .getString, .op (.putChar c)]
    change trace T _ _ = trace T _ _ at this
    simp only [trace, p3, p4, p5, p6] at this
    simp at this

/-! ### Non-vacuity -/

open Example in
/-- Decryption with padding, where the block `b` is not padded when it is decrypted once and is when it is
decrypted twice. -/
example : ∃ b : Bytes, trace (paddedDecrypt env64 Padding.length toyEnc)
    [.op (.putString b), .finish, .finish, .op .getString] (cipherInit env64 toyEnc key)
    = [some (.ok []), some (.error (.error .badPadding)), some (.ok []), some (.ok [77, 97, 110])] := by
  have hb : (xorb (xorb [77, 97, 110, 1] key) key.reverse).length = 4 := rfl
  exact ⟨_, (C86_padded_decrypt_finish toyEnc_pure (fun _ _ => rfl) rfl (by decide)
    (length_computes (by decide) (by decide)) hb (e := .error .badPadding) (by decide +kernel) (v := 3)
    (by decide +kernel)).1⟩

open Example in
/-- States in which calls of the codecs raise. -/
example : (∃ t, perform (B64.decode env64) (.op (.putChar 42)) (B64.decInit env64) = .exn (.error .badEncoding) t)
    ∧ (∃ t, perform (B64.encode env64 true true) .flush (B64.encInit env64) = .exn (.error .wrongDataLength) t)
    ∧ (∃ t, perform (Hex.decode env64) (.op (.putChar 42)) (Hex.decInit env64) = .exn (.error .badEncoding) t)
    ∧ (∃ t, perform (Hex.encode env64) (.op (.putByte 256)) (Hex.encInit env64) = .exn .invalidArg t) :=
  ⟨⟨_, rfl⟩, ⟨_, rfl⟩, ⟨_, rfl⟩, by
    obtain ⟨t, h, _⟩ := (C48_put_byte_range (env := env64) true true 256 (by decide) (B64.encInit env64) (B64.decInit env64)
      (Hex.encInit env64) [] (OBuf.rep_init env64 _ (by decide) (by decide)) (by decide) (Hex.decInit env64)).2.2.1
    exact ⟨t, M.bind_exn h⟩⟩

open Example in
example : trace (Hex.decode env64) [.op (.putString (ascii "4d61" ++ [42])), .op .getString] (Hex.decInit env64)
    = [some (.error (.error .badEncoding)), some (.ok (ascii "Ma"))] := by
  have := (C86_hex_decode_put_string env64 (by decide) (ascii "4d61") (by unfold Spec.Hex.WellFormed; decide +kernel)
    (by decide) 42 (by decide +kernel)).1
  rw [this]
  decide +kernel

end Verif
