import Verif.Proof.BlockRun
import Verif.Proof.Padding
/-
`cipher_padded_encrypt` and `cipher_padded_decrypt`.
-/
namespace Verif

/-- A padding scheme object computes the padding function `pad` on blocks of `n` bytes,
and its `strip` recognises exactly the padded blocks. -/
structure PadScheme.Computes (p : PadScheme) (n : Nat) (pad : Bytes → Bytes) : Prop where
  pad_ok : ∀ {b : Bytes} {used : Nat}, b.length = n → used < n →
    p.pad b used = .ok (pad (b.take used))
  pad_len : ∀ {x : Bytes}, x.length < n → (pad x).length = n
  pad_take : ∀ {x : Bytes}, (pad x).take x.length = x
  strip_pad : ∀ {x : Bytes}, x.length < n → p.strip (pad x) = .ok x.length
  strip_inv : ∀ {b : Bytes}, b.length = n →
    (∃ v, p.strip b = .ok v ∧ v < n ∧ b = pad (b.take v)) ∨ p.strip b = .error (.error .badPadding)

theorem length_computes {n : Nat} (hn : 0 < n) (hn' : n < 256) :
    Padding.length.Computes n (Spec.padLength n) where
  pad_ok := fun hb hu => lengthPad_ok hb hu (by omega)
  pad_len := fun h => Spec.padLength_length (by omega)
  pad_take := by intro x; simp [Spec.padLength]
  strip_pad := fun h => lengthStrip_pad h (by omega)
  strip_inv := by
    intro b hb
    have hne : b ≠ [] := by intro h; subst h; simp at hb; omega
    rcases lengthStrip_inv hne with ⟨v, h1, h2, _, h4⟩ | h
    · left; exact ⟨v, h1, by omega, by rw [hb] at h4; exact h4⟩
    · right; exact h

theorem _8000_computes {n : Nat} : Padding._8000.Computes n (Spec.pad8000 n) where
  pad_ok := fun hb hu => pad8000_ok hb hu
  pad_len := fun h => Spec.pad8000_length h
  pad_take := by intro x; simp [Spec.pad8000]
  strip_pad := fun h => strip8000_pad h
  strip_inv := by
    intro b hb
    rcases strip8000_inv b with ⟨v, h1, h2, h4⟩ | h
    · left; exact ⟨v, h1, by omega, by rw [hb] at h4; exact h4⟩
    · right; exact h

variable {σ : Type} {env : Env} {c : BlockCipher σ} {inv : σ → Prop} {f : σ → Bytes → BRes σ}

/-- one block, keeping `rest` as pending bytes -/
def oneBlockRest (f : σ → Bytes → BRes σ) (s : σ) (b rest : Bytes) : SRes (σ × Bytes) :=
  let r := f s b
  match r.exn with
  | some e => .err r.out e
  | none => .ok r.out (r.st, rest)

def padEncFinish (n : Nat) (f : σ → Bytes → BRes σ) (pad : Bytes → Bytes) (s : σ × Bytes) :
    SRes (σ × Bytes) :=
  if s.2.length = n then
    (oneBlock f s.1 s.2).andThen (fun s' => oneBlockRest f s'.1 (pad []) [])
  else oneBlockRest f s.1 (pad s.2) s.2

def padEncSpec (n : Nat) (f : σ → Bytes → BRes σ) (pad : Bytes → Bytes) : XSpec (σ × Bytes) :=
  { blockSpec n f with finish := padEncFinish n f pad }

theorem padEncSpec_lawful {n : Nat} (hn : 0 < n) (f : σ → Bytes → BRes σ) (pad : Bytes → Bytes) :
    (padEncSpec n f pad).Lawful :=
  ⟨(blockSpec_lawful hn f).put_nil, (blockSpec_lawful hn f).put_append⟩

theorem padLast_refines (h : BlockRuns c inv f) {p : PadScheme} {pad : Bytes → Bytes}
    (hp : p.Computes c.blocksize pad) {t : CipherSt σ} {s : σ × Bytes} {q : Bytes}
    (hR : BlockRep env c inv t s q) (hlt : s.2.length < c.blocksize) :
    StepRefines (BlockRep env c inv) env.maxLen q
      ((do let st ← M.get
           let ib ← ofExcept (p.pad st.ibuf st.used)
           M.modify fun st => { st with ibuf := ib }
           CipherSt.pushBlock env c : M (CipherSt σ) Unit) t)
      (oneBlockRest f s.1 (pad s.2) s.2) := by
  have hused := hR.used
  have hpad := hp.pad_ok (b := t.ibuf) (used := t.used) hR.ilen (by omega)
  rw [hR.pend] at hpad
  have hlen := hp.pad_len hlt
  have hol := h.out_len hR.inv hlen
  have hpush := fun hfit => pushBlock_ok (env := env) (q := q) h (t := { t with ibuf := pad s.2 })
    hR.inv hlen hR.ob hfit
  simp only at hpush
  have hstep : (do let st ← M.get
                   let ib ← ofExcept (p.pad st.ibuf st.used)
                   M.modify fun st => { st with ibuf := ib }
                   CipherSt.pushBlock env c : M (CipherSt σ) Unit) t
      = CipherSt.pushBlock env c { t with ibuf := pad s.2 } := by
    simp only [M.bind_def, M.get_def, hpad, ofExcept, M.pure, M.modify_def]
  rw [hstep]
  unfold oneBlockRest
  rw [← hR.st]
  cases hexn : (f t.c (pad s.2)).exn with
  | some e =>
    rw [hexn] at hpush
    simp only [hexn]
    intro hfit
    obtain ⟨t', ht'⟩ := hpush (by omega)
    exact ⟨t', ht'⟩
  | none =>
    rw [hexn] at hpush
    simp only [hexn]
    intro hfit
    obtain ⟨ob', hp', hob'⟩ := hpush (by omega)
    refine ⟨_, hp', ?_⟩
    exact { inv := h.inv_step hR.inv hlen, st := rfl, ilen := hlen, used := hused,
            le := hR.le, pend := by simp only; rw [hused]; exact hp.pad_take, ob := hob' }

theorem paddedEncryptFinish_refines (h : BlockRuns c inv f) {p : PadScheme} {pad : Bytes → Bytes}
    (hp : p.Computes c.blocksize pad) {t : CipherSt σ} {s : σ × Bytes} {q : Bytes}
    (hR : BlockRep env c inv t s q) :
    StepRefines (BlockRep env c inv) env.maxLen q (paddedEncryptFinish env p c t)
      (padEncFinish c.blocksize f pad s) := by
  have hpos := h.pos
  have hused := hR.used
  have hle := hR.le
  have hil := hR.ilen
  unfold padEncFinish
  by_cases hfull : s.2.length = c.blocksize
  · rw [if_pos hfull]
    have hpend : t.ibuf = s.2 := by
      rw [← hR.pend, List.take_of_length_le (by omega)]
    have hol := h.out_len hR.inv hil
    have hpush := fun hfit => pushBlock_ok (env := env) (q := q) h (t := t) hR.inv hil hR.ob hfit
    unfold oneBlock
    rw [← hpend, ← hR.st]
    cases hexn : (f t.c t.ibuf).exn with
    | some e =>
      rw [hexn] at hpush
      simp only [hexn, SRes.andThen]
      intro hfit
      obtain ⟨t', ht'⟩ := hpush (by omega)
      refine ⟨t', ?_⟩
      unfold paddedEncryptFinish
      rw [M.bind_ok (M.get_def _)]
      simp only [if_pos (show t.used ≥ c.blocksize by omega)]
      simp only [M.bind_def, ht']
    | none =>
      rw [hexn] at hpush
      simp only at hpush
      simp only [hexn]
      have hrest : ∀ ob', CipherSt.pushBlock env c t
            = .ok () { t with c := (f t.c t.ibuf).st, ob := ob' } →
          paddedEncryptFinish env p c t
            = (do let st ← M.get
                  let ib ← ofExcept (p.pad st.ibuf st.used)
                  M.modify fun st => { st with ibuf := ib }
                  CipherSt.pushBlock env c : M (CipherSt σ) Unit)
                { c := (f t.c t.ibuf).st, ibuf := t.ibuf, used := 0, ob := ob' } := by
        intro ob' h1
        unfold paddedEncryptFinish
        rw [M.bind_ok (M.get_def _)]
        simp only [if_pos (show t.used ≥ c.blocksize by omega)]
        simp only [M.bind_def, h1, M.modify_def]
      have hlast := fun ob' (hob' : OBuf.Rep env ob' (q ++ (f t.c t.ibuf).out)) =>
        padLast_refines (env := env) h hp (pad := pad)
        (t := { c := (f t.c t.ibuf).st, ibuf := t.ibuf, used := 0, ob := ob' })
        (s := ((f t.c t.ibuf).st, [])) (q := q ++ (f t.c t.ibuf).out)
        { inv := h.inv_step hR.inv hil, st := rfl, ilen := hil, used := rfl, le := by simp,
          pend := by simp, ob := hob' } (by simpa using hpos)
      simp only at hlast
      cases hl : oneBlockRest f (f t.c t.ibuf).st (pad []) [] with
      | err o e =>
        simp only [SRes.andThen, hl]
        intro hfit
        simp only [List.length_append] at hfit
        obtain ⟨ob', h1, hob'⟩ := hpush (by omega)
        have h2 := hlast ob' hob'
        rw [hl] at h2
        obtain ⟨t', ht'⟩ := h2 (by simp only [List.length_append]; omega)
        exact ⟨t', by rw [hrest ob' h1]; exact ht'⟩
      | ok o s' =>
        simp only [SRes.andThen, hl]
        intro hfit
        simp only [List.length_append] at hfit
        obtain ⟨ob', h1, hob'⟩ := hpush (by omega)
        have h2 := hlast ob' hob'
        rw [hl] at h2
        obtain ⟨t', ht', hR'⟩ := h2 (by simp only [List.length_append]; omega)
        exact ⟨t', by rw [hrest ob' h1]; exact ht', by rwa [List.append_assoc] at hR'⟩
  · rw [if_neg hfull]
    have := padLast_refines (env := env) h hp hR (by omega)
    have heq : paddedEncryptFinish env p c t
        = (do let st ← M.get
              let ib ← ofExcept (p.pad st.ibuf st.used)
              M.modify fun st => { st with ibuf := ib }
              CipherSt.pushBlock env c : M (CipherSt σ) Unit) t := by
      unfold paddedEncryptFinish
      rw [M.bind_ok (M.get_def _)]
      simp only [if_neg (show ¬ t.used ≥ c.blocksize by omega)]
    rw [heq]
    exact this

theorem BlockRuns.paddedEncrypt (env : Env) (h : BlockRuns c inv f) {p : PadScheme}
    {pad : Bytes → Bytes} (hp : p.Computes c.blocksize pad) :
    Refines (paddedEncrypt env p c) (padEncSpec c.blocksize f pad) env.maxLen
      (BlockRep env c inv) :=
  let r := h.refines env
  { putSubstring := r.putSubstring, putString := r.putString, putChar := r.putChar,
    putByte := r.putByte, flush := r.flush,
    finish := fun hR => paddedEncryptFinish_refines h hp hR,
    available := r.available, getString := r.getString, getSubstring := r.getSubstring,
    getChar_nil := r.getChar_nil, getChar_cons := r.getChar_cons, getByte_nil := r.getByte_nil,
    getByte_cons := r.getByte_cons }

theorem paddedEncrypt_refines (env : Env) (h : Implements c inv f) {p : PadScheme}
    {pad : Bytes → Bytes} (hp : p.Computes c.blocksize pad) :
    Refines (paddedEncrypt env p c) (padEncSpec c.blocksize f pad) env.maxLen
      (BlockRep env c inv) :=
  h.runs.paddedEncrypt env hp

/-! ### Decryption -/

def padDecFinish (n : Nat) (f : σ → Bytes → BRes σ) (strip : Bytes → Except Exn Nat)
    (s : σ × Bytes) : SRes (σ × Bytes) :=
  if s.2.length = n then
    let r := f s.1 s.2
    match r.exn with
    | some e => .err [] e
    | none =>
      match strip r.out with
      | .ok v => .ok (r.out.take v) (r.st, r.out)
      | .error e => .err [] e
  else .err [] (.error .wrongDataLength)

def padDecSpec (n : Nat) (f : σ → Bytes → BRes σ) (strip : Bytes → Except Exn Nat) :
    XSpec (σ × Bytes) :=
  { blockSpec n f with finish := padDecFinish n f strip }

theorem padDecSpec_lawful {n : Nat} (hn : 0 < n) (f : σ → Bytes → BRes σ)
    (strip : Bytes → Except Exn Nat) : (padDecSpec n f strip).Lawful :=
  ⟨(blockSpec_lawful hn f).put_nil, (blockSpec_lawful hn f).put_append⟩

theorem paddedDecryptFinish_refines (h : BlockRuns c inv f) {p : PadScheme} {pad : Bytes → Bytes}
    (hp : p.Computes c.blocksize pad) {t : CipherSt σ} {s : σ × Bytes} {q : Bytes}
    (hR : BlockRep env c inv t s q) :
    StepRefines (BlockRep env c inv) env.maxLen q (paddedDecryptFinish env p c t)
      (padDecFinish c.blocksize f p.strip s) := by
  have hpos := h.pos
  have hused := hR.used
  have hle := hR.le
  have hil := hR.ilen
  unfold padDecFinish
  by_cases hfull : s.2.length = c.blocksize
  · rw [if_pos hfull]
    have hpend : t.ibuf = s.2 := by
      rw [← hR.pend, List.take_of_length_le (by omega)]
    rw [← hpend, ← hR.st]
    have hol := h.out_len hR.inv hil
    have hrun := h.run (s := t.c) (src := .self) (so := 0) (dofs := 0)
      (dst := t.ibuf) hR.inv (by simp only [Src.read_self]; omega) (by omega)
    simp only [Src.read_self, slice_full' hil, Int.natCast_zero] at hrun
    have hsp : splice t.ibuf 0 (f t.c t.ibuf).out = (f t.c t.ibuf).out :=
      splice_full (by omega)
    cases hexn : (f t.c t.ibuf).exn with
    | some e =>
      simp only [hexn] at hrun
      obtain ⟨r, hrun⟩ := hrun
      simp only [hexn]
      intro _
      refine ⟨{ t with c := r.1, ibuf := r.2 }, ?_⟩
      · unfold paddedDecryptFinish
        rw [M.bind_ok (M.get_def _)]
        simp only [if_neg (show ¬ t.used ≠ c.blocksize by omega)]
        simp only [M.bind_def, callIbuf, M.zoom, hrun]
    | none =>
      simp only [hexn, hsp] at hrun
      simp only [hexn]
      cases hst : p.strip (f t.c t.ibuf).out with
      | error e =>
        intro _
        refine ⟨{ t with c := (f t.c t.ibuf).st, ibuf := (f t.c t.ibuf).out }, ?_⟩
        unfold paddedDecryptFinish
        rw [M.bind_ok (M.get_def _)]
        simp only [if_neg (show ¬ t.used ≠ c.blocksize by omega)]
        simp only [M.bind_def, callIbuf, M.zoom, hrun, M.get_def, hst, ofExcept]
        rfl
      | ok v =>
        simp only
        intro hfit
        have hv : v ≤ c.blocksize := by
          rcases hp.strip_inv hol with ⟨v', h1, h2, _⟩ | h1
          · rw [hst] at h1; cases h1; omega
          · rw [hst] at h1; cases h1
        obtain ⟨o', h1, h2, h3⟩ := OBuf.ensureCapacity_ok hR.ob v
          (by simp only [List.length_take] at hfit; omega)
        have hbl := bytesBlit_ok (src := (f t.c t.ibuf).out) (so := 0) (dst := o'.obuf)
          (dofs := o'.oend) (n := v) (by omega) h3
        have hsl : slice (f t.c t.ibuf).out 0 v = (f t.c t.ibuf).out.take v := by simp [slice]
        rw [hsl, Int.natCast_zero] at hbl
        have htl : ((f t.c t.ibuf).out.take v).length = v := by simp; omega
        have hw := h2.write (x := (f t.c t.ibuf).out.take v) (by omega)
        rw [htl] at hw
        refine ⟨⟨(f t.c t.ibuf).st, (f t.c t.ibuf).out, t.used,
          { o' with obuf := splice o'.obuf o'.oend ((f t.c t.ibuf).out.take v), oend := o'.oend + v }⟩,
          ?_, ?_⟩
        · unfold paddedDecryptFinish
          rw [M.bind_ok (M.get_def _)]
          simp only [if_neg (show ¬ t.used ≠ c.blocksize by omega)]
          simp only [M.bind_def, callIbuf, M.zoom, hrun, M.get_def, hst, ofExcept, M.pure,
            CipherSt.onBuf, h1, hbl, M.orRaise_some, M.modify_def]
        · exact { inv := h.inv_step hR.inv hil, st := rfl, ilen := hol,
                  used := by simp only; omega, le := by simp only; omega,
                  pend := by simp only; exact List.take_of_length_le (by omega), ob := hw }
  · rw [if_neg hfull]
    intro _
    refine ⟨t, ?_⟩
    unfold paddedDecryptFinish
    rw [M.bind_ok (M.get_def _)]
    simp only [if_pos (show t.used ≠ c.blocksize by omega)]
    rfl

theorem BlockRuns.paddedDecrypt (env : Env) (h : BlockRuns c inv f) {p : PadScheme}
    {pad : Bytes → Bytes} (hp : p.Computes c.blocksize pad) :
    Refines (paddedDecrypt env p c) (padDecSpec c.blocksize f p.strip) env.maxLen
      (BlockRep env c inv) :=
  let r := h.refines env
  { putSubstring := r.putSubstring, putString := r.putString, putChar := r.putChar,
    putByte := r.putByte, flush := r.flush,
    finish := fun hR => paddedDecryptFinish_refines h hp hR,
    available := r.available, getString := r.getString, getSubstring := r.getSubstring,
    getChar_nil := r.getChar_nil, getChar_cons := r.getChar_cons, getByte_nil := r.getByte_nil,
    getByte_cons := r.getByte_cons }

theorem paddedDecrypt_refines (env : Env) (h : Implements c inv f) {p : PadScheme}
    {pad : Bytes → Bytes} (hp : p.Computes c.blocksize pad) :
    Refines (paddedDecrypt env p c) (padDecSpec c.blocksize f p.strip) env.maxLen
      (BlockRep env c inv) :=
  h.runs.paddedDecrypt env hp

/-! ### Total behaviour -/

/-- Forget part of the state. -/
def SRes.map (g : σ → σ') : SRes σ → SRes σ'
  | .ok o s => .ok o (g s)
  | .err o e => .err o e

theorem SRes.map_andThen {α β γ : Type} (r : SRes α) (k : α → SRes β) (g : β → γ) :
    (r.andThen k).map g = r.andThen (fun s => (k s).map g) := by
  cases r with
  | err o e => rfl
  | ok o s => simp only [SRes.andThen]; cases k s <;> rfl

theorem padMessage_lt {n : Nat} {pad : Bytes → Bytes} {m : Bytes} (h : m.length < n) :
    Spec.padMessage n pad m = pad m := by
  simp [Spec.padMessage, Nat.div_eq_of_lt h]

theorem padMessage_ge {n : Nat} (hn : 0 < n) {pad : Bytes → Bytes} {m : Bytes} (h : n ≤ m.length) :
    Spec.padMessage n pad m = m.take n ++ Spec.padMessage n pad (m.drop n) := by
  unfold Spec.padMessage
  have h1 : m.length / n * n = n + (m.drop n).length / n * n := by
    rw [List.length_drop]
    conv => lhs; rw [show m.length = (m.length - n) + n by omega, Nat.add_div_right _ hn]
    rw [Nat.add_mul, Nat.one_mul, Nat.add_comm]
  rw [h1, ← List.drop_drop, List.take_add, List.append_assoc]

theorem padMessage_length {n : Nat} (hn : 0 < n) {pad : Bytes → Bytes}
    (hpad : ∀ x : Bytes, x.length < n → (pad x).length = n) (m : Bytes) :
    (Spec.padMessage n pad m).length = (m.length / n + 1) * n := by
  have h1 := Nat.div_add_mod m.length n
  have h2 := Nat.mod_lt m.length hn
  rw [Nat.mul_comm] at h1
  rw [Spec.padMessage, List.length_append, List.length_take, hpad _ (by simp; omega), Nat.add_mul,
    Nat.one_mul]
  omega

theorem padEnc_run {n : Nat} (hn : 0 < n) {f : σ → Bytes → BRes σ} {pad : Bytes → Bytes}
    (hpad : ∀ x : Bytes, x.length < n → (pad x).length = n) (m : Bytes) (s : σ) :
    ((lazyBlocks n f s m).andThen (padEncFinish n f pad)).map Prod.fst
      = (runBlocks f s (chunks n (Spec.padMessage n pad m))).map Prod.fst := by
  induction h : m.length using Nat.strongRecOn generalizing m s with
  | _ k ih =>
    have hone : ∀ (s : σ) (b rest : Bytes), (oneBlockRest f s b rest).map Prod.fst
        = (runBlocks f s [b]).map Prod.fst := by
      intro s b rest
      simp only [oneBlockRest, runBlocks, oneBlock]
      cases hexn : (f s b).exn <;> simp [SRes.andThen, SRes.map]
    by_cases h1 : m.length < n
    · rw [lazyBlocks_le (by omega), SRes.andThen_ok_nil, padEncFinish, if_neg (by simp only; omega),
        padMessage_lt h1, hone]
      have := chunks_append hn (l := []) (hpad m h1)
      rw [List.append_nil, chunks_nil] at this
      rw [this]
    · rw [padMessage_ge hn (by omega), chunks_append hn (by simp; omega)]
      by_cases h2 : m.length = n
      · rw [lazyBlocks_le (by omega), SRes.andThen_ok_nil, padEncFinish, if_pos (by simp only; omega),
          List.take_of_length_le (by omega), List.drop_of_length_le (by omega)]
        rw [padMessage_lt (by simpa using hn)]
        have h3 := chunks_append hn (l := []) (hpad [] (by simpa using hn))
        rw [List.append_nil, chunks_nil] at h3
        rw [h3, SRes.map_andThen]
        conv => rhs; rw [runBlocks]
        rw [SRes.map_andThen]
        congr 1
        funext p
        exact hone _ _ _
      · have ih' := ih (m.drop n).length (by simp; omega) (m.drop n) (f s (m.take n)).st rfl
        rw [lazyBlocks_gt hn (by omega), runBlocks, SRes.map_andThen, SRes.map_andThen]
        rw [SRes.map_andThen] at ih'
        unfold oneBlock
        cases hexn : (f s (m.take n)).exn with
        | some e => simp [SRes.andThen, hexn]
        | none =>
          simp only [hexn]
          rw [SRes.andThen_assoc]
          simp only [SRes.andThen] at ih' ⊢
          rw [ih']

theorem padDec_run {n : Nat} (hn : 0 < n) {f : σ → Bytes → BRes σ} {inv : σ → Prop}
    {strip : Bytes → Except Exn Nat}
    (hlen : ∀ {s b}, inv s → b.length = n → (f s b).out.length = n)
    (hinv : ∀ {s b}, inv s → b.length = n → inv (f s b).st)
    (m : Bytes) (s s' : σ) (out : Bytes) (hs : inv s) (hd : n ∣ m.length) (hne : m ≠ [])
    (hrun : runBlocks f s (chunks n m) = .ok out (s', [])) :
    out.length = m.length ∧
    match strip (out.drop (m.length - n)) with
    | .ok v => ∃ r, (lazyBlocks n f s m).andThen (padDecFinish n f strip)
        = .ok (out.take (m.length - n) ++ (out.drop (m.length - n)).take v) (s', r)
    | .error e => ∃ o : Bytes, o.length ≤ m.length ∧
        (lazyBlocks n f s m).andThen (padDecFinish n f strip) = .err o e := by
  induction h : m.length using Nat.strongRecOn generalizing m s out with
  | _ k ih =>
    subst h
    have hpos : 0 < m.length := List.length_pos_iff.2 hne
    have hle : n ≤ m.length := Nat.le_of_dvd hpos hd
    rw [chunks_cons hn hne] at hrun
    have hf : (f s (m.take n)).exn = none := by
      cases hexn : (f s (m.take n)).exn with
      | none => rfl
      | some e => simp [runBlocks, oneBlock, hexn, SRes.andThen] at hrun
    rw [runBlocks_cons_noexn hf] at hrun
    have htl : (m.take n).length = n := by simp; omega
    have hol := hlen hs htl
    by_cases h2 : m.length = n
    · have hdrop : m.drop n = [] := List.drop_of_length_le (by omega)
      have htake : m.take n = m := List.take_of_length_le (by omega)
      rw [hdrop, chunks_nil] at hrun
      rw [htake] at hrun hol hf
      simp only [runBlocks, SRes.andThen, List.append_nil, SRes.ok.injEq, Prod.mk.injEq,
        and_true] at hrun
      obtain ⟨rfl, rfl⟩ := hrun
      refine ⟨by omega, ?_⟩
      rw [lazyBlocks_le (by omega), SRes.andThen_ok_nil, padDecFinish,
        if_pos (by simp only; omega), h2]
      simp only [hf, Nat.sub_self, List.drop_zero, List.take_zero, List.nil_append]
      cases strip (f s m).out with
      | ok v => exact ⟨_, rfl⟩
      | error e => exact ⟨[], by simp, rfl⟩
    · have hd' : n ∣ (m.drop n).length := by
        rw [List.length_drop]; exact Nat.dvd_sub hd (Nat.dvd_refl n)
      have hne' : m.drop n ≠ [] := by
        intro h0
        have := congrArg List.length h0
        simp at this; omega
      simp only [SRes.andThen] at hrun
      cases hr : runBlocks f (f s (m.take n)).st (chunks n (m.drop n)) with
      | err o e => rw [hr] at hrun; cases hrun
      | ok out2 p =>
        rw [hr] at hrun
        simp only [SRes.ok.injEq] at hrun
        obtain ⟨rfl, rfl⟩ := hrun
        obtain ⟨hl2, ih'⟩ := ih (m.drop n).length (by simp; omega) (m.drop n) (f s (m.take n)).st out2
          (hinv hs htl) hd' hne' hr rfl
        have hml : (m.drop n).length = m.length - n := by simp
        rw [hml] at hl2
        refine ⟨by simp only [List.length_append]; omega, ?_⟩
        have hdr : ((f s (m.take n)).out ++ out2).drop (m.length - n)
            = out2.drop (m.length - n - n) := by
          have : m.length - n = (f s (m.take n)).out.length + (m.length - n - n) := by
            have := Nat.le_of_dvd (by rw [hml]; omega) hd'
            omega
          rw [show m.length - n - n = m.length - n - (f s (m.take n)).out.length by omega]
          rw [List.drop_append, List.drop_of_length_le (by omega), List.nil_append]
        have htk : ((f s (m.take n)).out ++ out2).take (m.length - n)
            = (f s (m.take n)).out ++ out2.take (m.length - n - n) := by
          have : m.length - n = (f s (m.take n)).out.length + (m.length - n - n) := by
            have := Nat.le_of_dvd (by rw [hml]; omega) hd'
            omega
          rw [this, List.take_length_add_append]
          congr 2
          omega
        rw [hdr, htk]
        rw [hml] at ih'
        rw [lazyBlocks_gt hn (by omega), hf]
        simp only
        rw [SRes.andThen_assoc]
        simp only [SRes.andThen] at ih' ⊢
        cases hstrip : strip (out2.drop (m.length - n - n)) with
        | ok v =>
          rw [hstrip] at ih'
          obtain ⟨r, hr'⟩ := ih'
          refine ⟨r, ?_⟩
          rw [hr', List.append_assoc]
        | error e =>
          rw [hstrip] at ih'
          obtain ⟨o, ho, hr'⟩ := ih'
          refine ⟨(f s (m.take n)).out ++ o, ?_, ?_⟩
          · simp only [List.length_append]; omega
          · rw [hr']

theorem padDec_bad {n : Nat} (hn : 0 < n) {f : σ → Bytes → BRes σ} {inv : σ → Prop}
    {strip : Bytes → Except Exn Nat}
    (hf : ∀ s b, (f s b).exn = none)
    (hlen : ∀ {s b}, inv s → b.length = n → (f s b).out.length = n)
    (hinv : ∀ {s b}, inv s → b.length = n → inv (f s b).st)
    (m : Bytes) (s : σ) (hs : inv s) (hbad : m = [] ∨ ¬ n ∣ m.length) :
    ∃ o : Bytes, o.length ≤ m.length ∧
      (lazyBlocks n f s m).andThen (padDecFinish n f strip)
        = .err o (.error .wrongDataLength) := by
  induction h : m.length using Nat.strongRecOn generalizing m s with
  | _ k ih =>
    subst h
    have hnl : m.length ≠ n := by
      rintro h1
      rcases hbad with h2 | h2
      · subst h2; simp at h1; omega
      · rw [h1] at h2; exact h2 (Nat.dvd_refl n)
    by_cases hle : m.length ≤ n
    · refine ⟨[], by simp, ?_⟩
      rw [lazyBlocks_le hle, SRes.andThen_ok_nil, padDecFinish, if_neg (by simpa using hnl)]
    · have htl : (m.take n).length = n := by simp; omega
      have hnd : ¬ n ∣ (m.drop n).length := by
        rcases hbad with h2 | h2
        · subst h2; simp at hle
        · intro h3
          apply h2
          have := Nat.dvd_add h3 (Nat.dvd_refl n)
          rwa [List.length_drop, Nat.sub_add_cancel (by omega)] at this
      obtain ⟨o, ho, ih'⟩ := ih (m.drop n).length (by simp; omega) (m.drop n) (f s (m.take n)).st
        (hinv hs htl) (.inr hnd) rfl
      have hol := hlen hs htl
      refine ⟨(f s (m.take n)).out ++ o, ?_, ?_⟩
      · simp only [List.length_append, List.length_drop] at ho ⊢; omega
      · rw [lazyBlocks_gt hn (by omega), hf]
        simp only
        rw [SRes.andThen_assoc]
        simp only [SRes.andThen] at ih' ⊢
        rw [ih']

end Verif
