import Verif.Proof.BlockTransform
import Verif.Proof.Chunks
import Verif.Spec.Modes
/-
`put*; finish` on a block transform runs the block function over the blocks of the input.
-/
namespace Verif

variable {σ : Type}

/-- Run the block function over a list of blocks. -/
def runBlocks (f : σ → Bytes → BRes σ) (s : σ) : List Bytes → SRes (σ × Bytes)
  | [] => .ok [] (s, [])
  | b :: bs => (oneBlock f s b).andThen (fun p => runBlocks f p.1 bs)

theorem lazy_flush_dvd {n : Nat} (hn : 0 < n) {f : σ → Bytes → BRes σ} (buf : Bytes) (s : σ)
    (hd : n ∣ buf.length) :
    (lazyBlocks n f s buf).andThen (blockFlush n f) = runBlocks f s (chunks n buf) := by
  induction h : buf.length using Nat.strongRecOn generalizing buf s with
  | _ m ih =>
    by_cases hl : buf.length ≤ n
    · rw [lazyBlocks_le hl, SRes.andThen_ok_nil]
      unfold blockFlush
      by_cases h0 : buf.length = 0
      · have : buf = [] := List.length_eq_zero_iff.1 h0
        subst this
        simp [chunks_nil, runBlocks]
      · have : n ≤ buf.length := Nat.le_of_dvd (by omega) hd
        have hne : buf ≠ [] := by intro h; subst h; simp at h0
        rw [if_neg h0, if_pos (by simp only; omega), chunks_cons hn hne,
          List.take_of_length_le (by omega), List.drop_of_length_le (by omega), chunks_nil]
        simp only [runBlocks]
        unfold oneBlock
        cases hexn : (f s buf).exn <;> simp [SRes.andThen, hexn]
    · have hne : buf ≠ [] := by intro h; subst h; simp at hl
      rw [lazyBlocks_gt hn (by omega), chunks_cons hn hne]
      simp only [runBlocks]
      have ih' := ih (buf.drop n).length (by simp; omega) (buf.drop n) (f s (buf.take n)).st
        (by rw [List.length_drop]; exact Nat.dvd_sub hd (Nat.dvd_refl n)) rfl
      unfold oneBlock
      cases hexn : (f s (buf.take n)).exn with
      | some e => simp [SRes.andThen, hexn]
      | none =>
        simp only [hexn]
        rw [SRes.andThen_assoc]
        simp only [SRes.andThen] at ih' ⊢
        rw [ih']

theorem lazy_flush_ndvd {n : Nat} (hn : 0 < n) {f : σ → Bytes → BRes σ}
    {inv : σ → Prop} (hf : ∀ s b, (f s b).exn = none)
    (hlen : ∀ {s b}, inv s → b.length = n → (f s b).out.length = n)
    (hinv : ∀ {s b}, inv s → b.length = n → inv (f s b).st)
    (buf : Bytes) (s : σ) (hs : inv s) (hd : ¬ n ∣ buf.length) :
    ∃ o : Bytes, o.length ≤ buf.length ∧
      (lazyBlocks n f s buf).andThen (blockFlush n f) = .err o (.error .wrongDataLength) := by
  induction h : buf.length using Nat.strongRecOn generalizing buf s with
  | _ m ih =>
    by_cases hl : buf.length ≤ n
    · refine ⟨[], by simp, ?_⟩
      rw [lazyBlocks_le hl, SRes.andThen_ok_nil]
      unfold blockFlush
      rw [if_neg (by intro h0; simp only at h0; rw [h0] at hd; exact hd (Nat.dvd_zero n)),
        if_neg (by intro h0; simp only at h0; rw [h0] at hd; exact hd (Nat.dvd_refl n))]
    · have hlt : n < buf.length := by omega
      obtain ⟨o, ho, ih'⟩ := ih (buf.drop n).length (by simp; omega) (buf.drop n)
        (f s (buf.take n)).st (hinv hs (by simp; omega))
        (by
          rw [List.length_drop]
          intro h'
          apply hd
          have := Nat.dvd_add h' (Nat.dvd_refl n)
          rwa [Nat.sub_add_cancel (by omega)] at this) rfl
      refine ⟨(f s (buf.take n)).out ++ o, ?_, ?_⟩
      · have := hlen (b := buf.take n) hs (by simp; omega)
        simp only [List.length_append, List.length_drop] at ho ⊢
        omega
      · rw [lazyBlocks_gt hn hlt, hf]
        simp only
        rw [SRes.andThen_assoc]
        simp only [SRes.andThen] at ih' ⊢
        rw [ih']

variable {env : Env} {c : BlockCipher σ} {inv : σ → Prop} {f : σ → Bytes → BRes σ}

/-- Total behaviour of the block transform, for input of any length. -/
theorem BlockRuns.total (h : BlockRuns c inv f) {s : σ} (hs : inv s)
    (hm : max 256 (2 * c.blocksize) ≤ env.maxLen) (ops : List TOp) (hops : ∀ op ∈ ops, op.Legal) :
    match (lazyBlocks c.blocksize f s (inputOf ops)).andThen (blockFlush c.blocksize f) with
    | .ok out s' => out.length ≤ env.maxLen →
        ∃ t', (blockTransform env c).total ops (cipherInit env c s) = .ok out t'
          ∧ BlockRep env c inv t' s' []
    | .err out e => out.length ≤ env.maxLen →
        ∃ t', (blockTransform env c).total ops (cipherInit env c s) = .exn e t' := by
  have := (h.refines env).total (blockSpec_lawful h.pos f) ops
    (blockRep_init env (s := s) hs hm) hops
  have heq : ((blockSpec c.blocksize f).put (s, []) (inputOf ops)).andThen
      (blockSpec c.blocksize f).finish
      = (lazyBlocks c.blocksize f s (inputOf ops)).andThen (blockFlush c.blocksize f) := by
    simp only [blockSpec]
    by_cases h0 : inputOf ops = []
    · rw [h0, lazyBlocks_le (by simp : ([] : Bytes).length ≤ _)]; simp
    · simp [h0]
  rw [heq] at this
  generalize (lazyBlocks c.blocksize f s (inputOf ops)).andThen (blockFlush c.blocksize f) = r
    at this ⊢
  cases r <;> exact this

/-- Total behaviour of the block transform, for input of any length. -/
theorem blockTransform_total (h : Implements c inv f) {s : σ} (hs : inv s)
    (hm : max 256 (2 * c.blocksize) ≤ env.maxLen) (ops : List TOp) (hops : ∀ op ∈ ops, op.Legal) :
    match (lazyBlocks c.blocksize f s (inputOf ops)).andThen (blockFlush c.blocksize f) with
    | .ok out s' => out.length ≤ env.maxLen →
        ∃ t', (blockTransform env c).total ops (cipherInit env c s) = .ok out t'
          ∧ BlockRep env c inv t' s' []
    | .err out e => out.length ≤ env.maxLen →
        ∃ t', (blockTransform env c).total ops (cipherInit env c s) = .exn e t' :=
  h.runs.total hs hm ops hops

/-- For a mode without exceptions, the output is the run over the blocks. -/
theorem blockTransform_total_dvd (h : Implements c inv f) {s s' : σ} (hs : inv s)
    (hm : max 256 (2 * c.blocksize) ≤ env.maxLen) (ops : List TOp) (hops : ∀ op ∈ ops, op.Legal)
    (hd : c.blocksize ∣ (inputOf ops).length) {out : Bytes}
    (hrun : runBlocks f s (chunks c.blocksize (inputOf ops)) = .ok out (s', []))
    (hfit : out.length ≤ env.maxLen) :
    ∃ t', (blockTransform env c).total ops (cipherInit env c s) = .ok out t' ∧ t'.c = s' := by
  have := blockTransform_total h hs hm ops hops
  rw [lazy_flush_dvd h.pos _ _ hd, hrun] at this
  obtain ⟨t', h1, h2⟩ := this hfit
  exact ⟨t', h1, h2.st⟩

/-- A stateless-or-stateful block map without exceptions. -/
theorem runBlocks_noexn {f : σ → Bytes → BRes σ} (hf : ∀ s b, (f s b).exn = none) (s : σ)
    (b : Bytes) (bs : List Bytes) :
    runBlocks f s (b :: bs)
      = (SRes.ok (f s b).out (f s b).st).andThen (fun s' => runBlocks f s' bs) := by
  simp only [runBlocks, oneBlock, hf, SRes.andThen]

theorem runBlocks_cons_noexn {f : σ → Bytes → BRes σ} {s : σ} {b : Bytes} (hf : (f s b).exn = none)
    {bs : List Bytes} : runBlocks f s (b :: bs)
      = (SRes.ok (f s b).out (f s b).st).andThen (fun s' => runBlocks f s' bs) := by
  simp only [runBlocks, oneBlock, hf, SRes.andThen]

theorem runBlocks_blockwise {f : σ → Bytes → BRes σ} (hf : Total f) (bs : List Bytes) (s : σ) :
    ∃ s', runBlocks f s bs = .ok (blockwise f s bs).flatten (s', []) := by
  induction bs generalizing s with
  | nil => exact ⟨s, rfl⟩
  | cons b bs ih =>
    obtain ⟨s', h⟩ := ih (f s b).st
    refine ⟨s', ?_⟩
    rw [runBlocks_noexn hf]
    simp only [SRes.andThen, h, blockwise, List.flatten_cons]

theorem blockwise_length {n : Nat} {f : σ → Bytes → BRes σ} {inv : σ → Prop}
    (hlen : ∀ {s b}, inv s → b.length = n → (f s b).out.length = n)
    (hinv : ∀ {s b}, inv s → b.length = n → inv (f s b).st) (bs : List Bytes) (s : σ) (hs : inv s)
    (hb : ∀ b ∈ bs, b.length = n) : (blockwise f s bs).flatten.length = bs.flatten.length := by
  induction bs generalizing s with
  | nil => rfl
  | cons b bs ih =>
    have h1 := hb b (by simp)
    simp only [blockwise, List.flatten_cons, List.length_append]
    rw [ih (f s b).st (hinv hs h1) (fun b' hm => hb b' (by simp [hm])), hlen hs h1, h1]

/-- `fin` does not distinguish a pending complete block from a flushed one. -/
def FlushStable (n : Nat) (f : σ → Bytes → BRes σ) (fin : σ × Bytes → SRes σ') : Prop :=
  ∀ p : σ × Bytes, p.2.length = 0 ∨ p.2.length = n → (blockFlush n f p).andThen fin = fin p

/-- Flushing at a block boundary. -/
theorem flush_neutral {n : Nat} (hn : 0 < n) {f : σ → Bytes → BRes σ} {fin : σ × Bytes → SRes σ'}
    (p : σ × Bytes) (d : Bytes) (hp : p.2.length = 0 ∨ p.2.length = n)
    (hfin : d ≠ [] ∨ FlushStable n f fin) :
    (blockFlush n f p).andThen (fun p' => (lazyBlocks n f p'.1 (p'.2 ++ d)).andThen fin)
      = (lazyBlocks n f p.1 (p.2 ++ d)).andThen fin := by
  by_cases h0 : p.2.length = 0
  · rw [blockFlush, if_pos h0, SRes.andThen_ok_nil]
  · have hpn : p.2.length = n := by omega
    have hfl : blockFlush n f p = oneBlock f p.1 p.2 := by rw [blockFlush, if_neg h0, if_pos hpn]
    rw [hfl]
    by_cases hd : d = []
    · subst hd
      have hst := (hfin.resolve_left (by simp)) p hp
      rw [List.append_nil, lazyBlocks_le (by omega), SRes.andThen_ok_nil, ← hst, hfl]
      unfold oneBlock
      cases hexn : (f p.1 p.2).exn with
      | some e => simp only [hexn]; rfl
      | none =>
        simp only [hexn, List.append_nil]
        have : (lazyBlocks n f (f p.1 p.2).st []).andThen fin = fin ((f p.1 p.2).st, []) := by
          rw [lazyBlocks_le (by simp), SRes.andThen_ok_nil]
        simp only [SRes.andThen] at this ⊢
        rw [this]
    · have : 0 < d.length := List.length_pos_iff.2 hd
      rw [lazyBlocks_gt hn (by simp only [List.length_append]; omega),
        List.take_append_of_le_length (by omega), List.take_of_length_le (by omega),
        List.drop_append_of_le_length (by omega), List.drop_of_length_le (by omega), List.nil_append]
      unfold oneBlock
      cases hexn : (f p.1 p.2).exn with
      | some e => simp only [hexn]; rfl
      | none =>
        simp only [hexn]
        rw [SRes.andThen_assoc]
        simp only [SRes.andThen, List.nil_append]

theorem blockFlush_stable {n : Nat} {f : σ → Bytes → BRes σ} :
    FlushStable n f (blockFlush n f) := by
  intro p hp
  by_cases h0 : p.2.length = 0
  · have : blockFlush n f p = .ok [] p := by rw [blockFlush, if_pos h0]
    rw [this, SRes.andThen_ok_nil, this]
  · have hpn : p.2.length = n := by omega
    have hfl : blockFlush n f p = oneBlock f p.1 p.2 := by rw [blockFlush, if_neg h0, if_pos hpn]
    rw [hfl]
    unfold oneBlock
    cases hexn : (f p.1 p.2).exn with
    | some e => simp only [hexn]; rfl
    | none => simp [hexn, SRes.andThen, blockFlush]

/-- The pending length after `lazyBlocks` and `blockFlush`. -/
theorem lazyBlocks_pending {n : Nat} (hn : 0 < n) {f : σ → Bytes → BRes σ} (buf : Bytes) (s : σ)
    {o : Bytes} {p : σ × Bytes} (h : lazyBlocks n f s buf = .ok o p) :
    p.2.length ≤ n ∧ p.2.length % n = buf.length % n := by
  induction hb : buf.length using Nat.strongRecOn generalizing buf s o with
  | _ m ih =>
    by_cases hl : buf.length ≤ n
    · rw [lazyBlocks_le hl] at h
      cases h
      exact ⟨hl, by rw [hb]⟩
    · rw [lazyBlocks_gt hn (by omega)] at h
      cases hexn : (f s (buf.take n)).exn with
      | some e => rw [hexn] at h; cases h
      | none =>
        rw [hexn] at h
        simp only [SRes.andThen] at h
        cases hr : lazyBlocks n f (f s (buf.take n)).st (buf.drop n) with
        | err o2 e => rw [hr] at h; cases h
        | ok o2 p2 =>
          rw [hr] at h
          simp only [SRes.ok.injEq] at h
          obtain ⟨_, rfl⟩ := h
          have := ih (buf.drop n).length (by simp; omega) (buf.drop n) _ hr rfl
          refine ⟨this.1, ?_⟩
          rw [this.2, List.length_drop, ← hb]
          conv => rhs; rw [show buf.length = buf.length - n + n by omega, Nat.add_mod_right]

theorem blockSpec_runF {n : Nat} (hn : 0 < n) {f : σ → Bytes → BRes σ} {fin : σ × Bytes → SRes σ'}
    (ops : List FOp)
    (p : σ × Bytes) (k : Nat) (hp : p.2.length ≤ n ∧ p.2.length % n = k % n)
    (ha : FlushesAligned n k ops) (hfin : DataAfterFlush ops ∨ FlushStable n f fin)
    (S : XSpec (σ × Bytes)) (hSp : S.put = (blockSpec n f).put) (hSf : S.flush = blockFlush n f) :
    (S.runF p ops).andThen fin
      = (lazyBlocks n f p.1 (p.2 ++ finputOf ops)).andThen fin := by
  induction ops generalizing p k with
  | nil =>
    simp only [XSpec.runF, finputOf, List.map_nil, List.flatten_nil, List.append_nil]
    rw [lazyBlocks_le hp.1]
  | cons op ops ih =>
    cases op with
    | call o =>
      have hin : finputOf (FOp.call o :: ops) = o.input ++ finputOf ops := by
        simp [finputOf, FOp.input]
      rw [XSpec.runF, hin, SRes.andThen_assoc]
      have hput : S.put p o.input = lazyBlocks n f p.1 (p.2 ++ o.input) := by
        simp only [hSp, blockSpec]
        split
        · rename_i h0; rw [h0, List.append_nil, lazyBlocks_le hp.1]
        · rfl
      rw [hput, ← List.append_assoc, lazyBlocks_append hn (p.2 ++ o.input), SRes.andThen_assoc]
      cases hl : lazyBlocks n f p.1 (p.2 ++ o.input) with
      | err o' e => rfl
      | ok o' p' =>
        have hp' := lazyBlocks_pending hn _ _ hl
        have := ih p' (k + o.input.length) ⟨hp'.1, by
          rw [hp'.2, List.length_append, Nat.add_mod, hp.2, ← Nat.add_mod]⟩ ha (hfin.imp_left (fun h => h))
        simp only [SRes.andThen] at this ⊢
        rw [this]
    | flush =>
      have hin : finputOf (FOp.flush :: ops) = finputOf ops := by
        simp [finputOf, FOp.input]
      obtain ⟨hdk, ha⟩ := ha
      rw [XSpec.runF, hin, SRes.andThen_assoc]
      have hmod : p.2.length % n = 0 := by rw [hp.2]; exact Nat.mod_eq_zero_of_dvd hdk
      have h0n : p.2.length = 0 ∨ p.2.length = n := by
        by_cases h : p.2.length = n
        · exact .inr h
        · rw [Nat.mod_eq_of_lt (by omega)] at hmod
          exact .inl hmod
      rw [← flush_neutral hn p (finputOf ops) h0n (hfin.imp_left (fun h => h.1)), hSf]
      cases hl : blockFlush n f p with
      | err o' e => rfl
      | ok o' p' =>
        have hp' : p'.2 = [] := by
          unfold blockFlush at hl
          split at hl
          · cases hl; rename_i h; exact List.length_eq_zero_iff.1 h
          · split at hl
            · unfold oneBlock at hl
              cases hexn : (f p.1 p.2).exn with
              | some e => simp only [hexn] at hl; cases hl
              | none => simp only [hexn] at hl; cases hl; rfl
            · cases hl
        have := ih p' k ⟨by rw [hp']; simp, by rw [hp']; simp [Nat.mod_eq_zero_of_dvd hdk]⟩ ha
          (hfin.imp_left (fun h => h.2))
        simp only [SRes.andThen] at this ⊢
        rw [this]

/-- The output of a complete run is no longer than the input. -/
theorem BlockRuns.out_le (h : BlockRuns c inv f) {s : σ} (hs : inv s) (buf : Bytes) :
    match (lazyBlocks c.blocksize f s buf).andThen (blockFlush c.blocksize f) with
    | .ok out _ => out.length ≤ buf.length
    | .err out _ => out.length ≤ buf.length := by
  have hn := h.pos
  induction hb : buf.length using Nat.strongRecOn generalizing buf s with
  | _ m ih =>
    subst hb
    by_cases hl : buf.length ≤ c.blocksize
    · rw [lazyBlocks_le hl, SRes.andThen_ok_nil, blockFlush]
      by_cases h0 : buf.length = 0
      · rw [if_pos h0]; simp
      · rw [if_neg h0]
        by_cases h1 : buf.length = c.blocksize
        · rw [if_pos h1]
          have := h.out_len hs h1
          unfold oneBlock
          simp only
          cases (f s buf).exn <;> simp <;> omega
        · rw [if_neg h1]; simp
    · rw [lazyBlocks_gt hn (by omega)]
      have htl : (buf.take c.blocksize).length = c.blocksize := by simp; omega
      have hol := h.out_len hs htl
      cases hexn : (f s (buf.take c.blocksize)).exn with
      | some e => simp only [SRes.andThen]; omega
      | none =>
        simp only
        rw [SRes.andThen_assoc]
        have ih' := ih (buf.drop c.blocksize).length (by simp; omega) (h.inv_step hs htl)
          (buf.drop c.blocksize) rfl
        simp only [List.length_drop] at ih'
        simp only [SRes.andThen] at ih' ⊢
        cases hr : lazyBlocks c.blocksize f (f s (buf.take c.blocksize)).st (buf.drop c.blocksize) with
        | err o e => rw [hr] at ih'; simp only [List.length_append] at ih' ⊢; omega
        | ok o p =>
          rw [hr] at ih'
          simp only at ih' ⊢
          cases hfl : blockFlush c.blocksize f p with
          | err o e => rw [hfl] at ih'; simp only [List.length_append] at ih' ⊢; omega
          | ok o p => rw [hfl] at ih'; simp only [List.length_append] at ih' ⊢; omega

/-- The output of a complete run is no longer than the input. -/
theorem lazyFlush_out_le (h : Implements c inv f) {s : σ} (hs : inv s) (buf : Bytes) :
    match (lazyBlocks c.blocksize f s buf).andThen (blockFlush c.blocksize f) with
    | .ok out _ => out.length ≤ buf.length
    | .err out _ => out.length ≤ buf.length :=
  h.runs.out_le hs buf

end Verif
