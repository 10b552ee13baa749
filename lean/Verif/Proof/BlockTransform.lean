import Verif.Proof.Transform
import Verif.Proof.Block
import Verif.Proof.OBuf
/-
`Block.cipher` refines a data-level machine that keeps the last, possibly complete,
block pending.
-/
namespace Verif

/-- Run the block function on all complete blocks of `buf` that are followed by at
least one byte; the rest (at most one block) stays pending. -/
def lazyBlocks (n : Nat) (f : σ → Bytes → BRes σ) (s : σ) (buf : Bytes) : SRes (σ × Bytes) :=
  if _h : n < buf.length ∧ 0 < n then
    let r := f s (buf.take n)
    match r.exn with
    | some e => .err r.out e
    | none => (SRes.ok r.out r.st).andThen (fun s' => lazyBlocks n f s' (buf.drop n))
  else .ok [] (s, buf)
termination_by buf.length
decreasing_by simp; omega

/-- One block. -/
def oneBlock (f : σ → Bytes → BRes σ) (s : σ) (b : Bytes) : SRes (σ × Bytes) :=
  let r := f s b
  match r.exn with
  | some e => .err r.out e
  | none => .ok r.out (r.st, [])

def blockFlush (n : Nat) (f : σ → Bytes → BRes σ) (s : σ × Bytes) : SRes (σ × Bytes) :=
  if s.2.length = 0 then .ok [] s
  else if s.2.length = n then oneBlock f s.1 s.2
  else .err [] (.error .wrongDataLength)

def blockSpec (n : Nat) (f : σ → Bytes → BRes σ) : XSpec (σ × Bytes) where
  put s d := if d = [] then .ok [] s else lazyBlocks n f s.1 (s.2 ++ d)
  flush := blockFlush n f
  finish := blockFlush n f

theorem lazyBlocks_le {n : Nat} {f : σ → Bytes → BRes σ} {s : σ} {buf : Bytes}
    (h : buf.length ≤ n) : lazyBlocks n f s buf = .ok [] (s, buf) := by
  rw [lazyBlocks, dif_neg (by omega)]

theorem lazyBlocks_gt {n : Nat} {f : σ → Bytes → BRes σ} {s : σ} {buf : Bytes}
    (hn : 0 < n) (h : n < buf.length) :
    lazyBlocks n f s buf =
      match (f s (buf.take n)).exn with
      | some e => .err (f s (buf.take n)).out e
      | none => (SRes.ok (f s (buf.take n)).out (f s (buf.take n)).st).andThen
          (fun s' => lazyBlocks n f s' (buf.drop n)) := by
  conv => lhs; rw [lazyBlocks, dif_pos ⟨h, hn⟩]

theorem lazyBlocks_append {n : Nat} (hn : 0 < n) {f : σ → Bytes → BRes σ} (a b : Bytes) (s : σ) :
    lazyBlocks n f s (a ++ b) = (lazyBlocks n f s a).andThen
      (fun p => lazyBlocks n f p.1 (p.2 ++ b)) := by
  induction h : a.length using Nat.strongRecOn generalizing a s with
  | _ m ih =>
    by_cases hlen : a.length ≤ n
    · rw [lazyBlocks_le hlen]
      simp
    · rw [lazyBlocks_gt hn (buf := a) (by omega), lazyBlocks_gt hn (buf := a ++ b) (by simp; omega),
        List.take_append_of_le_length (by omega), List.drop_append_of_le_length (by omega)]
      cases hexn : (f s (a.take n)).exn with
      | some e => rfl
      | none =>
        simp only
        rw [SRes.andThen_assoc]
        have := ih (a.drop n).length (by simp; omega) (a.drop n) (f s (a.take n)).st rfl
        simp only [SRes.andThen, this]

theorem blockSpec_lawful {n : Nat} (hn : 0 < n) (f : σ → Bytes → BRes σ) :
    (blockSpec n f).Lawful where
  put_nil s := by simp [blockSpec]
  put_append s a b := by
    apply SRes.Le.of_eq
    simp only [blockSpec]
    by_cases ha : a = []
    · subst ha; simp
    · by_cases hb : b = []
      · subst hb; simp
      · simp only [List.append_eq_nil_iff, ha, hb, and_self, if_false]
        rw [← List.append_assoc, lazyBlocks_append hn]

/-- The object state holds data-level state and pending output. -/
structure BlockRep (env : Env) (c : BlockCipher σ) (inv : σ → Prop) (t : CipherSt σ)
    (s : σ × Bytes) (q : Bytes) : Prop where
  inv : inv t.c
  st : t.c = s.1
  ilen : t.ibuf.length = c.blocksize
  used : t.used = s.2.length
  le : s.2.length ≤ c.blocksize
  pend : t.ibuf.take t.used = s.2
  ob : OBuf.Rep env t.ob q

variable {σ : Type} {env : Env} {c : BlockCipher σ} {inv : σ → Prop} {f : σ → Bytes → BRes σ}

/-- `Implements` without anything on what an exception leaves behind. -/
structure BlockRuns (c : BlockCipher σ) (inv : σ → Prop) (f : σ → Bytes → BRes σ) : Prop where
  pos : 0 < c.blocksize
  out_len : ∀ {s blk}, inv s → blk.length = c.blocksize → (f s blk).out.length = c.blocksize
  inv_step : ∀ {s blk}, inv s → blk.length = c.blocksize → inv (f s blk).st
  run : ∀ {s} {src : Src} {so dofs : Nat} {dst : Bytes}, inv s →
    so + c.blocksize ≤ (src.read dst).length → dofs + c.blocksize ≤ dst.length →
    match (f s (slice (src.read dst) so c.blocksize)).exn with
    | none => c.transform src so dofs (s, dst) = .ok () ((f s (slice (src.read dst) so c.blocksize)).st,
        splice dst dofs (f s (slice (src.read dst) so c.blocksize)).out)
    | some e => ∃ p, c.transform src so dofs (s, dst) = .exn e p

theorem Implements.runs (h : Implements c inv f) : BlockRuns c inv f where
  pos := h.pos
  out_len := h.out_len
  inv_step := h.inv_step
  run := by
    intro s src so dofs dst hi hs hd
    have hrun := h.run hi hs hd
    unfold BRes.toOut at hrun
    cases hexn : (f s (slice (src.read dst) so c.blocksize)).exn <;> rw [hexn] at hrun
    · exact hrun
    · exact ⟨_, hrun⟩

theorem pushBlock_ok (h : BlockRuns c inv f) {t : CipherSt σ} {q : Bytes} (hinv : inv t.c)
    (hib : t.ibuf.length = c.blocksize) (hob : OBuf.Rep env t.ob q)
    (hfit : q.length + c.blocksize ≤ env.maxLen) :
    match (f t.c t.ibuf).exn with
    | none => ∃ ob', CipherSt.pushBlock env c t
        = .ok () { t with c := (f t.c t.ibuf).st, ob := ob' }
        ∧ OBuf.Rep env ob' (q ++ (f t.c t.ibuf).out)
    | some e => ∃ t', CipherSt.pushBlock env c t = .exn e t' := by
  obtain ⟨o', h1, h2, h3⟩ := OBuf.ensureCapacity_ok hob c.blocksize hfit
  have hrun := h.run (s := t.c) (src := .other t.ibuf) (so := 0) (dofs := o'.oend)
    (dst := o'.obuf) hinv (by simp only [Src.read_other]; omega) h3
  simp only [Src.read_other, slice_full' hib, Int.natCast_zero] at hrun
  have hol := h.out_len hinv hib
  cases hexn : (f t.c t.ibuf).exn with
  | none =>
    simp only [hexn] at hrun
    simp only
    refine ⟨_, ?_, h2.write (by omega)⟩
    simp only [CipherSt.pushBlock, M.bind_def, CipherSt.onBuf, M.zoom, h1, CipherSt.callOut,
      hrun, M.modify_def, hol]
  | some e =>
    simp only [hexn] at hrun
    obtain ⟨p, hrun⟩ := hrun
    simp only
    exact ⟨_, by simp only [CipherSt.pushBlock, M.bind_def, CipherSt.onBuf, M.zoom, h1,
      CipherSt.callOut, hrun]; rfl⟩

theorem blit_ibuf {src ibuf pend : Bytes} {ofs used m n : Nat} (hi : ibuf.length = n)
    (hp : ibuf.take used = pend) (hu : used = pend.length) (hm : used + m ≤ n)
    (ho : ofs + m ≤ src.length) :
    ∃ ib, bytesBlit src ofs ibuf used m = some ib ∧ ib.length = n
      ∧ ib.take (used + m) = pend ++ slice src ofs m := by
  have hsl : (slice src ofs m).length = m := slice_length_of_le ho
  refine ⟨_, bytesBlit_ok ho (by omega), ?_, ?_⟩
  · rw [splice_length (by omega), hi]
  · have := take_splice (b := ibuf) (o := used) (x := slice src ofs m) (by omega)
    rw [hsl] at this
    rw [this, hp]

theorem put_full_ok {src : Bytes} {ofs len : Int} {t t' : CipherSt σ} {ib : Bytes}
    (hlen : ¬ len ≤ 0) (hfull : ¬ (t.used : Int) + len ≤ c.blocksize) (hpos : 0 < c.blocksize)
    (hb : bytesBlit src ofs t.ibuf t.used ((c.blocksize : Int) - t.used) = some ib)
    (hp : CipherSt.pushBlock env c { t with ibuf := ib } = .ok () t') :
    cipherPutSubstring env c src ofs len t
      = cipherPutSubstring env c src (ofs + ((c.blocksize : Int) - t.used))
          (len - ((c.blocksize : Int) - t.used)) { t' with used := 0 } := by
  conv => lhs; rw [cipherPutSubstring]
  rw [if_neg hlen, if_neg hfull]
  simp only
  split
  · rename_i h0; rw [hb] at h0; cases h0
  · rename_i ib' h0
    rw [hb] at h0
    cases h0
    rw [hp]
    simp only
    rw [dif_neg (by omega)]

theorem put_full_exn {src : Bytes} {ofs len : Int} {t t' : CipherSt σ} {ib : Bytes} {e : Exn}
    (hlen : ¬ len ≤ 0) (hfull : ¬ (t.used : Int) + len ≤ c.blocksize)
    (hb : bytesBlit src ofs t.ibuf t.used ((c.blocksize : Int) - t.used) = some ib)
    (hp : CipherSt.pushBlock env c { t with ibuf := ib } = .exn e t') :
    cipherPutSubstring env c src ofs len t = .exn e t' := by
  rw [cipherPutSubstring]
  rw [if_neg hlen, if_neg hfull]
  simp only
  split
  · rename_i h0; rw [hb] at h0; cases h0
  · rename_i ib' h0
    rw [hb] at h0
    cases h0
    rw [hp]

theorem cipherPutSubstring_refines (h : BlockRuns c inv f) (src : Bytes) :
    ∀ (m : Nat) (ofs len : Nat) (t : CipherSt σ) (s : σ × Bytes) (q : Bytes),
    len * 2 + (if t.used = 0 then 0 else 1) = m →
    BlockRep env c inv t s q → ofs + len ≤ src.length →
    StepRefines (BlockRep env c inv) env.maxLen q (cipherPutSubstring env c src ofs len t)
      ((blockSpec c.blocksize f).put s (slice src ofs len)) := by
  intro m
  induction m using Nat.strongRecOn with
  | _ m ih =>
    intro ofs len t s q hm hR ho
    have hpos := h.pos
    by_cases hlen : len = 0
    · subst hlen
      rw [cipherPutSubstring]
      simp only [Int.natCast_zero, Int.le_refl, if_true, slice_nil_len, blockSpec]
      intro _
      exact ⟨t, rfl, by simpa using hR⟩
    · have hlen' : ¬ (len : Int) ≤ 0 := by omega
      have hsl : (slice src ofs len).length = len := slice_length_of_le ho
      have hne : slice src ofs len ≠ [] := by
        intro h0; rw [h0] at hsl; simp at hsl; omega
      simp only [blockSpec, hne, if_false]
      have hused := hR.used
      have hle := hR.le
      by_cases hfit : (t.used : Int) + len ≤ c.blocksize
      · rw [cipherPutSubstring, if_neg hlen', if_pos hfit]
        obtain ⟨ib, hb1, hb2, hb3⟩ := blit_ibuf (m := len) hR.ilen hR.pend hused (by omega) ho
        rw [hb1, lazyBlocks_le (by simp only [List.length_append]; omega)]
        intro _
        refine ⟨_, rfl, ?_⟩
        exact { inv := hR.inv, st := hR.st, ilen := hb2,
                used := by simp only [Int.toNat_natCast, List.length_append]; omega,
                le := by simp only [List.length_append]; omega,
                pend := by simpa using hb3,
                ob := by simpa using hR.ob }
      · have hn : ((c.blocksize : Int) - t.used) = ((c.blocksize - t.used : Nat) : Int) := by omega
        obtain ⟨ib, hb1, hb2, hb3⟩ := blit_ibuf (src := src) (ofs := ofs) (m := c.blocksize - t.used)
          hR.ilen hR.pend hused (by omega) (by omega)
        rw [show t.used + (c.blocksize - t.used) = c.blocksize by omega,
          List.take_of_length_le (by omega)] at hb3
        rw [← hn] at hb1
        have hsplit : slice src ofs len = slice src ofs (c.blocksize - t.used)
            ++ slice src (ofs + (c.blocksize - t.used)) (len - (c.blocksize - t.used)) := by
          rw [← slice_append_right]; congr 1; omega
        have hgt : c.blocksize < (s.2 ++ slice src ofs len).length := by
          simp only [List.length_append]; omega
        have htk : (s.2 ++ slice src ofs len).take c.blocksize = ib := by
          rw [hsplit, ← List.append_assoc, ← hb3, List.take_append_of_le_length (by omega),
            List.take_of_length_le (by omega)]
        have hdr : (s.2 ++ slice src ofs len).drop c.blocksize
            = slice src (ofs + (c.blocksize - t.used)) (len - (c.blocksize - t.used)) := by
          rw [hsplit, ← List.append_assoc, ← hb3, List.drop_append_of_le_length (by omega),
            List.drop_of_length_le (by omega)]; simp
        rw [lazyBlocks_gt hpos hgt, htk, hdr, ← hR.st]
        have hol := h.out_len hR.inv hb2
        have hpush := fun hfit => pushBlock_ok (env := env) (q := q) h (t := { t with ibuf := ib })
          hR.inv hb2 hR.ob hfit
        simp only at hpush
        cases hexn : (f t.c ib).exn with
        | some e =>
          intro hfit'
          rw [hexn] at hpush
          obtain ⟨t', ht'⟩ := hpush (by omega)
          exact ⟨t', put_full_exn hlen' hfit hb1 ht'⟩
        | none =>
          rw [hexn] at hpush
          simp only at hpush ⊢
          -- the recursive call
          have ih' := fun ob' (hob' : OBuf.Rep env ob' (q ++ (f t.c ib).out)) =>
            ih ((len - (c.blocksize - t.used)) * 2 + 0) (by split at hm <;> omega)
              (ofs + (c.blocksize - t.used)) (len - (c.blocksize - t.used))
              { c := (f t.c ib).st, ibuf := ib, used := 0, ob := ob' } ((f t.c ib).st, [])
              (q ++ (f t.c ib).out) (by simp)
              { inv := h.inv_step hR.inv hb2, st := rfl, ilen := hb2, used := rfl,
                le := by simp, pend := by simp, ob := hob' } (by omega)
          have hne2 : slice src (ofs + (c.blocksize - t.used)) (len - (c.blocksize - t.used)) ≠ [] := by
            intro h0
            have := congrArg List.length h0
            rw [slice_length_of_le (by omega)] at this
            simp at this; omega
          simp only [blockSpec, hne2, if_false, List.nil_append] at ih'
          have hcode : ∀ ob', CipherSt.pushBlock env c { t with ibuf := ib }
                = .ok () { c := (f t.c ib).st, ibuf := ib, used := t.used, ob := ob' } →
              cipherPutSubstring env c src ofs len t
              = cipherPutSubstring env c src ((ofs + (c.blocksize - t.used) : Nat) : Int)
                  ((len - (c.blocksize - t.used) : Nat) : Int)
                  { c := (f t.c ib).st, ibuf := ib, used := 0, ob := ob' } := by
            intro ob' hp
            rw [put_full_ok hlen' hfit hpos hb1 hp]
            congr 1 <;> omega
          cases hrest : lazyBlocks c.blocksize f (f t.c ib).st
              (slice src (ofs + (c.blocksize - t.used)) (len - (c.blocksize - t.used))) with
          | err o e =>
            simp only [SRes.andThen, hrest]
            intro hfit'
            simp only [List.length_append] at hfit'
            obtain ⟨ob', hp, hob'⟩ := hpush (by omega)
            have := ih' ob' hob'
            rw [hrest] at this
            obtain ⟨t', ht'⟩ := this (by simp only [List.length_append]; omega)
            exact ⟨t', by rw [hcode ob' hp, ht']⟩
          | ok o s2 =>
            simp only [SRes.andThen, hrest]
            intro hfit'
            simp only [List.length_append] at hfit'
            obtain ⟨ob', hp, hob'⟩ := hpush (by omega)
            have := ih' ob' hob'
            rw [hrest] at this
            obtain ⟨t', ht', hR'⟩ := this (by simp only [List.length_append]; omega)
            exact ⟨t', by rw [hcode ob' hp, ht'], by rwa [List.append_assoc] at hR'⟩

theorem cipherPutChar_refines (h : BlockRuns c inv f) {t : CipherSt σ} {s : σ × Bytes} {q : Bytes}
    (hR : BlockRep env c inv t s q) (ch : Byte) :
    StepRefines (BlockRep env c inv) env.maxLen q (cipherPutChar env c ch t)
      ((blockSpec c.blocksize f).put s [ch]) := by
  have hpos := h.pos
  have hused := hR.used
  have hle := hR.le
  have hil := hR.ilen
  simp only [blockSpec, List.cons_ne_self, if_false]
  unfold cipherPutChar
  split
  · rename_i hlt
    rw [bytesSet_ok (by omega), lazyBlocks_le (by simp; omega)]
    intro _
    refine ⟨_, rfl, ?_⟩
    exact { inv := hR.inv, st := hR.st, ilen := by simpa using hil,
            used := by simp; omega, le := by simp; omega,
            pend := by
              simp only
              rw [set_eq_splice (by omega)]
              have := take_splice (b := t.ibuf) (o := t.used) (x := [ch]) (by simp; omega)
              simp only [List.length_singleton] at this
              rw [this, hR.pend],
            ob := by simpa using hR.ob }
  · rename_i hlt
    have hpend : t.ibuf = s.2 := by
      rw [← hR.pend, List.take_of_length_le (by omega)]
    rw [lazyBlocks_gt hpos (by simp; omega), List.take_append_of_le_length (by omega),
      List.take_of_length_le (by omega), List.drop_append_of_le_length (by omega),
      List.drop_of_length_le (by omega), List.nil_append, ← hpend, ← hR.st]
    have hol := h.out_len hR.inv hil
    have hpush := fun hfit => pushBlock_ok (env := env) (q := q) h (t := t) hR.inv hil hR.ob hfit
    cases hexn : (f t.c t.ibuf).exn with
    | some e =>
      rw [hexn] at hpush
      simp only
      intro hfit
      obtain ⟨t', ht'⟩ := hpush (by omega)
      exact ⟨t', M.bind_exn ht'⟩
    | none =>
      rw [hexn] at hpush
      simp only [SRes.andThen]
      rw [lazyBlocks_le (by simp; omega)]
      intro hfit
      simp only [List.append_nil] at hfit
      obtain ⟨ob', hp, hob'⟩ := hpush (by omega)
      have hset := bytesSet_ok (b := t.ibuf) (i := 0) (c := ch) (by omega)
      simp only [Int.natCast_zero] at hset
      refine ⟨{ c := (f t.c t.ibuf).st, ibuf := t.ibuf.set 0 ch, used := 1, ob := ob' }, ?_, ?_⟩
      · rw [M.bind_ok hp, M.bind_ok (M.get_def _)]
        simp only [hset]
        rfl
      · exact { inv := h.inv_step hR.inv hil, st := rfl, ilen := by simpa using hil,
                used := rfl, le := by simp; omega,
                pend := by
                  simp only
                  rw [set_eq_splice (by omega)]
                  have := take_splice (b := t.ibuf) (o := 0) (x := [ch]) (by simp; omega)
                  simpa using this,
                ob := by simpa using hob' }

theorem cipherFlush_refines (h : BlockRuns c inv f) {t : CipherSt σ} {s : σ × Bytes} {q : Bytes}
    (hR : BlockRep env c inv t s q) :
    StepRefines (BlockRep env c inv) env.maxLen q (cipherFlush env c t)
      (blockFlush c.blocksize f s) := by
  have hpos := h.pos
  have hused := hR.used
  have hil := hR.ilen
  unfold cipherFlush blockFlush
  rw [hused]
  split
  · intro _; exact ⟨t, rfl, by simpa using hR⟩
  · split
    · rename_i hfull
      have hpend : t.ibuf = s.2 := by
        rw [← hR.pend, List.take_of_length_le (by omega)]
      have hol := h.out_len hR.inv hil
      have hpush := fun hfit => pushBlock_ok (env := env) (q := q) h (t := t) hR.inv hil hR.ob hfit
      unfold oneBlock
      rw [← hpend, ← hR.st]
      cases hexn : (f t.c t.ibuf).exn with
      | some e =>
        rw [hexn] at hpush
        simp only [hexn]
        intro hfit
        obtain ⟨t', ht'⟩ := hpush (by omega)
        exact ⟨t', M.bind_exn ht'⟩
      | none =>
        rw [hexn] at hpush
        simp only [hexn]
        intro hfit
        obtain ⟨ob', hp, hob'⟩ := hpush (by omega)
        refine ⟨_, by rw [M.bind_ok hp]; rfl, ?_⟩
        exact { inv := h.inv_step hR.inv hil, st := rfl, ilen := hil, used := rfl, le := by simp,
                pend := by simp, ob := hob' }
    · intro _; exact ⟨t, rfl⟩

/-- Methods inherited from `buffered_output`. -/
theorem BlockRep.withOb {t : CipherSt σ} {s : σ × Bytes} {q q' : Bytes} {ob' : OBuf}
    (hR : BlockRep env c inv t s q) (hob' : OBuf.Rep env ob' q') :
    BlockRep env c inv { t with ob := ob' } s q' :=
  { inv := hR.inv, st := hR.st, ilen := hR.ilen, used := hR.used, le := hR.le, pend := hR.pend,
    ob := hob' }

theorem BlockRuns.refines (env : Env) (h : BlockRuns c inv f) :
    Refines (blockTransform env c) (blockSpec c.blocksize f) env.maxLen (BlockRep env c inv) where
  putSubstring := by
    intro t s q b ofs len hR ho
    exact cipherPutSubstring_refines h b _ ofs len t s q rfl hR ho
  putString := by
    intro t s q b hR
    have := cipherPutSubstring_refines h b _ 0 b.length t s q rfl hR (by omega)
    rw [slice_full] at this
    exact this
  putChar := fun hR => cipherPutChar_refines h hR _
  putByte := fun hR => cipherPutChar_refines h hR _
  flush := fun hR => cipherFlush_refines h hR
  finish := fun hR => cipherFlush_refines h hR
  available := by
    intro t s q hR
    simp only [blockTransform, CipherSt.onBuf, M.zoom, OBuf.availableOutput_ok hR.ob]
  getString := by
    intro t s q hR
    exact ⟨_, by simp only [blockTransform, CipherSt.onBuf, M.zoom, OBuf.getString_ok hR.ob],
      hR.withOb hR.ob.clear⟩
  getSubstring := by
    intro t s q hR
    obtain ⟨h1, h2, h3⟩ := OBuf.getSubstring_ok hR.ob
    exact ⟨_, _, _, by simp only [blockTransform, CipherSt.onBuf, M.zoom, h1], h2, h3,
      hR.withOb hR.ob.clear⟩
  getChar_nil := by
    intro t s hR
    simp only [blockTransform, CipherSt.onBuf, M.zoom, OBuf.getChar_nil hR.ob]
  getChar_cons := by
    intro t s ch q hR
    obtain ⟨o', h1, h2⟩ := OBuf.getChar_cons hR.ob
    exact ⟨_, by simp only [blockTransform, CipherSt.onBuf, M.zoom, h1], hR.withOb h2⟩
  getByte_nil := by
    intro t s hR
    have : OBuf.getByte t.ob = .exn .endOfFile t.ob := M.bind_exn (OBuf.getChar_nil hR.ob)
    simp only [blockTransform, CipherSt.onBuf, M.zoom, this]
  getByte_cons := by
    intro t s ch q hR
    obtain ⟨o', h1, h2⟩ := OBuf.getChar_cons hR.ob
    have : OBuf.getByte t.ob = .ok (ch.toNat : Int) o' := M.bind_ok h1
    exact ⟨_, by simp only [blockTransform, CipherSt.onBuf, M.zoom, this], hR.withOb h2⟩

theorem blockTransform_refines (env : Env) (h : Implements c inv f) :
    Refines (blockTransform env c) (blockSpec c.blocksize f) env.maxLen (BlockRep env c inv) :=
  h.runs.refines env

theorem blockRep_init (env : Env) {s : σ} (hs : inv s)
    (hm : max 256 (2 * c.blocksize) ≤ env.maxLen) :
    BlockRep env c inv (cipherInit env c s) (s, []) [] where
  inv := hs
  st := rfl
  ilen := by simp [cipherInit]
  used := rfl
  le := by simp
  pend := by simp [cipherInit]
  ob := OBuf.rep_init env _ (by omega) hm

end Verif
