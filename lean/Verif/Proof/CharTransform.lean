import Verif.Model.Codec
import Verif.Proof.Stream
/-
Transforms that process their input character by character.
-/
namespace Verif

theorem splice_cons {b : Bytes} {k : Nat} {c : Byte} {cs : Bytes} (h : k + 1 + cs.length ≤ b.length) :
    splice (b.set k c) (k + 1) cs = splice b k (c :: cs) := by
  unfold splice
  rw [List.take_add_one, List.getElem?_set_self (by omega), List.take_set_of_le (Nat.le_refl _),
    List.drop_set_of_lt (by omega)]
  simp only [Option.toList_some, List.append_assoc, List.cons_append, List.nil_append,
    List.length_cons]
  rw [show k + 1 + cs.length = k + (cs.length + 1) by omega]

namespace OBuf

theorem sets_ok (cs : Bytes) : ∀ (i : Nat) (o : OBuf), o.oend + i + cs.length ≤ o.obuf.length →
    emit.sets i cs o = .ok () { o with obuf := splice o.obuf (o.oend + i) cs } := by
  induction cs with
  | nil =>
    intro i o h
    simp only [emit.sets, splice, List.length_nil, Nat.add_zero, List.append_nil,
      List.take_append_drop]
    rfl
  | cons c cs ih =>
    intro i o h
    simp only [List.length_cons] at h
    have hs := bytesSet_ok (b := o.obuf) (i := o.oend + i) (c := c) (by omega)
    rw [Int.natCast_add] at hs
    have hi := ih (i + 1) { o with obuf := o.obuf.set (o.oend + i) c } (by simp; omega)
    simp only [← Nat.add_assoc] at hi
    rw [splice_cons (by omega)] at hi
    simp only [emit.sets, M.bind_def, M.get_def, hs, M.orRaise_some, M.modify_def]
    exact hi

theorem emit_ok {env : Env} {o : OBuf} {q : Bytes} (h : Rep env o q) (cs : Bytes)
    (hm : q.length + cs.length ≤ env.maxLen) :
    ∃ o', emit env cs o = .ok () o' ∧ Rep env o' (q ++ cs) := by
  obtain ⟨o', h1, h2, h3⟩ := ensureCapacity_ok h cs.length hm
  refine ⟨_, ?_, h2.write h3⟩
  unfold emit
  rw [M.bind_ok h1, M.bind_ok (sets_ok cs 0 o' (by omega))]
  rfl

end OBuf

variable {τ ρ : Type} {R : τ → ρ → Bytes → Prop} {maxLen : Nat}

theorem StepRefines.seq {m1 m2 : M τ Unit} {t : τ} {q : Bytes} {r : SRes ρ} {k : ρ → SRes ρ}
    (h1 : StepRefines R maxLen q (m1 t) r)
    (h2 : ∀ {t s q}, R t s q → StepRefines R maxLen q (m2 t) (k s)) :
    StepRefines R maxLen q ((do m1; m2 : M τ Unit) t) (r.andThen k) := by
  cases r with
  | err out e =>
    simp only [SRes.andThen]
    intro hfit
    obtain ⟨t', h⟩ := h1 hfit
    exact ⟨t', M.bind_exn h⟩
  | ok out s =>
    simp only [SRes.andThen]
    cases hk : k s with
    | err out2 e =>
      intro hfit
      simp only [List.length_append] at hfit
      obtain ⟨t1, h, hR⟩ := h1 (by omega)
      have := h2 hR
      rw [hk] at this
      obtain ⟨t2, h'⟩ := this (by simp; omega)
      exact ⟨t2, by rw [M.bind_ok h, h']⟩
    | ok out2 s2 =>
      intro hfit
      simp only [List.length_append] at hfit
      obtain ⟨t1, h, hR⟩ := h1 (by omega)
      have := h2 hR
      rw [hk] at this
      obtain ⟨t2, h', hR'⟩ := this (by simp; omega)
      exact ⟨t2, by rw [M.bind_ok h, h'], by rwa [List.append_assoc] at hR'⟩

/-- Process characters one by one. -/
def runChars (step : ρ → Byte → SRes ρ) : ρ → Bytes → SRes ρ
  | s, [] => .ok [] s
  | s, c :: b => (step s c).andThen (runChars step · b)

/-- Data-level specification of a character-wise transform. -/
def charSpec (step : ρ → Byte → SRes ρ) (flush finish : ρ → SRes ρ) : XSpec ρ where
  put := runChars step
  flush := flush
  finish := finish

theorem runChars_append (step : ρ → Byte → SRes ρ) (s : ρ) (a b : Bytes) :
    runChars step s (a ++ b) = (runChars step s a).andThen (runChars step · b) := by
  induction a generalizing s with
  | nil => simp only [List.nil_append, runChars, SRes.andThen_ok_nil]
  | cons c a ih =>
    simp only [List.cons_append, runChars, SRes.andThen_assoc]
    congr 1
    funext s'
    exact ih s'

theorem charSpec_lawful (step : ρ → Byte → SRes ρ) (flush finish : ρ → SRes ρ) :
    (charSpec step flush finish).Lawful where
  put_nil := fun _ => rfl
  put_append := fun s a b => SRes.Le.of_eq (runChars_append step s a b)

theorem iterChars_refines {put : Byte → M τ Unit} {step : ρ → Byte → SRes ρ}
    (hput : ∀ {t s q c}, R t s q → StepRefines R maxLen q (put c t) (step s c)) (b : Bytes) :
    ∀ {t s q}, R t s q → StepRefines R maxLen q (iterChars put b t) (runChars step s b) := by
  induction b with
  | nil =>
    intro t s q hR
    intro _
    exact ⟨t, rfl, by rwa [List.append_nil]⟩
  | cons c b ih =>
    intro t s q hR
    simp only [iterChars, runChars]
    exact StepRefines.seq (hput hR) ih

theorem putLoop_iter (put : Byte → M τ Unit) (b : Bytes) (n : Nat) :
    ∀ (i : Nat), i + n ≤ b.length → putLoop put b i n = iterChars put (slice b i n) := by
  induction n with
  | zero => intro i _; simp [putLoop, iterChars, slice]
  | succ n ih =>
    intro i h
    have hg := bytesGet_ok (b := b) (i := i) (by omega)
    have hs : slice b i (n + 1) = b[i] :: slice b (i + 1) n := by
      unfold slice
      rw [List.drop_eq_getElem_cons (by omega), List.take_succ_cons]
    rw [hs]
    simp only [putLoop, iterChars, hg]
    rw [← ih (i + 1) (by omega)]
    rfl

/-- The transform with a total `put_byte`. -/
theorem charMethods_refines {env : Env} {get : τ → OBuf} {set : OBuf → τ → τ}
    {put : Byte → M τ Unit} {flush finish wipe : M τ Unit}
    {step : ρ → Byte → SRes ρ} {sflush sfinish : ρ → SRes ρ} {P : τ → ρ → Prop}
    (hset : ∀ {t s o}, P t s → P (set o t) s) (hgs : ∀ o t, get (set o t) = o)
    (hsg : ∀ t, set (get t) t = t)
    (hput : ∀ {t s q c}, P t s ∧ OBuf.Rep env (get t) q →
      StepRefines (fun t s q => P t s ∧ OBuf.Rep env (get t) q) env.maxLen q (put c t) (step s c))
    (hflush : ∀ {t s q}, P t s ∧ OBuf.Rep env (get t) q →
      StepRefines (fun t s q => P t s ∧ OBuf.Rep env (get t) q) env.maxLen q (flush t) (sflush s))
    (hfinish : ∀ {t s q}, P t s ∧ OBuf.Rep env (get t) q →
      StepRefines (fun t s q => P t s ∧ OBuf.Rep env (get t) q) env.maxLen q (finish t) (sfinish s)) :
    Refines (inheritBuf get set (charMethods put (fun b => put (BitVec.ofInt 8 b)) flush finish wipe))
      (charSpec step sflush sfinish) env.maxLen (fun t s q => P t s ∧ OBuf.Rep env (get t) q) :=
  have hit : ∀ (b : Bytes) {t : τ} {s : ρ} {q : Bytes}, P t s ∧ OBuf.Rep env (get t) q →
      StepRefines (fun t s q => P t s ∧ OBuf.Rep env (get t) q) env.maxLen q (iterChars put b t)
        (runChars step s b) := fun b {_ _ _} hR =>
    iterChars_refines (R := fun t s q => P t s ∧ OBuf.Rep env (get t) q) (put := put)
      (step := step) (fun h => hput h) b hR
  inheritBuf_refines (P := P) (S := charSpec step sflush sfinish) hset hgs hsg
    (by
      intro t s q b ofs len hR ho
      have := hit (slice b ofs len) hR
      rw [← putLoop_iter put b len ofs ho] at this
      exact this)
    (by
      intro t s q b hR
      exact hit b hR)
    (by
      intro t s q c hR
      have := hput (c := c) hR
      simpa only [charSpec, runChars, SRes.andThen_ok_id, charMethods] using this)
    (by
      intro t s q b hR
      have := hput (c := BitVec.ofInt 8 b) hR
      simpa only [charSpec, runChars, SRes.andThen_ok_id, charMethods] using this)
    hflush hfinish

/-- Transforms that differ only by `put_byte` on integers that are not bytes. -/
theorem total_congr {T T' : Transform τ} (h : ∀ op : TOp, op.ByteOk → T.call op = T'.call op)
    (hf : T.finish = T'.finish) (hg : T.getString = T'.getString) (ops : List TOp)
    (hops : ∀ op ∈ ops, op.ByteOk) : T.total ops = T'.total ops := by
  have : ∀ ops : List TOp, (∀ op ∈ ops, op.ByteOk) → T.calls ops = T'.calls ops := by
    intro ops
    induction ops with
    | nil => intro _; rfl
    | cons op ops ih =>
      intro hops
      simp only [Transform.calls]
      rw [h op (hops op (by simp)), ih (fun o ho => hops o (by simp [ho]))]
  simp only [Transform.total, this ops hops, hf, hg]

theorem charMethods_call {get : τ → OBuf} {set : OBuf → τ → τ} {put : Byte → M τ Unit}
    {putByte : Int → M τ Unit} {flush finish wipe : M τ Unit}
    (hb : ∀ b : Int, 0 ≤ b → b < 256 → putByte b = put (BitVec.ofInt 8 b)) (op : TOp)
    (h : op.ByteOk) :
    (inheritBuf get set (charMethods put putByte flush finish wipe)).call op
      = (inheritBuf get set (charMethods put (fun b => put (BitVec.ofInt 8 b)) flush finish wipe)).call op := by
  cases op with
  | putByte b => simp only [Transform.call, inheritBuf, charMethods, hb b h.1 h.2]
  | _ => rfl

theorem putByteChr_eq (put : Byte → M τ Unit) (b : Int) (h0 : 0 ≤ b) (h1 : b < 256) :
    putByteChr put b = put (BitVec.ofInt 8 b) := by
  funext t
  simp only [putByteChr, charChr, if_pos (And.intro h0 h1), M.bind_def, M.orRaise_some]

end Verif
