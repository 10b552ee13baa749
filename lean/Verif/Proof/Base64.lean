import Verif.Proof.CharTransform
import Verif.Proof.Chunks
import Verif.Spec.Codec
/-
The Base 64 transforms.
-/
namespace Verif.B64

open Spec Spec.Base64

theorem table_length : convTable.length = 64 := by decide +kernel
theorem table_eq : convTable = alphabet := rfl

theorem table_get (i : Nat) (h : i < 64) : bytesGet convTable i = some (digit i) := by
  rw [bytesGet_ok (by rw [table_length]; exact h)]
  unfold digit
  rw [← table_eq, List.getD_eq_getElem?_getD, List.getElem?_eq_getElem (by rw [table_length]; exact h)]
  rfl

theorem charsAt_ok (is : List Nat) (h : ∀ i ∈ is, i < 64) :
    charsAt convTable (is.map Int.ofNat) = some (is.map digit) := by
  unfold charsAt
  induction is with
  | nil => rfl
  | cons i is ih =>
    rw [List.map_cons, List.mapM_cons, show Int.ofNat i = (i : Int) from rfl, table_get i (h i (by simp)), ih (fun j hj => h j (by simp [hj]))]
    rfl

theorem digits3 (a b c : Byte) : groupDigits [a, b, c]
    = [a.toNat / 4, a.toNat % 4 * 16 + b.toNat / 16, b.toNat % 16 * 4 + c.toNat / 64, c.toNat % 64] := by
  have := a.isLt; have := b.isLt; have := c.isLt
  simp only [groupDigits, List.length_cons, List.length_nil, Nat.zero_add, Nat.reduceAdd, Nat.sub_self,
    List.replicate_zero, List.append_nil, beNat, List.take_succ_cons, List.take_nil, Nat.pow_zero]
  congr 1
  · omega
  · congr 1
    · omega
    · congr 1
      · omega
      · congr 1; omega

theorem digits2 (a b : Byte) : groupDigits [a, b]
    = [a.toNat / 4, a.toNat % 4 * 16 + b.toNat / 16, b.toNat % 16 * 4] := by
  have := a.isLt; have := b.isLt
  simp only [groupDigits, List.length_cons, List.length_nil, Nat.zero_add, Nat.reduceAdd, Nat.reduceSub,
    List.replicate_one, List.cons_append, List.nil_append, beNat, List.take_succ_cons, List.take_zero, Nat.pow_zero]
  rw [show (0 : Byte).toNat = 0 from rfl]
  congr 1
  · omega
  · congr 1
    · omega
    · congr 1; omega

theorem digits1 (a : Byte) : groupDigits [a] = [a.toNat / 4, a.toNat % 4 * 16] := by
  have := a.isLt
  simp only [groupDigits, List.length_cons, List.length_nil, Nat.zero_add, Nat.reduceAdd, Nat.reduceSub,
    List.cons_append, List.nil_append, beNat, List.take_succ_cons, List.take_zero, Nat.pow_zero,
    show List.replicate 2 (0 : Byte) = [0, 0] from rfl]
  rw [show (0 : Byte).toNat = 0 from rfl]
  congr 1
  · omega
  · congr 1; omega

/-! ### Encoding -/

/-- Data-level step of the encoder: pending bytes and column. -/
def encStep (multiline : Bool) (s : Bytes × Nat) (c : Byte) : SRes (Bytes × Nat) :=
  if s.1.length = 2 then
    if multiline ∧ s.2 + 4 ≥ 72 then
      .ok ((groupDigits (s.1 ++ [c])).map digit ++ [10]) ([], 0)
    else .ok ((groupDigits (s.1 ++ [c])).map digit) ([], s.2 + 4)
  else .ok [] (s.1 ++ [c], s.2)

/-- The end of the text. -/
def encEnd (multiline padding : Bool) (s : Bytes × Nat) : Bytes :=
  (if s.1 = [] then [] else (groupDigits s.1).map digit
    ++ if multiline ∨ padding then List.replicate (3 - s.1.length) 61 else [])
  ++ if multiline ∧ s.2 > 0 then [10] else []

def encSpec (multiline padding : Bool) : XSpec (Bytes × Nat) :=
  charSpec (encStep multiline) (fun _ => .err [] (.error .wrongDataLength))
    (fun s => .ok (encEnd multiline padding s) (s.1, 0))

/-- The state of the encoder. -/
structure EncPos (t : Enc) (s : Bytes × Nat) : Prop where
  len : t.ibuf.length = 3
  ipos : t.ipos = s.1.length
  lt : s.1.length ≤ 2
  pend : t.ibuf.take s.1.length = s.1
  col : t.ocolumn = s.2

abbrev EncRep (env : Env) (t : Enc) (s : Bytes × Nat) (q : Bytes) : Prop :=
  EncPos t s ∧ OBuf.Rep env t.ob q

theorem out_emit {env : Env} {t : Enc} {q : Bytes} (h : OBuf.Rep env t.ob q) (cs : Bytes)
    (hm : q.length + cs.length ≤ env.maxLen) :
    ∃ o', Enc.out (OBuf.emit env cs) t = .ok () { t with ob := o' } ∧ OBuf.Rep env o' (q ++ cs) := by
  obtain ⟨o', h1, h2⟩ := OBuf.emit_ok h cs hm
  exact ⟨o', by simp only [Enc.out, M.zoom, h1], h2⟩

theorem newline : ascii "\n" = [10] := rfl

theorem encGroup_ok {env : Env} {ml : Bool} {a b c : Byte} {t : Enc} {q : Bytes}
    (hi : t.ibuf = [a, b, c]) (hb : OBuf.Rep env t.ob q)
    (hm : q.length + 4 + (if ml ∧ t.ocolumn + 4 ≥ 72 then 1 else 0) ≤ env.maxLen) :
    ∃ o', encGroup env ml t = .ok () ⟨t.ibuf, 0, if ml ∧ t.ocolumn + 4 ≥ 72 then 0 else t.ocolumn + 4, o'⟩
      ∧ OBuf.Rep env o' (q ++ ((groupDigits [a, b, c]).map digit
        ++ if ml ∧ t.ocolumn + 4 ≥ 72 then [10] else [])) := by
  have ha := a.isLt; have hb' := b.isLt; have hc := c.isLt
  have hcs : charsAt convTable
      [lsr a 2, land a 2 * 2 ^ 4 + lsr b 4, land b 4 * 2 ^ 2 + lsr c 6, land c 6]
      = some ((groupDigits [a, b, c]).map digit) := by
    rw [digits3, ← charsAt_ok _ (by
      intro i hi
      simp only [List.mem_cons, List.not_mem_nil, or_false] at hi
      omega)]
    rfl
  have hcl : ((groupDigits [a, b, c]).map digit).length = 4 := by rw [digits3]; rfl
  obtain ⟨o1, h1, h2⟩ := out_emit hb ((groupDigits [a, b, c]).map digit) (by rw [hcl]; split at hm <;> omega)
  have hg : bytesGet t.ibuf 0 = some a ∧ bytesGet t.ibuf 1 = some b ∧ bytesGet t.ibuf 2 = some c := by
    rw [hi]; exact ⟨rfl, rfl, rfl⟩
  simp only [encGroup, M.bind_def, M.get_def, hg, M.orRaise_some, hcs, h1, M.modify_def]
  by_cases hml : ml ∧ t.ocolumn + 4 ≥ 72
  · rw [if_pos hml] at hm
    obtain ⟨o2, h3, h4⟩ := out_emit (t := ⟨t.ibuf, 0, t.ocolumn + 4, o1⟩) h2 [10]
      (by rw [List.length_append, hcl]; exact hm)
    simp only [if_pos hml, newline]
    exact ⟨o2, by rw [M.bind_ok h3]; rfl, by rwa [List.append_assoc] at h4⟩
  · simp only [if_neg hml]
    exact ⟨o1, rfl, by rwa [List.append_nil]⟩

theorem encPutChar_refines {env : Env} {ml : Bool} {t : Enc} {s : Bytes × Nat} {q : Bytes} {c : Byte}
    (hR : EncRep env t s q) :
    StepRefines (EncRep env) env.maxLen q (encPutChar env ml c t) (encStep ml s c) := by
  obtain ⟨⟨hl, hi, hlt, hp, hcol⟩, hb⟩ := hR
  obtain ⟨p, col⟩ := s
  simp only at hi hlt hp hcol
  have hset := bytesSet_ok (b := t.ibuf) (i := t.ipos) (c := c) (by omega)
  have htk : (t.ibuf.set t.ipos c).take (p.length + 1) = p ++ [c] := by
    rw [List.take_add_one, List.getElem?_set, if_pos hi, if_pos (by omega), hi,
      List.take_set_of_le (Nat.le_refl _), hp]
    rfl
  simp only [encPutChar, M.bind_def, M.get_def, hset, M.orRaise_some, M.modify_def]
  unfold encStep
  by_cases h2 : p.length = 2
  · have h3 : t.ipos + 1 = 3 := by omega
    simp only [if_pos h3, if_pos h2]
    match hpp : p, h2 with
    | [a, b], _ =>
      have hib : t.ibuf.set t.ipos c = [a, b, c] := by
        have := htk
        rw [List.take_of_length_le (by simp; omega)] at this
        exact this
      have hg := encGroup_ok (env := env) (ml := ml) (a := a) (b := b) (c := c)
        (t := ⟨t.ibuf.set t.ipos c, t.ipos + 1, t.ocolumn, t.ob⟩) (q := q) hib hb
      simp only [hcol] at hg
      have hdl : ((groupDigits [a, b, c]).map digit).length = 4 := by rw [digits3]; rfl
      by_cases hml : ml ∧ col + 4 ≥ 72
      · simp only [if_pos hml] at hg ⊢
        intro hfit
        simp only [List.cons_append, List.nil_append, List.length_append, hdl, List.length_cons,
          List.length_nil] at hfit
        obtain ⟨o', e1, e2⟩ := hg (by omega)
        refine ⟨_, by rw [← hcol] at e1; exact e1, ⟨by simp [hl], rfl, by simp, by simp, rfl⟩, e2⟩
      · simp only [if_neg hml] at hg ⊢
        intro hfit
        simp only [List.cons_append, List.nil_append, hdl] at hfit
        obtain ⟨o', e1, e2⟩ := hg (by omega)
        refine ⟨_, by rw [← hcol] at e1; exact e1, ⟨by simp [hl], rfl, by simp, by simp, ?_⟩, ?_⟩
        · simp only [hcol, if_neg hml]
        · rw [List.append_nil] at e2; exact e2
  · have h3 : ¬ t.ipos + 1 = 3 := by omega
    simp only [if_neg h3, if_neg h2]
    intro _
    exact ⟨_, rfl, ⟨by simp [hl], by simp [hi], by simp; omega, by simpa using htk, hcol⟩,
      by rw [List.append_nil]; exact hb⟩

theorem encRest_ok {t : Enc} {p : Bytes} {col : Nat} (hP : EncPos t (p, col)) :
    encRest t = .ok (if p = [] then [] else (groupDigits p).map digit) t := by
  obtain ⟨hl, hi, hlt, hp, hcol⟩ := hP
  simp only at hi hlt hp
  simp only [encRest, M.bind_def, M.get_def, hi]
  match p with
  | [] => rfl
  | [a] =>
    have ha := a.isLt
    have h0 : bytesGet t.ibuf 0 = some a := by
      match hb : t.ibuf with
      | [] => rw [hb] at hl; simp at hl
      | x :: xs => rw [hb] at hp; simp at hp; rw [hp]; rfl
    have hcs : charsAt convTable [lsr a 2, land a 2 * 2 ^ 4] = some ((groupDigits [a]).map digit) := by
      rw [digits1, ← charsAt_ok _ (by
        intro i hi
        simp only [List.mem_cons, List.not_mem_nil, or_false] at hi
        omega)]
      rfl
    simp only [List.length_cons, List.length_nil, Nat.zero_add, h0, M.orRaise_some, M.bind_def, hcs]
    rfl
  | [a, b] =>
    have ha := a.isLt; have hb' := b.isLt
    have h0 : bytesGet t.ibuf 0 = some a ∧ bytesGet t.ibuf 1 = some b := by
      match hb : t.ibuf with
      | [] => rw [hb] at hl; simp at hl
      | [x] => rw [hb] at hl; simp at hl
      | x :: y :: xs => rw [hb] at hp; simp at hp; rw [hp.1, hp.2]; exact ⟨rfl, rfl⟩
    have hcs : charsAt convTable [lsr a 2, land a 2 * 2 ^ 4 + lsr b 4, land b 4 * 2 ^ 2]
        = some ((groupDigits [a, b]).map digit) := by
      rw [digits2, ← charsAt_ok _ (by
        intro i hi
        simp only [List.mem_cons, List.not_mem_nil, or_false] at hi
        omega)]
      rfl
    simp only [List.length_cons, List.length_nil, Nat.zero_add, Nat.reduceAdd, h0, M.orRaise_some, M.bind_def, hcs]
    rfl
  | _ :: _ :: _ :: _ => simp at hlt

theorem numEquals_eq {p : Bytes} (h : p.length ≤ 2) :
    numEquals p.length = if p = [] then 0 else 3 - p.length := by
  match p with
  | [] => rfl
  | [_] => rfl
  | [_, _] => rfl
  | _ :: _ :: _ :: _ => simp at h

theorem encFinish_refines {env : Env} {ml pad : Bool} {t : Enc} {s : Bytes × Nat} {q : Bytes}
    (hR : EncRep env t s q) :
    StepRefines (EncRep env) env.maxLen q (encFinish env ml pad t)
      (.ok (encEnd ml pad s) (s.1, 0)) := by
  obtain ⟨hP, hb⟩ := hR
  obtain ⟨p, col⟩ := s
  have hlt := hP.lt; have hi := hP.ipos; have hcol := hP.col
  simp only at hlt hi hcol
  intro hfit
  simp only [encEnd, List.length_append] at hfit
  generalize hA : (if p = [] then [] else (groupDigits p).map digit) = A
  have hB : (if p = [] then [] else (groupDigits p).map digit
      ++ if ml ∨ pad then List.replicate (3 - p.length) (61 : Byte) else [])
      = A ++ if ml ∨ pad then List.replicate (numEquals p.length) (61 : Byte) else [] := by
    rw [← hA, numEquals_eq hlt]
    by_cases h0 : p = []
    · rw [if_pos h0, if_pos h0, if_pos h0]; simp
    · rw [if_neg h0, if_neg h0, if_neg h0]
  rw [hB, List.length_append] at hfit
  have hr := encRest_ok hP
  rw [hA] at hr
  obtain ⟨o1, e1, r1⟩ := out_emit (t := t) hb A (by omega)
  have key : ∃ o2, encPad env ml pad { t with ob := o1 } = .ok () { t with ob := o2 }
      ∧ OBuf.Rep env o2 (q ++ (A ++ if ml ∨ pad then List.replicate (numEquals p.length) (61 : Byte) else [])) := by
    by_cases h : ml ∨ pad
    · rw [if_pos h] at hfit ⊢
      obtain ⟨o2, e2, r2⟩ := out_emit (t := { t with ob := o1 }) r1
        (List.replicate (numEquals p.length) (61 : Byte)) (by rw [List.length_append]; omega)
      rw [← hi] at e2
      exact ⟨o2, by simp only [encPad, M.bind_def, M.get_def, if_pos h, e2],
        by rwa [List.append_assoc] at r2⟩
    · rw [if_neg h]
      simp only [encPad, M.bind_def, M.get_def, if_neg h]
      exact ⟨o1, rfl, by rwa [List.append_nil]⟩
  obtain ⟨o2, e2, r2⟩ := key
  have key2 : ∃ o3, encNewline env ml { t with ob := o2 } = .ok () { t with ob := o3 }
      ∧ OBuf.Rep env o3 (q ++ encEnd ml pad (p, col)) := by
    unfold encEnd
    rw [hB]
    by_cases h : ml ∧ col > 0
    · have h' : ml ∧ t.ocolumn > 0 := by rw [hcol]; exact h
      rw [if_pos h] at hfit ⊢
      obtain ⟨o3, e3, r3⟩ := out_emit (t := { t with ob := o2 }) r2 [10]
        (by rw [List.length_append, List.length_append]; simpa [Nat.add_assoc] using hfit)
      exact ⟨o3, by simp only [encNewline, M.bind_def, M.get_def, if_pos h', newline, e3], by rwa [List.append_assoc] at r3⟩
    · have h' : ¬ (ml ∧ t.ocolumn > 0) := by rw [hcol]; exact h
      rw [if_neg h]
      simp only [encNewline, M.bind_def, M.get_def, if_neg h']
      exact ⟨o2, rfl, by rwa [List.append_nil]⟩
  obtain ⟨o3, e3, r3⟩ := key2
  refine ⟨{ t with ocolumn := 0, ob := o3 }, ?_, ⟨hP.len, hP.ipos, hP.lt, hP.pend, rfl⟩, r3⟩
  unfold encFinish
  rw [M.bind_ok hr, M.bind_ok e1, M.bind_ok e2, M.bind_ok e3]
  rfl

/-- The encoder, with a total `put_byte`, refines its data-level specification. -/
theorem encode_refines (env : Env) (ml pad : Bool) :
    Refines (inheritBuf (·.ob) (fun o (t : Enc) => { t with ob := o })
      (charMethods (encPutChar env ml) (fun b => encPutChar env ml (BitVec.ofInt 8 b))
        (M.raise (.error .wrongDataLength)) (encFinish env ml pad) encWipe))
      (encSpec ml pad) env.maxLen (EncRep env) :=
  charMethods_refines (P := EncPos) (get := fun t : Enc => t.ob) (fun h => ⟨h.1, h.2, h.3, h.4, h.5⟩)
    (fun _ _ => rfl) (fun _ => rfl) (fun h => encPutChar_refines h) (fun _ _ => ⟨_, rfl⟩)
    (fun h => encFinish_refines h)

theorem encRep_init (env : Env) (hm : 256 ≤ env.maxLen) : EncRep env (encInit env) ([], 0) [] :=
  ⟨⟨by simp [encInit], rfl, by simp, by simp, rfl⟩, OBuf.rep_init env _ (by decide) hm⟩

/-- The text, from column `col`. -/
def layout (ml pad : Bool) : Nat → Bytes → Bytes
  | col, a :: b :: c :: m =>
    (groupDigits [a, b, c]).map digit ++
      if ml ∧ col + 4 ≥ 72 then 10 :: layout ml pad 0 m else layout ml pad (col + 4) m
  | col, p => encEnd ml pad (p, col)

theorem layout_eq (ml pad : Bool) (col : Nat) (m : Bytes) :
    ∃ s, ((encSpec ml pad).put ([], col) m).andThen (encSpec ml pad).finish
      = .ok (layout ml pad col m) s := by
  fun_induction layout ml pad col m with
  | case1 col a b c m ih1 ih2 =>
    obtain ⟨s1, ih1⟩ := ih1
    obtain ⟨s2, ih2⟩ := ih2
    simp only [encSpec, charSpec] at ih1 ih2 ⊢
    have e3 : runChars (encStep ml) ([], col) (a :: b :: c :: m)
        = (encStep ml ([a, b], col) c).andThen (runChars (encStep ml) · m) := by
      simp [runChars, encStep]
    rw [e3, SRes.andThen_assoc]
    have e4 : encStep ml ([a, b], col) c = if ml ∧ col + 4 ≥ 72 then
        .ok ((groupDigits [a, b, c]).map digit ++ [10]) ([], 0)
        else .ok ((groupDigits [a, b, c]).map digit) ([], col + 4) := by
      simp [encStep]
    rw [e4]
    by_cases h : ml ∧ col + 4 ≥ 72
    · rw [if_pos h, if_pos h]
      simp only [SRes.andThen] at ih1 ⊢
      rw [ih1]
      exact ⟨s1, by simp⟩
    · rw [if_neg h, if_neg h]
      simp only [SRes.andThen] at ih2 ⊢
      rw [ih2]
      exact ⟨s2, by simp⟩
  | case2 col p hp =>
    match p, hp with
    | [], _ => exact ⟨_, rfl⟩
    | [a], _ => exact ⟨_, rfl⟩
    | [a, b], _ => exact ⟨_, rfl⟩
    | a :: b :: c :: m, hp => exact absurd rfl (hp a b c m)

theorem layout_false (pad : Bool) (col : Nat) (m : Bytes) : layout false pad col m = Spec.Base64.encode pad m := by
  fun_induction layout false pad col m with
  | case1 col a b c m ih1 ih2 =>
    rw [if_neg (by simp), ih2]
    unfold Spec.Base64.encode
    rw [show a :: b :: c :: m = [a, b, c] ++ m from rfl,
      chunks_append (n := 3) (a := [a, b, c]) (by decide) rfl]
    simp [encodeGroup]
  | case2 col p hp =>
    match p, hp with
    | [], _ => simp [encEnd, Spec.Base64.encode, chunks_nil]
    | [a], _ =>
      rw [Spec.Base64.encode, chunks_cons (by decide) (by simp)]
      simp [encEnd, chunks_nil, encodeGroup]
    | [a, b], _ =>
      rw [Spec.Base64.encode, chunks_cons (by decide) (by simp)]
      simp [encEnd, chunks_nil, encodeGroup]
    | a :: b :: c :: m, hp => exact absurd rfl (hp a b c m)

theorem encodeGroup_length {g : Bytes} (h1 : 0 < g.length) (h : g.length ≤ 3) :
    (encodeGroup true g).length = 4 := by
  match g with
  | [] => simp at h1
  | [a] => simp [encodeGroup, digits1]
  | [a, b] => simp [encodeGroup, digits2]
  | [a, b, c] => simp [encodeGroup, digits3]
  | _ :: _ :: _ :: _ :: _ => simp at h

theorem encode_cons3 (pad : Bool) (a b c : Byte) (m : Bytes) :
    Spec.Base64.encode pad (a :: b :: c :: m) = encodeGroup pad [a, b, c] ++ Spec.Base64.encode pad m := by
  unfold Spec.Base64.encode
  rw [show a :: b :: c :: m = [a, b, c] ++ m from rfl,
      chunks_append (n := 3) (a := [a, b, c]) (by decide) rfl]
  simp

theorem encode_short (pad : Bool) {p : Bytes} (h0 : p ≠ []) (h : p.length ≤ 3) :
    Spec.Base64.encode pad p = encodeGroup pad p := by
  unfold Spec.Base64.encode
  rw [chunks_cons (by decide) h0, List.take_of_length_le h, List.drop_eq_nil_of_le h, chunks_nil]
  simp

/-- Lines, after the characters `x` of the first line. -/
def lines (x : Bytes) (m : Bytes) : Bytes := (chunks 72 (x ++ Spec.Base64.encode true m)).flatMap (· ++ [10])

theorem lines_one {y : Bytes} (h0 : y ≠ []) (h : y.length ≤ 72) :
    (chunks 72 y).flatMap (· ++ [10]) = y ++ [10] := by
  rw [chunks_cons (by decide) h0, List.take_of_length_le h, List.drop_eq_nil_of_le h, chunks_nil]
  simp

theorem layout_true (pad : Bool) (x m : Bytes) (hx : x.length < 72) (h4 : x.length % 4 = 0) :
    x ++ layout true pad x.length m
      = if (x.length / 4 * 3 + m.length) % 54 = 1 ∨ (x.length / 4 * 3 + m.length) % 54 = 2 then
          (lines x m).dropLast else lines x m := by
  induction hm : m.length using Nat.strongRecOn generalizing m x with
  | _ n ih =>
    match m with
    | a :: b :: c :: m =>
      simp only [List.length_cons] at hm
      rw [layout]
      have hg : (groupDigits [a, b, c]).map digit = encodeGroup true [a, b, c] := by
        simp [encodeGroup]
      have hgl : (encodeGroup true [a, b, c]).length = 4 := encodeGroup_length (by simp) (by simp)
      rw [hg]
      have hlines : lines x (a :: b :: c :: m)
          = (chunks 72 ((x ++ encodeGroup true [a, b, c]) ++ Spec.Base64.encode true m)).flatMap (· ++ [10]) := by
        unfold lines; rw [encode_cons3, List.append_assoc]
      rw [hlines]
      have hxl : (x ++ encodeGroup true [a, b, c]).length = x.length + 4 := by
        rw [List.length_append, hgl]
      by_cases hc : x.length + 4 ≥ 72
      · rw [if_pos ⟨rfl, hc⟩]
        have hi := ih m.length (by omega) [] m (by simp) rfl rfl
        simp only [List.nil_append, List.length_nil, Nat.zero_div, Nat.zero_mul, Nat.zero_add] at hi
        rw [hi, chunks_append (by decide) (by omega)]
        have hcond : (x.length / 4 * 3 + n) % 54 = m.length % 54 := by
          have : x.length = 68 := by omega
          omega
        rw [hcond]
        simp only [List.flatMap_cons]
        have hl' : (chunks 72 (Spec.Base64.encode true m)).flatMap (· ++ [10]) = lines [] m := rfl
        rw [hl']
        by_cases h : m.length % 54 = 1 ∨ m.length % 54 = 2
        · rw [if_pos h, if_pos h]
          have hne : lines [] m ≠ [] := by
            have hmne : m ≠ [] := by intro h0; simp [h0] at h
            unfold lines
            intro h0
            have hen : Spec.Base64.encode true m ≠ [] := by
              intro he
              have := congrArg List.length he
              unfold Spec.Base64.encode at this
              rw [chunks_cons (by decide) hmne] at this
              simp only [List.flatMap_cons, List.length_append, List.length_nil] at this
              have := encodeGroup_length (g := m.take 3)
                (by rw [List.length_take]; have := List.length_pos_iff.2 hmne; omega)
                (by rw [List.length_take]; omega)
              omega
            rw [List.nil_append, chunks_cons (by decide) hen] at h0
            simp at h0
          rw [List.dropLast_append_of_ne_nil hne]
          simp
        · rw [if_neg h, if_neg h]; simp
      · rw [if_neg (by simp; omega)]
        have hi := ih m.length (by omega) (x ++ encodeGroup true [a, b, c]) m (by omega) (by omega) rfl
        rw [hxl] at hi
        rw [← List.append_assoc, hi]
        have hcond : ((x.length + 4) / 4 * 3 + m.length) = x.length / 4 * 3 + n := by omega
        rw [hcond]
        rfl
    | [] =>
      simp only [List.length_nil] at hm
      subst hm
      rw [if_neg (by omega)]
      unfold lines
      rw [show Spec.Base64.encode true ([] : Bytes) = [] by simp [Spec.Base64.encode, chunks_nil], List.append_nil]
      by_cases h0 : x = []
      · subst h0; simp [layout, encEnd, chunks_nil]
      · rw [lines_one h0 (by omega)]
        have : 0 < x.length := List.length_pos_iff.2 h0
        simp [layout, encEnd, this]
    | [a] =>
      simp only [List.length_cons, List.length_nil] at hm
      subst hm
      unfold lines
      rw [encode_short true (by simp) (by simp)]
      have hgl : (encodeGroup true [a]).length = 4 := encodeGroup_length (by simp) (by simp)
      rw [lines_one (by intro h; have := congrArg List.length h; simp [hgl] at this)
        (by rw [List.length_append, hgl]; omega)]
      by_cases h0 : x = []
      · subst h0; rw [if_pos (by simp)]; simp [layout, encEnd, encodeGroup]
      · have : 0 < x.length := List.length_pos_iff.2 h0
        rw [if_neg (by omega)]
        simp [layout, encEnd, this, encodeGroup]
    | [a, b] =>
      simp only [List.length_cons, List.length_nil] at hm
      subst hm
      unfold lines
      rw [encode_short true (by simp) (by simp)]
      have hgl : (encodeGroup true [a, b]).length = 4 := encodeGroup_length (by simp) (by simp)
      rw [lines_one (by intro h; have := congrArg List.length h; simp [hgl] at this)
        (by rw [List.length_append, hgl]; omega)]
      by_cases h0 : x = []
      · subst h0; rw [if_pos (by simp)]; simp [layout, encEnd, encodeGroup]
      · have : 0 < x.length := List.length_pos_iff.2 h0
        rw [if_neg (by omega)]
        simp [layout, encEnd, this, encodeGroup]

theorem layout_lines (pad : Bool) (m : Bytes) : layout true pad 0 m = encodeLines m := by
  have := layout_true pad [] m (by simp) rfl
  simpa [lines, encodeLines] using this

/-! ### Decoding -/

theorem groupBytes4 (a b c d : Nat) : groupBytes [a, b, c, d]
    = natToBE 3 (64 * (64 * (64 * (64 * 0 + a) + b) + c) + d) := rfl

theorem groupBytes2 (a b : Nat) : groupBytes [a, b]
    = [BitVec.ofNat 8 ((64 * (64 * (64 * (64 * 0 + a) + b) + 0) + 0) / 256 ^ 2)] := rfl

theorem groupBytes3 (a b c : Nat) : groupBytes [a, b, c]
    = [BitVec.ofNat 8 ((64 * (64 * (64 * (64 * 0 + a) + b) + c) + 0) / 256 ^ 2),
       BitVec.ofNat 8 ((64 * (64 * (64 * (64 * 0 + a) + b) + c) + 0) / 256 ^ 1)] := rfl

theorem charChr_ok {n : Nat} (h : n < 256) {m : Nat} (hm : m % 256 = n) :
    charChr (n : Int) = some (BitVec.ofNat 8 m) := by
  rw [charChr, if_pos (by omega)]
  congr 1
  apply BitVec.eq_of_toNat_eq
  simp
  omega

theorem byte0_ok {a b : Nat} (ha : a < 64) (hb : b < 64) {m : Nat} (hm : m % 256 = a * 4 + b / 16) :
    byte0 (a : Int) b = some (BitVec.ofNat 8 m) := by
  rw [byte0, ← charChr_ok (n := a * 4 + b / 16) (by omega) hm]
  congr 1

theorem byte1_ok {a b : Nat} (ha : a < 64) (hb : b < 64) {m : Nat}
    (hm : m % 256 = a % 16 * 16 + b / 4) : byte1 (a : Int) b = some (BitVec.ofNat 8 m) := by
  rw [byte1, ← charChr_ok (n := a % 16 * 16 + b / 4) (by omega) hm]
  congr 1

theorem byte2_ok {a b : Nat} (ha : a < 64) (hb : b < 64) {m : Nat}
    (hm : m % 256 = a % 4 * 64 + b) : byte2 (a : Int) b = some (BitVec.ofNat 8 m) := by
  rw [byte2, ← charChr_ok (n := a % 4 * 64 + b) (by omega) hm]
  congr 1

/-- Data-level step of the decoder: pending digits, and whether `=` was seen. -/
def decStep (s : List Nat × Bool) (c : Byte) : SRes (List Nat × Bool) :=
  if c = 61 then .ok [] (s.1, true)
  else match value? c with
    | some v =>
      if s.2 then .err [] (.error .badEncoding)
      else if s.1.length = 3 then .ok (groupBytes (s.1 ++ [v])) ([], s.2)
      else .ok [] (s.1 ++ [v], s.2)
    | none => if c ∈ blanks then .ok [] s else .err [] (.error .badEncoding)

def decEnd (s : List Nat × Bool) : SRes (List Nat × Bool) :=
  if s.1.length = 1 then .err [] (.error .badEncoding) else .ok (groupBytes s.1) (s.1, true)

def decSpec : XSpec (List Nat × Bool) :=
  charSpec decStep (fun _ => .err [] (.error .wrongDataLength)) decEnd

structure DecPos (t : Dec) (s : List Nat × Bool) : Prop where
  len : t.ibuf.length = 4
  ipos : t.ipos = s.1.length
  lt : s.1.length ≤ 3
  pend : t.ibuf.take s.1.length = s.1
  small : ∀ d ∈ s.1, d < 64
  fin : t.finished = s.2

abbrev DecRep (env : Env) (t : Dec) (s : List Nat × Bool) (q : Bytes) : Prop :=
  DecPos t s ∧ OBuf.Rep env t.ob q

theorem dec_emit {env : Env} {t : Dec} {q : Bytes} (h : OBuf.Rep env t.ob q) (cs : Bytes)
    (hm : q.length + cs.length ≤ env.maxLen) :
    ∃ o', Dec.out (OBuf.emit env cs) t = .ok () { t with ob := o' } ∧ OBuf.Rep env o' (q ++ cs) := by
  obtain ⟨o', h1, h2⟩ := OBuf.emit_ok h cs hm
  exact ⟨o', by simp only [Dec.out, M.zoom, h1], h2⟩

def decodeCharCheck (c : Byte) : Bool :=
  match decodeChar c, value? c with
  | .ok n, some v => n == (v : Int) && decide (v < 64)
  | .ok n, none => n == -1 && decide (c ∈ blanks)
  | .error e, none => e == .error .badEncoding && !decide (c ∈ blanks)
  | _, _ => false

theorem decodeCharCheck_true (c : Byte) : decodeCharCheck c = true := by
  have h : ∀ n < 256, decodeCharCheck (BitVec.ofNat 8 n) = true := by decide +kernel
  have := h c.toNat c.isLt
  rwa [BitVec.ofNat_toNat, BitVec.setWidth_eq] at this

theorem decodeChar_some {c : Byte} {v : Nat} (h : value? c = some v) :
    decodeChar c = .ok (v : Int) ∧ v < 64 := by
  have hc := decodeCharCheck_true c
  unfold decodeCharCheck at hc
  rw [h] at hc
  cases hd : decodeChar c with
  | error e => rw [hd] at hc; simp at hc
  | ok n =>
    rw [hd] at hc
    simp only [Bool.and_eq_true, beq_iff_eq, decide_eq_true_eq] at hc
    exact ⟨by rw [hc.1], hc.2⟩

theorem decodeChar_none {c : Byte} (h : value? c = none) :
    decodeChar c = if c ∈ blanks then .ok (-1) else .error (.error .badEncoding) := by
  have hc := decodeCharCheck_true c
  unfold decodeCharCheck at hc
  rw [h] at hc
  cases hd : decodeChar c with
  | error e =>
    rw [hd] at hc
    simp only [Bool.and_eq_true, beq_iff_eq, Bool.not_eq_true', decide_eq_false_iff_not] at hc
    rw [if_neg hc.2, hc.1]
  | ok n =>
    rw [hd] at hc
    simp only [Bool.and_eq_true, beq_iff_eq, decide_eq_true_eq] at hc
    rw [if_pos hc.2, hc.1]

theorem decGroup_ok {env : Env} {a b c d : Nat} {t : Dec} {q : Bytes}
    (hi : t.ibuf = [a, b, c, d]) (ha : a < 64) (hb' : b < 64) (hc : c < 64) (hd : d < 64)
    (hb : OBuf.Rep env t.ob q) (hm : q.length + 3 ≤ env.maxLen) :
    ∃ o', decGroup env t = .ok () { t with ipos := 0, ob := o' }
      ∧ OBuf.Rep env o' (q ++ groupBytes [a, b, c, d]) := by
  have h0 : t.at 0 = some (a : Int) ∧ t.at 1 = some (b : Int) ∧ t.at 2 = some (c : Int)
      ∧ t.at 3 = some (d : Int) := by
    unfold Dec.at; rw [hi]; exact ⟨rfl, rfl, rfl, rfl⟩
  rw [groupBytes4]
  generalize hN : 64 * (64 * (64 * (64 * 0 + a) + b) + c) + d = N
  have k0 := byte0_ok ha hb' (m := N / 256 ^ 2) (by omega)
  have k1 := byte1_ok hb' hc (m := N / 256 ^ 1) (by omega)
  have k2 := byte2_ok hc hd (m := N / 256 ^ 0) (by omega)
  obtain ⟨o1, h1, h2⟩ := dec_emit hb (natToBE 3 N) (by simp [natToBE]; omega)
  refine ⟨o1, ?_, h2⟩
  simp only [natToBE] at h1
  simp only [decGroup, M.bind_def, M.get_def, h0, k0, k1, k2, M.orRaise_some, h1, M.modify_def]

theorem decPutChar_refines {env : Env} {t : Dec} {s : List Nat × Bool} {q : Bytes} {c : Byte}
    (hR : DecRep env t s q) :
    StepRefines (DecRep env) env.maxLen q (decPutChar env c t) (decStep s c) := by
  obtain ⟨⟨hl, hi, hlt, hp, hsm, hfin⟩, hb⟩ := hR
  obtain ⟨ds, fin⟩ := s
  simp only at hi hlt hp hsm hfin
  unfold decPutChar decStep
  by_cases h61 : c = 61
  · rw [if_pos h61, if_pos h61]
    intro _
    exact ⟨_, rfl, ⟨hl, hi, hlt, hp, hsm, rfl⟩, by rwa [List.append_nil]⟩
  · rw [if_neg h61, if_neg h61]
    cases hv : value? c with
    | none =>
      rw [decodeChar_none hv]
      by_cases hbl : c ∈ blanks
      · simp only [if_pos hbl]
        intro _
        exact ⟨t, rfl, ⟨hl, hi, hlt, hp, hsm, hfin⟩, by rwa [List.append_nil]⟩
      · simp only [if_neg hbl]
        intro _
        exact ⟨t, rfl⟩
    | some v =>
      obtain ⟨hd, hv64⟩ := decodeChar_some hv
      rw [hd]
      have hd' : (do let n ← ofExcept (.ok (v : Int)); if n ≥ 0 then decDigit env n : M Dec Unit) t
          = decDigit env v t := by
        rw [M.bind_ok (show ofExcept (.ok (v : Int)) t = .ok (v : Int) t from rfl), if_pos (by omega)]
      rw [hd']
      simp only [decDigit, M.bind_def, M.get_def, hfin]
      cases fin with
      | true =>
        simp only [if_true]
        intro _
        exact ⟨t, rfl⟩
      | false =>
        simp only [Bool.false_eq_true, if_false]
        rw [if_neg (by omega)]
        simp only [M.bind_def, M.get_def, M.modify_def, Int.toNat_natCast]
        have htk : (t.ibuf.set t.ipos v).take (ds.length + 1) = ds ++ [v] := by
          rw [List.take_add_one, List.getElem?_set, if_pos hi, if_pos (by omega), hi,
            List.take_set_of_le (Nat.le_refl _), hp]
          rfl
        by_cases h3 : ds.length = 3
        · rw [if_pos (by omega), if_pos h3]
          match ds, h3 with
          | [a, b, d], _ =>
            have hib : t.ibuf.set t.ipos v = [a, b, d, v] := by
              have := htk
              rw [List.take_of_length_le (by simp; omega)] at this
              exact this
            intro hfit
            obtain ⟨o', e1, e2⟩ := decGroup_ok (env := env)
              (t := { t with ibuf := t.ibuf.set t.ipos v, ipos := t.ipos + 1 }) (q := q) hib
              (hsm a (by simp)) (hsm b (by simp)) (hsm d (by simp)) hv64 hb
              (by simpa [groupBytes4, natToBE] using hfit)
            exact ⟨_, e1, ⟨by simp [hl], rfl, by simp, by simp, by simp, hfin⟩, e2⟩
        · rw [if_neg (by omega), if_neg h3]
          intro _
          refine ⟨_, rfl, ⟨by simp [hl], by simp [hi], by simp; omega, by simpa using htk, ?_, hfin⟩,
            by rw [List.append_nil]; exact hb⟩
          intro d hd
          simp only [List.mem_append, List.mem_singleton] at hd
          rcases hd with hd | hd
          · exact hsm d hd
          · omega

theorem decFinish_refines {env : Env} {t : Dec} {s : List Nat × Bool} {q : Bytes}
    (hR : DecRep env t s q) :
    StepRefines (DecRep env) env.maxLen q (decFinish env t) (decEnd s) := by
  obtain ⟨⟨hl, hi, hlt, hp, hsm, hfin⟩, hb⟩ := hR
  obtain ⟨ds, fin⟩ := s
  simp only at hi hlt hp hsm hfin
  unfold decFinish decEnd
  rw [M.bind_def, M.modify_def]
  have hr : decRest { t with finished := true } = if ds.length = 1
      then .exn (.error .badEncoding) { t with finished := true }
      else .ok (groupBytes ds) { t with finished := true } := by
    simp only [decRest, M.bind_def, M.get_def, hi]
    match hds : ds with
    | [] => rfl
    | [a] => rfl
    | [a, b] =>
      match hib : t.ibuf, hl with
      | [x, y, z, w], _ =>
        rw [hib] at hp
        simp at hp
        obtain ⟨rfl, rfl⟩ := hp
        have hx := hsm x (by simp); have hy := hsm y (by simp)
        have h0 : Dec.at ⟨[x, y, z, w], ds.length, true, t.ob⟩ 0 = some (x : Int) := rfl
        have h1 : Dec.at ⟨[x, y, z, w], ds.length, true, t.ob⟩ 1 = some (y : Int) := rfl
        rw [hds] at h0 h1
        rw [groupBytes2]
        simp only [List.length_cons, List.length_nil, Nat.zero_add, Nat.reduceAdd] at h0 h1 ⊢
        simp only [h0, h1, M.bind_def, M.orRaise_some]
        rw [byte0_ok hx hy (m := (64 * (64 * (64 * (64 * 0 + x) + y) + 0) + 0) / 256 ^ 2) (by omega)]
        rfl
    | [a, b, c] =>
      match hib : t.ibuf, hl with
      | [x, y, z, w], _ =>
        rw [hib] at hp
        simp at hp
        obtain ⟨rfl, rfl, rfl⟩ := hp
        have hx := hsm x (by simp); have hy := hsm y (by simp); have hz := hsm z (by simp)
        have h0 : Dec.at ⟨[x, y, z, w], ds.length, true, t.ob⟩ 0 = some (x : Int) := rfl
        have h1 : Dec.at ⟨[x, y, z, w], ds.length, true, t.ob⟩ 1 = some (y : Int) := rfl
        have h2 : Dec.at ⟨[x, y, z, w], ds.length, true, t.ob⟩ 2 = some (z : Int) := rfl
        rw [hds] at h0 h1 h2
        rw [groupBytes3]
        simp only [List.length_cons, List.length_nil, Nat.zero_add, Nat.reduceAdd] at h0 h1 h2 ⊢
        simp only [h0, h1, h2, M.bind_def, M.orRaise_some]
        rw [byte0_ok hx hy (m := (64 * (64 * (64 * (64 * 0 + x) + y) + z) + 0) / 256 ^ 2) (by omega),
          byte1_ok hy hz (m := (64 * (64 * (64 * (64 * 0 + x) + y) + z) + 0) / 256 ^ 1) (by omega)]
        rfl
    | _ :: _ :: _ :: _ :: _ => simp at hlt
  by_cases h1 : ds.length = 1
  · rw [if_pos h1] at hr ⊢
    intro _
    exact ⟨_, M.bind_exn hr⟩
  · rw [if_neg h1] at hr ⊢
    intro hfit
    obtain ⟨o', e1, e2⟩ := dec_emit (t := { t with finished := true }) hb (groupBytes ds) hfit
    refine ⟨{ t with finished := true, ob := o' }, ?_, ⟨hl, hi, hlt, hp, hsm, rfl⟩, e2⟩
    simp only
    rw [M.bind_ok hr, e1]

theorem decode_refines (env : Env) :
    Refines (inheritBuf (·.ob) (fun o (t : Dec) => { t with ob := o })
      (charMethods (decPutChar env) (fun b => decPutChar env (BitVec.ofInt 8 b))
        (M.raise (.error .wrongDataLength)) (decFinish env) decWipe))
      decSpec env.maxLen (DecRep env) :=
  charMethods_refines (P := DecPos) (get := fun t : Dec => t.ob)
    (fun h => ⟨h.1, h.2, h.3, h.4, h.5, h.6⟩)
    (fun _ _ => rfl) (fun _ => rfl) (fun h => decPutChar_refines h) (fun _ _ => ⟨_, rfl⟩)
    (fun h => decFinish_refines h)

theorem decRep_init (env : Env) (hm : 256 ≤ env.maxLen) : DecRep env (decInit env) ([], false) [] :=
  ⟨⟨by simp [decInit], rfl, by simp, by simp, by simp, rfl⟩, OBuf.rep_init env _ (by decide) hm⟩

/-- Texts that the decoder does not reject before `finish`. -/
def Good : Bool → Bytes → Prop
  | _, [] => True
  | fin, c :: t =>
    if c = 61 then Good true t
    else if c ∈ alphabet then fin = false ∧ Good fin t
    else c ∈ blanks ∧ Good fin t

theorem value_isSome (c : Byte) : (value? c).isSome ↔ c ∈ alphabet := by
  unfold value?
  rw [List.findIdx?_isSome, List.any_eq_true]
  simp

theorem value_some {c : Byte} (h : c ∈ alphabet) : ∃ v, value? c = some v :=
  Option.isSome_iff_exists.1 ((value_isSome c).2 h)

theorem value_none {c : Byte} (h : c ∉ alphabet) : value? c = none := by
  cases hv : value? c with
  | none => rfl
  | some v => exact absurd ((value_isSome c).1 (by rw [hv]; rfl)) h

theorem eq_not_digit : (61 : Byte) ∉ alphabet := by decide +kernel
theorem blank_not_digit {c : Byte} (h : c ∈ blanks) : c ∉ alphabet := by
  have : ∀ c ∈ blanks, c ∉ alphabet := by decide +kernel
  exact this c h
theorem eq_not_blank : (61 : Byte) ∉ blanks := by decide +kernel

theorem good_iff (fin : Bool) (t : Bytes) : Good fin t ↔
    (∀ c ∈ t, c ∈ alphabet ∨ c ∈ blanks ∨ c = 61)
    ∧ (∀ u v, t = u ++ (61 : Byte) :: v → ∀ c ∈ v, c ∉ alphabet)
    ∧ (fin = true → ∀ c ∈ t, c ∉ alphabet) := by
  induction t generalizing fin with
  | nil => simp [Good]
  | cons c t ih =>
    unfold Good
    have hcons : (∀ u v, c :: t = u ++ (61 : Byte) :: v → ∀ c ∈ v, c ∉ alphabet) ↔
        (c = 61 → ∀ c ∈ t, c ∉ alphabet) ∧ (∀ u v, t = u ++ (61 : Byte) :: v → ∀ c ∈ v, c ∉ alphabet) := by
      constructor
      · intro h
        exact ⟨fun hc => h [] t (by rw [hc]; rfl), fun u v huv => h (c :: u) v (by rw [huv]; rfl)⟩
      · rintro ⟨h1, h2⟩ u v huv
        cases u with
        | nil =>
          simp only [List.nil_append, List.cons.injEq] at huv
          rw [← huv.2]; exact h1 huv.1
        | cons x u =>
          simp only [List.cons_append, List.cons.injEq] at huv
          exact h2 u v huv.2
    rw [hcons]
    by_cases h61 : c = 61
    · rw [if_pos h61, ih]
      subst h61
      simp only [List.mem_cons, forall_eq_or_imp, forall_const, or_true, true_and, eq_not_digit,
        not_false_eq_true]
      constructor
      · rintro ⟨h1, h2, h3⟩; exact ⟨h1, ⟨h3, h2⟩, fun _ => h3⟩
      · rintro ⟨h1, ⟨h3, h2⟩, _⟩; exact ⟨h1, h2, h3⟩
    · rw [if_neg h61]
      by_cases ha : c ∈ alphabet
      · rw [if_pos ha, ih]
        simp only [List.mem_cons, forall_eq_or_imp, ha, h61, true_or, true_and, false_implies,
          not_true_eq_false, false_and]
        constructor
        · rintro ⟨hf, h1, h2, _⟩; exact ⟨h1, h2, by rw [hf]; simp⟩
        · rintro ⟨h1, h2, h3⟩
          have hf : fin = false := by cases fin with
            | false => rfl
            | true => exact (h3 rfl).elim
          exact ⟨hf, h1, h2, by rw [hf]; simp⟩
      · rw [if_neg ha, ih]
        simp only [List.mem_cons, forall_eq_or_imp, ha, h61, false_or, or_false, false_implies, true_and,
          not_false_eq_true]
        constructor
        · rintro ⟨hb, h1, h2, h3⟩; exact ⟨⟨hb, h1⟩, h2, h3⟩
        · rintro ⟨⟨hb, h1⟩, h2, h3⟩; exact ⟨hb, h1, h2, h3⟩

theorem wellFormed_iff (t : Bytes) : WellFormed t ↔ Good false t ∧ (digits t).length % 4 ≠ 1 := by
  rw [good_iff]
  unfold WellFormed
  simp [and_assoc]

/-- The bytes of a list of digits. -/
def dg (l : List Nat) : Bytes := (chunks 4 l).flatMap groupBytes

theorem dg_short {l : List Nat} (h : l.length ≤ 3) : dg l = groupBytes l := by
  unfold dg
  by_cases h0 : l = []
  · subst h0; simp [chunks_nil]; rfl
  · rw [chunks_cons (by decide) h0, List.take_of_length_le (by omega), List.drop_eq_nil_of_le (by omega),
      chunks_nil]
    simp

theorem dg_group {g l : List Nat} (h : g.length = 4) : dg (g ++ l) = groupBytes g ++ dg l := by
  unfold dg
  rw [chunks_append (by decide) h]
  simp

theorem groupBytes_length (g : List Nat) (h : g.length ≤ 4) : (groupBytes g).length = g.length - 1 := by
  unfold groupBytes
  rw [List.length_take]
  simp only [natToBE, List.length_cons, List.length_nil]
  omega

theorem digits_cons (c : Byte) (t : Bytes) :
    digits (c :: t) = (value? c).toList ++ digits t := by
  unfold digits
  cases h : value? c <;> simp [h]

theorem run_good (t : Bytes) : ∀ (ds : List Nat) (fin : Bool), Good fin t → ds.length ≤ 3 →
    ∃ out ds' fin', runChars decStep (ds, fin) t = .ok out (ds', fin') ∧ ds'.length ≤ 3
      ∧ ds'.length % 4 = (ds.length + (digits t).length) % 4
      ∧ out ++ groupBytes ds' = dg (ds ++ digits t) := by
  induction t with
  | nil =>
    intro ds fin _ hl
    exact ⟨[], ds, fin, rfl, hl, rfl, by simp [digits, dg_short hl]⟩
  | cons c t ih =>
    intro ds fin hg hl
    unfold Good at hg
    rw [digits_cons]
    by_cases h61 : c = 61
    · rw [if_pos h61] at hg
      obtain ⟨out, ds', fin', h1, h2⟩ := ih ds true hg hl
      refine ⟨out, ds', fin', ?_, ?_⟩
      · rw [runChars, decStep, if_pos h61]
        simp only [SRes.andThen_ok_nil]
        exact h1
      · rw [h61, value_none eq_not_digit]; simpa using h2
    · rw [if_neg h61] at hg
      by_cases ha : c ∈ alphabet
      · rw [if_pos ha] at hg
        obtain ⟨hf, hg⟩ := hg
        subst hf
        obtain ⟨v, hv⟩ := value_some ha
        by_cases h3 : ds.length = 3
        · obtain ⟨out, ds', fin', h1, h2, h3', h4⟩ := ih [] false hg (by simp)
          refine ⟨groupBytes (ds ++ [v]) ++ out, ds', fin', ?_, h2, ?_, ?_⟩
          · rw [runChars, decStep, if_neg h61, hv]
            simp only [Bool.false_eq_true, if_false, if_pos h3, SRes.andThen, h1]
          · rw [hv, h3', h3]
            simp only [List.length_nil, Option.toList_some, List.length_append, List.length_cons]
            omega
          · rw [hv, List.append_assoc, h4, List.nil_append, Option.toList_some, ← List.append_assoc,
              dg_group (by simp [h3])]
        · obtain ⟨out, ds', fin', h1, h2, h3', h4⟩ := ih (ds ++ [v]) false hg (by simp; omega)
          refine ⟨out, ds', fin', ?_, h2, ?_, ?_⟩
          · rw [runChars, decStep, if_neg h61, hv]
            simp only [Bool.false_eq_true, if_false, if_neg h3, SRes.andThen_ok_nil]
            exact h1
          · rw [hv, h3']
            simp only [Option.toList_some, List.length_append, List.length_cons, List.length_nil]
            omega
          · rw [hv, h4, Option.toList_some, List.append_assoc]
      · rw [if_neg ha] at hg
        obtain ⟨out, ds', fin', h1, h2⟩ := ih ds fin hg.2 hl
        refine ⟨out, ds', fin', ?_, ?_⟩
        · rw [runChars, decStep, if_neg h61, value_none ha]
          simp only [if_pos hg.1, SRes.andThen_ok_nil]
          exact h1
        · rw [value_none ha]; simpa using h2

theorem run_bad (t : Bytes) : ∀ (ds : List Nat) (fin : Bool), ¬ Good fin t → ds.length ≤ 3 →
    ∃ out, runChars decStep (ds, fin) t = .err out (.error .badEncoding)
      ∧ out.length ≤ ds.length + t.length := by
  induction t with
  | nil => intro ds fin h; exact absurd trivial h
  | cons c t ih =>
    intro ds fin hg hl
    unfold Good at hg
    by_cases h61 : c = 61
    · rw [if_pos h61] at hg
      obtain ⟨out, h1, h2⟩ := ih ds true hg hl
      refine ⟨out, ?_, by simp; omega⟩
      rw [runChars, decStep, if_pos h61]
      simp only [SRes.andThen_ok_nil]
      exact h1
    · rw [if_neg h61] at hg
      by_cases ha : c ∈ alphabet
      · rw [if_pos ha] at hg
        obtain ⟨v, hv⟩ := value_some ha
        cases fin with
        | true =>
          refine ⟨[], ?_, by simp⟩
          rw [runChars, decStep, if_neg h61, hv]
          rfl
        | false =>
          have hg' : ¬ Good false t := fun h => hg ⟨rfl, h⟩
          by_cases h3 : ds.length = 3
          · obtain ⟨out, h1, h2⟩ := ih [] false hg' (by simp)
            refine ⟨groupBytes (ds ++ [v]) ++ out, ?_, ?_⟩
            · rw [runChars, decStep, if_neg h61, hv]
              simp only [Bool.false_eq_true, if_false, if_pos h3, SRes.andThen, h1]
            · rw [List.length_append, groupBytes_length _ (by simp [h3])]
              simp at h2 ⊢
              omega
          · obtain ⟨out, h1, h2⟩ := ih (ds ++ [v]) false hg' (by simp; omega)
            refine ⟨out, ?_, by simp at h2 ⊢; omega⟩
            rw [runChars, decStep, if_neg h61, hv]
            simp only [Bool.false_eq_true, if_false, if_neg h3, SRes.andThen_ok_nil]
            exact h1
      · rw [if_neg ha] at hg
        by_cases hb : c ∈ blanks
        · obtain ⟨out, h1, h2⟩ := ih ds fin (fun h => hg ⟨hb, h⟩) hl
          refine ⟨out, ?_, by simp; omega⟩
          rw [runChars, decStep, if_neg h61, value_none ha]
          simp only [if_pos hb, SRes.andThen_ok_nil]
          exact h1
        · refine ⟨[], ?_, by simp⟩
          rw [runChars, decStep, if_neg h61, value_none ha]
          simp only [if_neg hb]
          rfl

theorem dg_length (l : List Nat) : (dg l).length ≤ l.length := by
  induction h : l.length using Nat.strongRecOn generalizing l with
  | _ n ih =>
    by_cases hl : l.length ≤ 3
    · rw [dg_short hl, groupBytes_length l (by omega)]; omega
    · rw [← List.take_append_drop 4 l, dg_group (by rw [List.length_take]; omega), List.length_append,
        groupBytes_length _ (by rw [List.length_take]; omega), List.length_take]
      have := ih (l.drop 4).length (by rw [List.length_drop]; omega) _ rfl
      rw [List.length_drop] at this
      omega

theorem digits_length (t : Bytes) : (digits t).length ≤ t.length := List.length_filterMap_le _ _

/-- What the decoder does with a text, at the data level. -/
theorem decSpec_run (t : Bytes) :
    (WellFormed t → ∃ s, (decSpec.put ([], false) t).andThen decSpec.finish = .ok (Spec.Base64.decode t) s) ∧
    (¬ WellFormed t → ∃ out, (decSpec.put ([], false) t).andThen decSpec.finish
        = .err out (.error .badEncoding) ∧ out.length ≤ t.length) := by
  rw [wellFormed_iff]
  by_cases hg : Good false t
  · obtain ⟨out, ds', fin', h1, h2, h3, h4⟩ := run_good t [] false hg (by simp)
    have hp : decSpec.put ([], false) t = .ok out (ds', fin') := h1
    simp only [List.length_nil, Nat.zero_add, List.nil_append] at h3 h4
    rw [hp]
    constructor
    · rintro ⟨_, hd⟩
      refine ⟨(ds', true), ?_⟩
      have : decSpec.finish (ds', fin') = .ok (groupBytes ds') (ds', true) := by
        simp only [decSpec, charSpec, decEnd]
        rw [if_neg (by omega)]
      simp only [SRes.andThen, this, h4]
      rfl
    · intro hn
      have hd : (digits t).length % 4 = 1 := by
        by_cases h : (digits t).length % 4 = 1
        · exact h
        · exact absurd ⟨hg, h⟩ hn
      have : decSpec.finish (ds', fin') = .err [] (.error .badEncoding) := by
        simp only [decSpec, charSpec, decEnd]
        rw [if_pos (by omega)]
      refine ⟨out, ?_, ?_⟩
      · simp only [SRes.andThen, this, List.append_nil]
      · have e := congrArg List.length h4
        have := dg_length (digits t)
        have := digits_length t
        rw [List.length_append] at e
        omega
  · obtain ⟨out, h1, h2⟩ := run_bad t [] false hg (by simp)
    have hp : decSpec.put ([], false) t = .err out (.error .badEncoding) := h1
    rw [hp]
    exact ⟨fun h => absurd h.1 hg, fun _ => ⟨out, rfl, by simpa using h2⟩⟩

/-! ### Round trip -/

theorem value_digit {v : Nat} (h : v < 64) : value? (digit v) = some v ∧ digit v ∈ alphabet := by
  have : ∀ v < 64, value? (digit v) = some v ∧ digit v ∈ alphabet := by decide +kernel
  exact this v h

theorem groupDigits_lt (g : Bytes) : ∀ d ∈ groupDigits g, d < 64 := by
  intro d hd
  have := List.mem_of_mem_take hd
  simp only [List.mem_cons, List.not_mem_nil, or_false] at this
  omega

theorem digits_append (a b : Bytes) : digits (a ++ b) = digits a ++ digits b := List.filterMap_append

theorem digits_map (l : List Nat) (h : ∀ d ∈ l, d < 64) : digits (l.map digit) = l := by
  induction l with
  | nil => rfl
  | cons d l ih =>
    rw [List.map_cons, digits_cons, (value_digit (h d (by simp))).1, ih (fun x hx => h x (by simp [hx]))]
    rfl

theorem digits_none (t : Bytes) (h : ∀ c ∈ t, c ∉ alphabet) : digits t = [] := by
  induction t with
  | nil => rfl
  | cons c t ih =>
    rw [digits_cons, value_none (h c (by simp)), ih (fun x hx => h x (by simp [hx]))]
    rfl

theorem good_append {x t : Bytes} (h : ∀ c ∈ x, c ∈ alphabet ∨ c ∈ blanks) (ht : Good false t) :
    Good false (x ++ t) := by
  induction x with
  | nil => exact ht
  | cons c x ih =>
    have hi := ih (fun y hy => h y (by simp [hy]))
    rw [List.cons_append, Good]
    rcases h c (by simp) with ha | hb
    · rw [if_neg (fun e => eq_not_digit (by rwa [e] at ha)), if_pos ha]
      exact ⟨rfl, hi⟩
    · rw [if_neg (fun e => eq_not_blank (by rwa [e] at hb)), if_neg (blank_not_digit hb)]
      exact ⟨hb, hi⟩

theorem good_equals (fin : Bool) (t : Bytes) (h : ∀ c ∈ t, c = 61 ∨ c ∈ blanks) : Good fin t := by
  induction t generalizing fin with
  | nil => trivial
  | cons c t ih =>
    rw [Good]
    rcases h c (by simp) with ha | hb
    · rw [if_pos ha]; exact ih _ (fun y hy => h y (by simp [hy]))
    · rw [if_neg (fun e => eq_not_blank (by rwa [e] at hb)), if_neg (blank_not_digit hb)]
      exact ⟨hb, ih _ (fun y hy => h y (by simp [hy]))⟩

theorem groupBytes_groupDigits {g : Bytes} (h : g.length ≤ 3) : groupBytes (groupDigits g) = g := by
  match g with
  | [] => rfl
  | [a] =>
    have := a.isLt
    rw [digits1, groupBytes2]
    congr 1
    apply BitVec.eq_of_toNat_eq
    rw [BitVec.toNat_ofNat]
    omega
  | [a, b] =>
    have := a.isLt; have := b.isLt
    rw [digits2, groupBytes3]
    congr 1
    · apply BitVec.eq_of_toNat_eq
      rw [BitVec.toNat_ofNat]
      omega
    · congr 1
      apply BitVec.eq_of_toNat_eq
      rw [BitVec.toNat_ofNat]
      omega
  | [a, b, c] =>
    have := a.isLt; have := b.isLt; have := c.isLt
    rw [digits3, groupBytes4]
    generalize hN : 64 * (64 * (64 * (64 * 0 + a.toNat / 4) + (a.toNat % 4 * 16 + b.toNat / 16)) + (b.toNat % 16 * 4 + c.toNat / 64)) + c.toNat % 64 = N
    have hN' : N = a.toNat * 65536 + b.toNat * 256 + c.toNat := by omega
    simp only [natToBE]
    congr 1
    · apply BitVec.eq_of_toNat_eq
      rw [BitVec.toNat_ofNat]
      omega
    · congr 1
      · apply BitVec.eq_of_toNat_eq
        rw [BitVec.toNat_ofNat]
        omega
      · congr 1
        apply BitVec.eq_of_toNat_eq
        rw [BitVec.toNat_ofNat]
        omega
  | _ :: _ :: _ :: _ :: _ => simp at h

theorem groupDigits_length {g : Bytes} (h : g.length ≤ 3) : (groupDigits g).length = g.length + 1 := by
  unfold groupDigits
  rw [List.length_take]
  simp only [List.length_cons, List.length_nil]
  omega

theorem mem_map_digit {g : Bytes} {c : Byte} (h : c ∈ (groupDigits g).map digit) : c ∈ alphabet := by
  obtain ⟨v, hv, rfl⟩ := List.mem_map.1 h
  exact (value_digit (groupDigits_lt g v hv)).2

theorem encEnd_digits (ml pad : Bool) (p : Bytes) (col : Nat) :
    digits (encEnd ml pad (p, col)) = if p = [] then [] else groupDigits p := by
  have hnl : digits (if ml ∧ col > 0 then [10] else []) = [] := by
    apply digits_none
    intro c hc
    split at hc
    · simp only [List.mem_singleton] at hc
      subst hc
      decide +kernel
    · simp at hc
  unfold encEnd
  rw [digits_append, hnl, List.append_nil]
  by_cases h0 : p = []
  · rw [if_pos h0, if_pos h0]; rfl
  · rw [if_neg h0, if_neg h0, digits_append, digits_map _ (groupDigits_lt p), digits_none _ ?_, List.append_nil]
    intro c hc
    split at hc
    · rw [List.eq_of_mem_replicate hc]; exact eq_not_digit
    · simp at hc

theorem encEnd_good (ml pad : Bool) (p : Bytes) (col : Nat) : Good false (encEnd ml pad (p, col)) := by
  have hnl : ∀ c ∈ (if ml ∧ col > 0 then [10] else [] : Bytes), c = 61 ∨ c ∈ blanks := by
    intro c hc
    split at hc
    · simp only [List.mem_singleton] at hc
      subst hc
      exact Or.inr (by decide)
    · simp at hc
  unfold encEnd
  by_cases h0 : p = []
  · rw [if_pos h0]; exact good_equals _ _ (by simpa using hnl)
  · rw [if_neg h0, List.append_assoc]
    apply good_append (fun c hc => Or.inl (mem_map_digit hc))
    apply good_equals
    intro c hc
    rcases List.mem_append.1 hc with hc | hc
    · left
      split at hc
      · exact List.eq_of_mem_replicate hc
      · simp at hc
    · exact hnl c hc

theorem chunks3_short {p : Bytes} (hp : ∀ a b c m, p = a :: b :: c :: m → False) (h0 : p ≠ []) :
    chunks 3 p = [p] ∧ p.length ≤ 2 := by
  have hl : p.length ≤ 2 := by
    match p, hp with
    | [], _ => simp
    | [a], _ => simp
    | [a, b], _ => simp
    | a :: b :: c :: m, hp => exact absurd rfl (hp a b c m)
  exact ⟨by rw [chunks_cons (by decide) h0, List.take_of_length_le (by omega),
    List.drop_eq_nil_of_le (by omega), chunks_nil], hl⟩

theorem layout_digits (ml pad : Bool) (col : Nat) (m : Bytes) :
    digits (layout ml pad col m) = (chunks 3 m).flatMap groupDigits := by
  fun_induction layout ml pad col m with
  | case1 col a b c m ih1 ih2 =>
    rw [digits_append, digits_map _ (groupDigits_lt _), show a :: b :: c :: m = [a, b, c] ++ m from rfl,
      chunks_append (n := 3) (a := [a, b, c]) (by decide) rfl, List.flatMap_cons]
    congr 1
    split
    · rw [digits_cons, ih1, value_none (by decide +kernel)]; rfl
    · exact ih2
  | case2 col p hp =>
    rw [encEnd_digits]
    by_cases h0 : p = []
    · rw [if_pos h0, h0]; simp [chunks_nil]
    · rw [if_neg h0, (chunks3_short hp h0).1]; simp

theorem layout_good (ml pad : Bool) (col : Nat) (m : Bytes) : Good false (layout ml pad col m) := by
  fun_induction layout ml pad col m with
  | case1 col a b c m ih1 ih2 =>
    apply good_append (fun c hc => Or.inl (mem_map_digit hc))
    split
    · exact good_append (x := [10]) (fun c hc => Or.inr (by
        simp only [List.mem_singleton] at hc; subst hc; decide)) ih1
    · exact ih2
  | case2 col p hp => exact encEnd_good ml pad p col

theorem dg_groupDigits (m : Bytes) : dg ((chunks 3 m).flatMap groupDigits) = m
    ∧ ((chunks 3 m).flatMap groupDigits).length % 4 ≠ 1 := by
  induction h : m.length using Nat.strongRecOn generalizing m with
  | _ n ih =>
    match m with
    | a :: b :: c :: m =>
      rw [show a :: b :: c :: m = [a, b, c] ++ m from rfl,
        chunks_append (n := 3) (a := [a, b, c]) (by decide) rfl, List.flatMap_cons]
      have hl : (groupDigits [a, b, c]).length = 4 := groupDigits_length (by simp)
      obtain ⟨i1, i2⟩ := ih m.length (by rw [← h]; simp; omega) m rfl
      rw [dg_group hl, groupBytes_groupDigits (by simp), i1, List.length_append, hl]
      exact ⟨rfl, by omega⟩
    | [] => exact ⟨by simp [chunks_nil, dg], by simp [chunks_nil]⟩
    | [a] =>
      rw [chunks_cons (by decide) (by simp), List.flatMap_cons, show ([a] : Bytes).drop 3 = [] from rfl,
        chunks_nil, List.flatMap_nil, List.append_nil, show ([a] : Bytes).take 3 = [a] from rfl,
        dg_short (by rw [groupDigits_length] <;> simp), groupBytes_groupDigits (by simp),
        groupDigits_length (by simp)]
      exact ⟨rfl, by simp⟩
    | [a, b] =>
      rw [chunks_cons (by decide) (by simp), List.flatMap_cons, show ([a, b] : Bytes).drop 3 = [] from rfl,
        chunks_nil, List.flatMap_nil, List.append_nil, show ([a, b] : Bytes).take 3 = [a, b] from rfl,
        dg_short (by rw [groupDigits_length] <;> simp), groupBytes_groupDigits (by simp),
        groupDigits_length (by simp)]
      exact ⟨rfl, by simp⟩

theorem layout_decode (ml pad : Bool) (m : Bytes) :
    WellFormed (layout ml pad 0 m) ∧ Spec.Base64.decode (layout ml pad 0 m) = m := by
  rw [wellFormed_iff]
  unfold Spec.Base64.decode
  rw [layout_digits]
  exact ⟨⟨layout_good ml pad 0 m, (dg_groupDigits m).2⟩, (dg_groupDigits m).1⟩

theorem layout_length (ml pad : Bool) (col : Nat) (m : Bytes) :
    (layout ml pad col m).length ≤ 2 * m.length + 10 := by
  fun_induction layout ml pad col m with
  | case1 col a b c m ih1 ih2 =>
    have hl : (groupDigits [a, b, c]).length = 4 := groupDigits_length (by simp)
    rw [List.length_append, List.length_map, hl]
    split <;> simp only [List.length_cons] at * <;> omega
  | case2 col p hp =>
    unfold encEnd
    have hl : p.length ≤ 2 := by
      by_cases h0 : p = []
      · simp [h0]
      · exact (chunks3_short hp h0).2
    rw [List.length_append]
    have h1 : (if ml ∧ col > 0 then [10] else [] : Bytes).length ≤ 1 := by split <;> simp
    have h2 : (if p = [] then [] else (groupDigits p).map digit
        ++ if ml ∨ pad then List.replicate (3 - p.length) (61 : Byte) else [] : Bytes).length ≤ 7 := by
      split
      · simp
      · rw [List.length_append, List.length_map, groupDigits_length (by omega)]
        split <;> simp <;> omega
    simp only at h1 h2 ⊢
    omega

/-! ### Lines -/

theorem encode_no_newline (pad : Bool) (m : Bytes) : (10 : Byte) ∉ Spec.Base64.encode pad m := by
  unfold Spec.Base64.encode
  intro h
  obtain ⟨g, _, hg⟩ := List.mem_flatMap.1 h
  unfold encodeGroup at hg
  rcases List.mem_append.1 hg with hg | hg
  · have : (10 : Byte) ∉ alphabet := by decide +kernel
    exact this (mem_map_digit hg)
  · split at hg
    · have := List.eq_of_mem_replicate hg
      exact absurd this (by decide)
    · simp at hg

theorem chunks_shape {α : Type} (n : Nat) (hn : 0 < n) (l : List α) (h0 : l ≠ []) :
    ∃ (full : List (List α)) (last : List α), chunks n l = full ++ [last] ∧ (∀ x ∈ full, x.length = n)
      ∧ last.length ≤ n := by
  induction h : l.length using Nat.strongRecOn generalizing l with
  | _ k ih =>
    have hp := List.length_pos_iff.2 h0
    rw [chunks_cons hn h0]
    by_cases hd : l.drop n = []
    · rw [hd, chunks_nil]
      exact ⟨[], l.take n, rfl, by simp, by rw [List.length_take]; omega⟩
    · have hnl : n < l.length := by
        by_cases hc : n < l.length
        · exact hc
        · exact absurd (List.drop_eq_nil_of_le (by omega)) hd
      obtain ⟨full, last, h1, h2, h3⟩ := ih (l.drop n).length (by rw [List.length_drop]; omega) _ hd rfl
      refine ⟨l.take n :: full, last, by rw [h1]; rfl, ?_, h3⟩
      intro x hx
      rcases List.mem_cons.1 hx with rfl | hx
      · rw [List.length_take]; omega
      · exact h2 x hx

theorem lines_shape (m : Bytes) : ∃ (full : List Bytes) (last : Bytes),
    (∀ l ∈ full, l.length = 72 ∧ (10 : Byte) ∉ l) ∧ last.length ≤ 72 ∧ (10 : Byte) ∉ last
    ∧ (encodeLines m = full.flatMap (· ++ [10]) ++ last
       ∨ encodeLines m = full.flatMap (· ++ [10]) ++ (last ++ [10])) := by
  by_cases h0 : Spec.Base64.encode true m = []
  · refine ⟨[], [], by simp, by simp, by simp, Or.inl ?_⟩
    unfold encodeLines
    rw [h0]
    simp [chunks_nil]
  · obtain ⟨full, last, h1, h2, h3⟩ := chunks_shape 72 (by decide) _ h0
    have hmem : ∀ x ∈ full ++ [last], (10 : Byte) ∉ x := by
      intro x hx h10
      rw [← h1] at hx
      apply encode_no_newline true m
      rw [← chunks_flatten (n := 72) (by decide) (Spec.Base64.encode true m)]
      exact List.mem_flatten.2 ⟨x, hx, h10⟩
    refine ⟨full, last, fun l hl => ⟨h2 l hl, hmem l (by simp [hl])⟩, h3, hmem last (by simp), ?_⟩
    unfold encodeLines
    rw [h1, List.flatMap_append]
    simp only [List.flatMap_cons, List.flatMap_nil, List.append_nil]
    split
    · left
      rw [← List.append_assoc, List.dropLast_concat]
    · right; rfl

theorem lines_filter (m : Bytes) : (encodeLines m).filter (· ≠ 10) = Spec.Base64.encode true m := by
  have hf : ∀ ls : List Bytes, (∀ l ∈ ls, (10 : Byte) ∉ l) →
      (ls.flatMap (· ++ [10])).filter (· ≠ 10) = ls.flatten := by
    intro ls
    induction ls with
    | nil => intro _; rfl
    | cons l ls ih =>
      intro h
      rw [List.flatMap_cons, List.filter_append, List.filter_append, ih (fun x hx => h x (by simp [hx])),
        List.filter_eq_self.2 (by
          intro a ha
          simp only [ne_eq, decide_eq_true_eq]
          rintro rfl
          exact h l (by simp) ha)]
      simp
  have hmem : ∀ x ∈ chunks 72 (Spec.Base64.encode true m), (10 : Byte) ∉ x := by
    intro x hx h10
    apply encode_no_newline true m
    rw [← chunks_flatten (n := 72) (by decide) (Spec.Base64.encode true m)]
    exact List.mem_flatten.2 ⟨x, hx, h10⟩
  have hall : ((chunks 72 (Spec.Base64.encode true m)).flatMap (· ++ [10])).filter (· ≠ 10)
      = Spec.Base64.encode true m := by
    rw [hf _ hmem, chunks_flatten (n := 72) (by decide)]
  unfold encodeLines
  simp only
  split
  · rename_i h
    refine Eq.trans ?_ hall
    by_cases h0 : Spec.Base64.encode true m = []
    · rw [h0]; simp [chunks_nil]
    · obtain ⟨full, last, h1, _, _⟩ := chunks_shape 72 (by decide) _ h0
      rw [h1, List.flatMap_append]
      simp only [List.flatMap_cons, List.flatMap_nil, List.append_nil]
      rw [← List.append_assoc, List.dropLast_concat, List.filter_append (l₂ := [10])]
      simp
  · exact hall

end Verif.B64
