import Verif.Proof.CharTransform
import Verif.Proof.Chunks
import Verif.Spec.Codec
/-
The hexadecimal transforms.
-/
namespace Verif.Hex

open Spec Spec.Hex

/-! ### Encoding -/

theorem encChars (b : Nat) (h : b < 256) :
    charsAt convTable [(b : Int) / 16, (b : Int) % 16]
      = some [lower.getD (b / 16) 0, lower.getD (b % 16) 0] := by
  have : ∀ b : Nat, b < 256 → charsAt convTable [(b : Int) / 16, (b : Int) % 16]
      = some [lower.getD (b / 16) 0, lower.getD (b % 16) 0] := by decide +kernel
  exact this b h

def encStep (_ : Unit) (c : Byte) : SRes Unit :=
  .ok [lower.getD (c.toNat / 16) 0, lower.getD (c.toNat % 16) 0] ()

def encSpec : XSpec Unit := charSpec encStep (fun _ => .ok [] ()) (fun _ => .ok [] ())

abbrev EncRep (env : Env) (t : OBuf) (_ : Unit) (q : Bytes) : Prop := True ∧ OBuf.Rep env (id t) q

theorem encPutChar_refines {env : Env} {t : OBuf} {s : Unit} {q : Bytes} {c : Byte}
    (hR : EncRep env t s q) :
    StepRefines (EncRep env) env.maxLen q (encPutChar env c t) (encStep s c) := by
  intro hfit
  obtain ⟨o1, h0, hr, _⟩ := OBuf.ensureCapacity_ok hR.2 2 hfit
  obtain ⟨o', h1, h2⟩ := OBuf.emit_ok hr [lower.getD (c.toNat / 16) 0, lower.getD (c.toNat % 16) 0] hfit
  refine ⟨o', ?_, trivial, h2⟩
  unfold encPutChar encPutByte
  rw [if_neg (by omega), encChars c.toNat c.isLt]
  simp only [Int.cast_ofNat_Int] at h0
  simp only [id_eq] at h0
  rw [M.bind_ok h0, M.bind_def, M.orRaise_some]
  exact h1

theorem encode_refines (env : Env) :
    Refines (inheritBuf id (fun o _ => o)
      (charMethods (encPutChar env) (fun b => encPutChar env (BitVec.ofInt 8 b)) (M.pure ()) (M.pure ())
        OBuf.wipe))
      encSpec env.maxLen (EncRep env) :=
  charMethods_refines (P := fun _ _ => True) (get := id) (fun _ => trivial)
    (fun _ _ => rfl) (fun _ => rfl) (fun h => encPutChar_refines h)
    (fun h _ => ⟨_, rfl, trivial, by rw [List.append_nil]; exact h.2⟩)
    (fun h _ => ⟨_, rfl, trivial, by rw [List.append_nil]; exact h.2⟩)

theorem encRep_init (env : Env) (hm : 256 ≤ env.maxLen) : EncRep env (encInit env) () [] :=
  ⟨trivial, OBuf.rep_init env _ (by decide) hm⟩

theorem encPutByte_eq (env : Env) (b : Int) (h0 : 0 ≤ b) (h1 : b < 256) :
    encPutByte env b = encPutChar env (BitVec.ofInt 8 b) := by
  unfold encPutChar
  have : ((BitVec.ofInt 8 b).toNat : Int) = b := by
    rw [BitVec.toNat_ofInt, Int.toNat_of_nonneg (by omega)]
    omega
  rw [this]

theorem enc_run (m : Bytes) :
    (encSpec.put () m).andThen encSpec.finish = .ok (Spec.Hex.encode m) () := by
  have h : encSpec.put () m = .ok (Spec.Hex.encode m) () := by
    induction m with
    | nil => rfl
    | cons c m ih =>
      simp only [encSpec, charSpec] at ih ⊢
      simp only [runChars, encStep, SRes.andThen, Spec.Hex.encode, List.flatMap_cons] at ih ⊢
      rw [ih]
  rw [h]
  simp [SRes.andThen, encSpec, charSpec]

/-! ### Decoding -/

theorem encode_length (m : Bytes) : (Spec.Hex.encode m).length = 2 * m.length := by
  unfold Spec.Hex.encode
  induction m with
  | nil => rfl
  | cons b m ih => rw [List.flatMap_cons, List.length_append, ih]; simp; omega

def decStep (ds : List Nat) (c : Byte) : SRes (List Nat) :=
  match value? c with
  | some v =>
    if ds.length = 1 then .ok [BitVec.ofNat 8 ((ds ++ [v]).foldl (fun n d => 16 * n + d) 0)] []
    else .ok [] (ds ++ [v])
  | none => if c ∈ blanks then .ok [] ds else .err [] (.error .badEncoding)

def decSpec : XSpec (List Nat) :=
  charSpec decStep (fun ds => if ds = [] then .ok [] ds else .err [] (.error .wrongDataLength))
    (fun ds => if ds = [] then .ok [] ds else .err [] (.error .badEncoding))

structure DecPos (t : Dec) (ds : List Nat) : Prop where
  len : t.ibuf.length = 2
  ipos : t.ipos = ds.length
  lt : ds.length ≤ 1
  pend : t.ibuf.take ds.length = ds
  small : ∀ d ∈ ds, d < 16

abbrev DecRep (env : Env) (t : Dec) (ds : List Nat) (q : Bytes) : Prop :=
  DecPos t ds ∧ OBuf.Rep env t.ob q

def decodeCharCheck (c : Byte) : Bool :=
  match decodeChar c, value? c with
  | .ok n, some v => n == (v : Int) && decide (v < 16)
  | .ok n, none => n == -1 && decide (c ∈ blanks)
  | .error e, none => e == .error .badEncoding && !decide (c ∈ blanks)
  | _, _ => false

theorem decodeCharCheck_true (c : Byte) : decodeCharCheck c = true := by
  have h : ∀ n < 256, decodeCharCheck (BitVec.ofNat 8 n) = true := by decide +kernel
  have := h c.toNat c.isLt
  rwa [BitVec.ofNat_toNat, BitVec.setWidth_eq] at this

theorem decodeChar_some {c : Byte} {v : Nat} (h : value? c = some v) :
    decodeChar c = .ok (v : Int) ∧ v < 16 := by
  have hc := decodeCharCheck_true c
  unfold decodeCharCheck at hc
  rw [h] at hc
  cases hd : decodeChar c with
  | error e => rw [hd] at hc; simp at hc
  | ok n =>
    rw [hd] at hc
    simp only [Bool.and_eq_true, beq_iff_eq, decide_eq_true_eq] at hc
    exact ⟨by rw [hc.1], hc.2⟩

theorem decodeChar_none {c : Byte} (h : value? c = none) :
    decodeChar c = if c ∈ blanks then .ok (-1) else .error (.error .badEncoding) := by
  have hc := decodeCharCheck_true c
  unfold decodeCharCheck at hc
  rw [h] at hc
  cases hd : decodeChar c with
  | error e =>
    rw [hd] at hc
    simp only [Bool.and_eq_true, beq_iff_eq, Bool.not_eq_true', decide_eq_false_iff_not] at hc
    rw [if_neg hc.2, hc.1]
  | ok n =>
    rw [hd] at hc
    simp only [Bool.and_eq_true, beq_iff_eq, decide_eq_true_eq] at hc
    rw [if_pos hc.2, hc.1]

theorem pair_chr (a v : Nat) (ha : a < 16) (hv : v < 16) :
    charChr ((a * 16 ||| v : Nat) : Int) = some (BitVec.ofNat 8 (16 * (16 * 0 + a) + v)) := by
  have : ∀ a < 16, ∀ v < 16,
      charChr ((a * 16 ||| v : Nat) : Int) = some (BitVec.ofNat 8 (16 * (16 * 0 + a) + v)) := by
    decide +kernel
  exact this a ha v hv

theorem decPutChar_refines {env : Env} {t : Dec} {ds : List Nat} {q : Bytes} {c : Byte}
    (hR : DecRep env t ds q) :
    StepRefines (DecRep env) env.maxLen q (decPutChar env c t) (decStep ds c) := by
  obtain ⟨⟨hl, hi, hlt, hp, hsm⟩, hb⟩ := hR
  unfold decPutChar decStep
  cases hv : value? c with
  | none =>
    rw [decodeChar_none hv]
    by_cases hbl : c ∈ blanks
    · simp only [if_pos hbl]
      intro _
      exact ⟨t, rfl, ⟨hl, hi, hlt, hp, hsm⟩, by rwa [List.append_nil]⟩
    · simp only [if_neg hbl]
      intro _
      exact ⟨t, rfl⟩
  | some v =>
    obtain ⟨hd, hv16⟩ := decodeChar_some hv
    rw [hd]
    rw [M.bind_ok (show ofExcept (.ok (v : Int)) t = .ok (v : Int) t from rfl), if_pos (by omega)]
    simp only [decDigit, M.bind_def, M.get_def]
    rw [if_neg (by omega)]
    simp only [M.bind_def, M.get_def, M.modify_def, Int.toNat_natCast]
    match ds, hlt with
    | [], _ =>
      simp only [List.length_nil] at hi
      rw [if_neg (by omega), if_neg (by simp)]
      intro _
      refine ⟨_, rfl, ⟨by simp [hl], by simp [hi], by simp, ?_, by simpa using hv16⟩,
        by rw [List.append_nil]; exact hb⟩
      match hib : t.ibuf, hl with
      | [x, y], _ => simp [hi]
    | [a], _ =>
      simp only [List.length_cons, List.length_nil, Nat.zero_add] at hi
      rw [if_pos (by omega), if_pos (by simp)]
      intro hfit
      simp only [List.length_cons, List.length_nil] at hfit
      match hib : t.ibuf, hl with
      | [x, y], _ =>
        rw [hib] at hp
        simp at hp
        subst hp
        obtain ⟨o', e1, e2⟩ := OBuf.emit_ok hb [BitVec.ofNat 8 (16 * (16 * 0 + x) + v)] hfit
        refine ⟨{ t with ibuf := [x, v], ipos := 0, ob := o' }, ?_, ⟨rfl, rfl, by simp, by simp, by simp⟩, e2⟩
        have h0 : ([x, y].set t.ipos v)[0]? = some x := by rw [hi]; rfl
        have h1 : ([x, y].set t.ipos v)[1]? = some v := by rw [hi]; rfl
        have h2 : [x, y].set t.ipos v = [x, v] := by rw [hi]; rfl
        rw [h2] at h0 h1
        simp only [h2, decGroup, M.bind_def, M.get_def, h0, h1, M.orRaise_some,
          pair_chr x v (hsm x (by simp)) hv16, Dec.out, M.zoom, e1, M.modify_def]
    | _ :: _ :: _, h => simp at h

theorem decFlush_refines {env : Env} {t : Dec} {ds : List Nat} {q : Bytes} (hR : DecRep env t ds q) :
    StepRefines (DecRep env) env.maxLen q (decFlush t)
      (if ds = [] then .ok [] ds else .err [] (.error .wrongDataLength)) := by
  simp only [decFlush, M.bind_def, M.get_def, hR.1.ipos]
  by_cases h : ds = []
  · rw [if_neg (by simp [h]), if_pos h]
    exact fun _ => ⟨_, rfl, hR.1, by rw [List.append_nil]; exact hR.2⟩
  · rw [if_pos (by simpa using h), if_neg h]
    exact fun _ => ⟨_, rfl⟩

theorem decFinish_refines {env : Env} {t : Dec} {ds : List Nat} {q : Bytes} (hR : DecRep env t ds q) :
    StepRefines (DecRep env) env.maxLen q (decFinish t)
      (if ds = [] then .ok [] ds else .err [] (.error .badEncoding)) := by
  simp only [decFinish, M.bind_def, M.get_def, hR.1.ipos]
  by_cases h : ds = []
  · rw [if_neg (by simp [h]), if_pos h]
    exact fun _ => ⟨_, rfl, hR.1, by rw [List.append_nil]; exact hR.2⟩
  · rw [if_pos (by simpa using h), if_neg h]
    exact fun _ => ⟨_, rfl⟩

theorem decode_refines (env : Env) :
    Refines (inheritBuf (·.ob) (fun o (t : Dec) => { t with ob := o })
      (charMethods (decPutChar env) (fun b => decPutChar env (BitVec.ofInt 8 b)) decFlush decFinish decWipe))
      decSpec env.maxLen (DecRep env) :=
  charMethods_refines (P := DecPos) (get := fun t : Dec => t.ob)
    (fun h => ⟨h.1, h.2, h.3, h.4, h.5⟩)
    (fun _ _ => rfl) (fun _ => rfl) (fun h => decPutChar_refines h) (fun h => decFlush_refines h)
    (fun h => decFinish_refines h)

theorem decRep_init (env : Env) (hm : 256 ≤ env.maxLen) : DecRep env (decInit env) [] [] :=
  ⟨⟨by simp [decInit], rfl, by simp, by simp, by simp⟩, OBuf.rep_init env _ (by decide) hm⟩

/-- Characters that the decoder accepts. -/
def GoodChar (c : Byte) : Prop := c ∈ lower ∨ c ∈ upper ∨ c ∈ blanks

theorem value_isSome (c : Byte) : (value? c).isSome ↔ c ∈ lower ∨ c ∈ upper := by
  unfold value?
  rw [Option.isSome_or, Bool.or_eq_true, List.findIdx?_isSome, List.any_eq_true, List.findIdx?_isSome,
    List.any_eq_true]
  simp

theorem goodChar_iff (c : Byte) : GoodChar c ↔ (value? c).isSome ∨ c ∈ blanks := by
  rw [value_isSome, or_assoc]; rfl

/-- The bytes of a list of digits. -/
def dg (l : List Nat) : Bytes :=
  (chunks 2 l).map fun g => BitVec.ofNat 8 (g.foldl (fun n d => 16 * n + d) 0)

theorem dg_pair {g l : List Nat} (h : g.length = 2) :
    dg (g ++ l) = BitVec.ofNat 8 (g.foldl (fun n d => 16 * n + d) 0) :: dg l := by
  unfold dg
  rw [chunks_append (by decide) h]
  rfl

theorem dg_length (l : List Nat) : (dg l).length ≤ l.length := by
  induction h : l.length using Nat.strongRecOn generalizing l with
  | _ n ih =>
    by_cases h0 : l = []
    · subst h0; simp [dg, chunks_nil]
    · have hp := List.length_pos_iff.2 h0
      have := ih (l.drop 2).length (by rw [List.length_drop]; omega) _ rfl
      unfold dg at this ⊢
      rw [chunks_cons (by decide) h0, List.map_cons, List.length_cons]
      rw [List.length_drop] at this
      by_cases h1 : l.length = 1
      · rw [List.drop_eq_nil_of_le (by omega), chunks_nil]; simp; omega
      · omega

theorem digits_cons (c : Byte) (t : Bytes) :
    digits (c :: t) = (value? c).toList ++ digits t := by
  unfold digits
  cases h : value? c <;> simp [h]

theorem digits_length (t : Bytes) : (digits t).length ≤ t.length := List.length_filterMap_le _ _

theorem run_good (t : Bytes) : ∀ ds : List Nat, (∀ c ∈ t, GoodChar c) → ds.length ≤ 1 →
    ∃ out ds', runChars decStep ds t = .ok out ds' ∧ ds'.length = (ds.length + (digits t).length) % 2
      ∧ out.length ≤ ds.length + t.length
      ∧ (ds' = [] → out = dg (ds ++ digits t)) := by
  induction t with
  | nil =>
    intro ds _ hl
    refine ⟨[], ds, rfl, by simp [digits]; omega, by simp, ?_⟩
    rintro rfl
    simp [digits, dg, chunks_nil]
  | cons c t ih =>
    intro ds hg hl
    have hg' : ∀ c ∈ t, GoodChar c := fun x hx => hg x (by simp [hx])
    rw [digits_cons]
    cases hv : value? c with
    | none =>
      have hb : c ∈ blanks := by
        rcases (goodChar_iff c).1 (hg c (by simp)) with h | h
        · rw [hv] at h; simp at h
        · exact h
      obtain ⟨out, ds', h1, h2, h3, h4⟩ := ih ds hg' hl
      refine ⟨out, ds', ?_, by simpa using h2, by simp; omega, by simpa using h4⟩
      rw [runChars, decStep, hv]
      simp only [if_pos hb, SRes.andThen_ok_nil]
      exact h1
    | some v =>
      by_cases h1 : ds.length = 1
      · obtain ⟨out, ds', k1, k2, k3, k4⟩ := ih [] hg' (by simp)
        refine ⟨BitVec.ofNat 8 ((ds ++ [v]).foldl (fun n d => 16 * n + d) 0) :: out, ds', ?_, ?_, ?_, ?_⟩
        · rw [runChars, decStep, hv]
          simp only [if_pos h1, SRes.andThen, k1]
          rfl
        · rw [k2, h1]
          simp only [List.length_nil, Option.toList_some, List.length_append, List.length_cons]
          omega
        · simp at k3 ⊢; omega
        · intro h
          rw [k4 h, List.nil_append, Option.toList_some, ← List.append_assoc, dg_pair (by simp [h1])]
      · obtain ⟨out, ds', k1, k2, k3, k4⟩ := ih (ds ++ [v]) hg' (by rw [List.length_append, List.length_singleton]; omega)
        refine ⟨out, ds', ?_, ?_, ?_, ?_⟩
        · rw [runChars, decStep, hv]
          simp only [if_neg h1, SRes.andThen_ok_nil]
          exact k1
        · rw [k2]
          simp only [Option.toList_some, List.length_append, List.length_cons, List.length_nil]
          omega
        · simp at k3 ⊢; omega
        · intro h
          rw [k4 h, Option.toList_some, List.append_assoc]

theorem run_bad (t : Bytes) : ∀ ds : List Nat, ¬ (∀ c ∈ t, GoodChar c) → ds.length ≤ 1 →
    ∃ out, runChars decStep ds t = .err out (.error .badEncoding) ∧ out.length ≤ ds.length + t.length := by
  induction t with
  | nil => intro ds h; exact absurd (by simp) h
  | cons c t ih =>
    intro ds hg hl
    cases hv : value? c with
    | none =>
      by_cases hb : c ∈ blanks
      · obtain ⟨out, h1, h2⟩ := ih ds (fun h => hg (by
          intro x hx
          rcases List.mem_cons.1 hx with rfl | hx
          · exact Or.inr (Or.inr hb)
          · exact h x hx)) hl
        refine ⟨out, ?_, by simp; omega⟩
        rw [runChars, decStep, hv]
        simp only [if_pos hb, SRes.andThen_ok_nil]
        exact h1
      · refine ⟨[], ?_, by simp⟩
        rw [runChars, decStep, hv]
        simp only [if_neg hb]
        rfl
    | some v =>
      have hg' : ¬ ∀ c ∈ t, GoodChar c := fun h => hg (by
          intro x hx
          rcases List.mem_cons.1 hx with rfl | hx
          · exact (goodChar_iff x).2 (Or.inl (by rw [hv]; rfl))
          · exact h x hx)
      by_cases h1 : ds.length = 1
      · obtain ⟨out, k1, k2⟩ := ih [] hg' (by simp)
        refine ⟨BitVec.ofNat 8 ((ds ++ [v]).foldl (fun n d => 16 * n + d) 0) :: out, ?_, ?_⟩
        · rw [runChars, decStep, hv]
          simp only [if_pos h1, SRes.andThen, k1]
          rfl
        · simp at k2 ⊢; omega
      · obtain ⟨out, k1, k2⟩ := ih (ds ++ [v]) hg' (by rw [List.length_append, List.length_singleton]; omega)
        refine ⟨out, ?_, by simp at k2 ⊢; omega⟩
        rw [runChars, decStep, hv]
        simp only [if_neg h1, SRes.andThen_ok_nil]
        exact k1

theorem decSpec_run (t : Bytes) :
    (WellFormed t → (decSpec.put [] t).andThen decSpec.finish = .ok (Spec.Hex.decode t) []) ∧
    (¬ WellFormed t → ∃ out, (decSpec.put [] t).andThen decSpec.finish
        = .err out (.error .badEncoding) ∧ out.length ≤ t.length) := by
  by_cases hg : ∀ c ∈ t, GoodChar c
  · obtain ⟨out, ds', h1, h2, h3, h4⟩ := run_good t [] hg (by simp)
    have hp : decSpec.put [] t = .ok out ds' := h1
    simp only [List.length_nil, Nat.zero_add, List.nil_append] at h2 h3 h4
    rw [hp]
    constructor
    · rintro ⟨_, hd⟩
      have h0 : ds' = [] := List.eq_nil_of_length_eq_zero (by omega)
      subst h0
      simp only [SRes.andThen, decSpec, charSpec, if_pos, List.append_nil, h4 rfl]
      rfl
    · intro hn
      have h0 : ds' ≠ [] := by
        rintro rfl
        exact hn ⟨hg, by simpa using h2.symm⟩
      refine ⟨out, ?_, h3⟩
      simp only [SRes.andThen, decSpec, charSpec, if_neg h0, List.append_nil]
  · obtain ⟨out, h1, h2⟩ := run_bad t [] hg (by simp)
    have hp : decSpec.put [] t = .err out (.error .badEncoding) := h1
    rw [hp]
    exact ⟨fun h => absurd h.1 hg, fun _ => ⟨out, rfl, by simpa using h2⟩⟩

/-! ### Round trip -/

theorem value_lower {v : Nat} (h : v < 16) : value? (lower.getD v 0) = some v := by
  have : ∀ v < 16, value? (lower.getD v 0) = some v := by decide +kernel
  exact this v h

theorem lower_mem {v : Nat} (h : v < 16) : lower.getD v 0 ∈ lower := by
  have : ∀ v < 16, lower.getD v 0 ∈ lower := by decide +kernel
  exact this v h

theorem encode_lower (m : Bytes) : ∀ c ∈ Spec.Hex.encode m, c ∈ lower := by
  intro c hc
  obtain ⟨b, _, hb⟩ := List.mem_flatMap.1 hc
  have := b.isLt
  simp only [List.mem_cons, List.not_mem_nil, or_false] at hb
  rcases hb with rfl | rfl
  · exact lower_mem (by omega)
  · exact lower_mem (by omega)

theorem encode_decode (m : Bytes) :
    WellFormed (Spec.Hex.encode m) ∧ Spec.Hex.decode (Spec.Hex.encode m) = m := by
  have hd : ∀ m : Bytes, (digits (Spec.Hex.encode m)).length % 2 = 0 ∧ dg (digits (Spec.Hex.encode m)) = m := by
    intro m
    induction m with
    | nil => exact ⟨rfl, by simp [Spec.Hex.encode, digits, dg, chunks_nil]⟩
    | cons b m ih =>
      have hb := b.isLt
      have : digits (Spec.Hex.encode (b :: m)) = [b.toNat / 16, b.toNat % 16] ++ digits (Spec.Hex.encode m) := by
        simp only [Spec.Hex.encode, List.flatMap_cons, List.cons_append, List.nil_append, digits_cons]
        rw [value_lower (by omega), value_lower (by omega)]
        rfl
      rw [this, dg_pair (by simp), ih.2, List.length_append]
      refine ⟨by simp [ih.1], ?_⟩
      congr 1
      apply BitVec.eq_of_toNat_eq
      rw [BitVec.toNat_ofNat]
      simp only [List.foldl_cons, List.foldl_nil]
      omega
  exact ⟨⟨fun c hc => Or.inl (encode_lower m c hc), (hd m).1⟩, (hd m).2⟩

end Verif.Hex
