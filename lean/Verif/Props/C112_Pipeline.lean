import Verif.Spec.Pipeline
import Verif.Props.C49_C52_Combinators
/-
C112: pipelines of any number of transforms, in any grouping.
-/
namespace Verif

open Spec

theorem Spec.Stages.ne_nil {p : Pipe} {l : List Stage} (h : Stages p l) : l ≠ [] := by
  induction h with
  | one _ => simp
  | compose _ _ h1 _ => simp [h1]

theorem Spec.through_append (l m : List Stage) (x : List Bytes) :
    through (l ++ m) x = through l x >>= through m := by
  induction l generalizing x with
  | nil => rfl
  | cons s l ih =>
    simp only [List.cons_append, through]
    cases s.F x with
    | error e => rfl
    | ok y => exact ih y

theorem Spec.handled_append {l m : List Stage} (hl : l ≠ []) (hm : m ≠ []) {x : List Bytes}
    (h : handled (l ++ m) x) : handled l x ∧ ∃ y, through l x = .ok y ∧ handled m y := by
  induction l generalizing x with
  | nil => exact absurd rfl hl
  | cons s l ih =>
    cases l with
    | nil =>
      cases m with
      | nil => exact absurd rfl hm
      | cons u m =>
        obtain ⟨h1, y, h2, h3⟩ := h
        refine ⟨h1, y, ?_, h3⟩
        simp only [through, h2]; rfl
    | cons s' l =>
      obtain ⟨h1, y, h2, h3⟩ := h
      obtain ⟨h4, z, h5, h6⟩ := ih (by simp) h3
      refine ⟨⟨h1, y, h2, h4⟩, z, ?_, h6⟩
      rw [through, h2]; exact h5

/-- C112: a pipeline of any number of transforms, composed in any grouping, computes what the transforms
compute one after the other, for every cut of the data, every read of the output and every flush. -/
theorem C112_pipeline {p : Pipe} {l : List Stage} (h : Stages p l) :
    TComputes p.obj p.init (handled l) (through l) := by
  induction h with
  | @one τ T t s h =>
    intro ps h1 h2 h3
    have := h ps h1 h2 h3
    refine this.trans ?_
    simp only [through]
    cases s.F (ps.map Part.data) <;> rfl
  | @compose a b l m ha hb iha ihb =>
    intro ps h1 h2 h3
    have := C49_compose iha ihb ps h1 h2 (handled_append ha.ne_nil hb.ne_nil h3)
    rw [through_append]
    exact this

/-- C112, grouping: two pipelines of the same transforms behave in the same way, for all histories of calls. -/
theorem C112_grouping {p q : Pipe} {l : List Stage} (hp : Stages p l) (hq : Stages q l) {ps : List Part}
    (hne : ps ≠ []) (hl : ∀ part ∈ ps, part.Legal) (hok : handled l (ps.map Part.data)) :
    (runParts p.obj ps p.init).observe = (runParts q.obj ps q.init).observe :=
  (C112_pipeline hp ps hne hl hok).trans (C112_pipeline hq ps hne hl hok).symm

/-- Every transform of the pipeline can be wiped. -/
inductive Spec.Wipes : Pipe → Prop where
  | one {τ : Type} {T : Transform τ} {t : τ} : (∀ t, ∃ t', T.wipe t = .ok () t') → Wipes (.one T t)
  | compose {a b : Pipe} : Wipes a → Wipes b → Wipes (.compose a b)

theorem Spec.Wipes.wipe {p : Pipe} (h : Wipes p) : ∀ t, ∃ t', p.obj.wipe t = .ok () t' := by
  induction h with
  | one h => exact h
  | @compose a b _ _ iha ihb =>
    rintro ⟨t, s⟩
    obtain ⟨t', e1⟩ := iha t
    obtain ⟨s', e2⟩ := ihb s
    refine ⟨(t', s'), ?_⟩
    show (M.onFst a.obj.wipe >>= fun _ => M.onSnd b.obj.wipe) (t, s) = _
    rw [M.bind_ok (M.onFst_ok e1 _), M.onSnd_ok e2]

/-- C112, whole files: `transform_channel` over a pipeline writes what the stages give one after the other,
whatever the sizes of the reads. -/
theorem C112_channel (env : Env) {p : Pipe} {l : List Stage} (h : Stages p l) (hw : Wipes p)
    (sched : Nat → Nat) (len : Option Int) (ic oc : Bytes) (n : Nat) (hen : enough len ic)
    (hok : handled l [toRead len ic]) {y : Bytes} (hy : through l [toRead len ic] = .ok [y]) :
    ∃ t' n', transformChannel env p.obj sched len (p.init, ⟨ic, n, oc⟩)
      = .ok () (t', ⟨toLeave len ic, n', oc ++ y⟩) := by
  have hT := C112_pipeline h
  refine (C50_transform_channel env hT hw.wipe sched len ic oc n hen hok).1 y ?_
  have hin : inputOf [.putString (toRead len ic)] = toRead len ic := by simp [inputOf, TOp.input]
  have h2 := hT [⟨[.putString (toRead len ic)], false⟩] (by simp)
    (by intro p hp; simp only [List.mem_singleton] at hp; subst hp
        intro op ho; simp only [List.mem_singleton] at ho; subst ho; exact ⟨trivial, trivial⟩)
    (by simpa [Part.data, hin] using hok)
  simp only [List.map_cons, List.map_nil, Part.data, hin, hy] at h2
  rw [Cipher.transformString_observe hw.wipe, Transform.total]
  simp only [runParts, endPart, List.isEmpty_nil, if_true, M.bind_def, Transform.call, Bool.false_eq_true,
    if_false] at h2 ⊢
  cases h1 : p.obj.calls [.putString (toRead len ic)] p.init with
  | ok x ta =>
    simp only [h1] at h2 ⊢
    cases h3 : p.obj.finish ta with
    | ok u tb =>
      simp only [h3] at h2 ⊢
      cases h4 : p.obj.getString tb with
      | ok z tc =>
        simp only [h4, M.pure_def, Out.observe] at h2 ⊢
        injection h2 with h2; injection h2 with h2; injection h2 with h2
        rw [h2]
      | _ => simp only [h4, Out.observe] at h2; cases h2
    | _ => simp only [h3, Out.observe] at h2; cases h2
  | _ => simp only [h1, Out.observe] at h2; cases h2

/-! ### Cases that meet the hypotheses -/

namespace Example

/-- Hexadecimal encoding and decoding, as stages. -/
abbrev encStage : Stage := ⟨fun ms => ∀ m ∈ ms, 2 * m.length ≤ env64.maxLen, fun ms => .ok (ms.map Spec.Hex.encode)⟩
abbrev decStage : Stage :=
  ⟨fun xs => ∃ ms : List Bytes, xs = ms.map Spec.Hex.encode ∧ ∀ m ∈ ms, m.length ≤ env64.maxLen,
   fun xs => .ok (xs.map Spec.Hex.decode)⟩

def encPipe : Pipe := .one (Hex.encode env64) (Verif.Hex.encInit env64)
def decPipe : Pipe := .one (Hex.decode env64) (Verif.Hex.decInit env64)

theorem encPipe_stages : Stages encPipe [encStage] := .one (Hex.encode_computes env64 (by decide))
theorem decPipe_stages : Stages decPipe [decStage] := .one (Hex.decode_computes env64 (by decide))

/-- Encoding, encoding again, decoding: both groupings. -/
theorem left_stages : Stages (.compose (.compose encPipe encPipe) decPipe) [encStage, encStage, decStage] :=
  .compose (.compose encPipe_stages encPipe_stages) decPipe_stages
theorem right_stages : Stages (.compose encPipe (.compose encPipe decPipe)) [encStage, encStage, decStage] :=
  .compose encPipe_stages (.compose encPipe_stages decPipe_stages)

theorem pipe_handled : handled [encStage, encStage, decStage] (parts.map Part.data) :=
  ⟨by decide, _, rfl, by decide +kernel, _, rfl, _, rfl, by decide +kernel⟩

example : (runParts (Pipe.compose (.compose encPipe encPipe) decPipe).obj parts
      (Pipe.compose (.compose encPipe encPipe) decPipe).init).observe
    = (runParts (Pipe.compose encPipe (.compose encPipe decPipe)).obj parts
      (Pipe.compose encPipe (.compose encPipe decPipe)).init).observe :=
  C112_grouping left_stages right_stages (by decide) parts_legal pipe_handled

example : ∃ t' n', transformChannel env64 (Pipe.compose (.compose encPipe encPipe) decPipe).obj (fun i => i + 1)
    (some 4) ((Pipe.compose (.compose encPipe encPipe) decPipe).init, ⟨[0xab, 1, 2, 0xff, 7], 0, [9]⟩)
    = .ok () (t', ⟨[7], n', 9 :: ascii "ab0102ff"⟩) :=
  C112_channel env64 left_stages
    (.compose (.compose (.one fun t => ⟨_, rfl⟩) (.one fun t => ⟨_, rfl⟩)) (.one fun t => ⟨_, rfl⟩))
    (fun i => i + 1) (some 4) [0xab, 1, 2, 0xff, 7] [9] 0 (by rintro l ⟨⟩; decide)
    ⟨by decide, _, rfl, by decide +kernel, _, rfl, _, rfl, by decide +kernel⟩ (by decide +kernel)

end Example

end Verif
