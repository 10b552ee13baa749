import Verif.Proof.Auth
import Verif.Props.C39_C40_Utilities
/-
C37: auth_check_transform_string, for every authenticated transform.
-/
namespace Verif

variable {τ : Type}

/-- A string shorter than the tag is rejected, without touching the transform. -/
theorem C37_too_short (A : AuthTransform τ) (s : Bytes) (t : τ) (h : s.length < A.tagSize) :
    authCheckTransformString A s t = .exn (.error .wrongDataLength) t := by
  unfold authCheckTransformString
  simp only [if_pos h]
  rfl

/-- Otherwise the transform processes the string without its last `tag_size` bytes; the answer is
the text if these bytes are the tag, and `None` if they are not. -/
theorem C37_check (A : AuthTransform τ) (text tag : Bytes) (ht : tag.length = A.tagSize)
    {t t1 t2 t3 : τ} {computed out : Bytes}
    (hput : A.base.putString text t = .ok () t1)
    (hfin : A.finishAndGetTag t1 = .ok computed t2)
    (hget : A.base.getString t2 = .ok out t3)
    (hw : ∀ t, ∃ t', A.base.wipe t = .ok () t') :
    (authCheckTransformString A (text ++ tag) t).observe
      = some (.ok (if computed = tag then some out else none)) := by
  unfold authCheckTransformString
  have hl : (text ++ tag).length = text.length + tag.length := List.length_append
  have hn : ¬ (text ++ tag).length < A.tagSize := by omega
  have hi : (((text ++ tag).length : Int) - (A.tagSize : Int)) = (text.length : Int) := by omega
  have h1 := bytesSub_ok (b := text ++ tag) (o := 0) (n := text.length) (by omega)
  have h2 := bytesSub_ok (b := text ++ tag) (o := text.length) (n := tag.length) (by omega)
  rw [slice_zero, List.take_left, Int.natCast_zero] at h1
  rw [slice, List.drop_left, List.take_of_length_le (Nat.le_refl _)] at h2
  rw [ht] at h2
  simp only [if_neg hn, hi, h1, h2]
  rw [M.bind_ok (M.orRaise_some _ _ _), M.bind_ok hput, M.bind_ok hfin,
    M.bind_ok (M.orRaise_some _ _ _), C39_equality, M.bind_ok (M.orRaise_some _ _ _)]
  by_cases hc : computed = tag
  · simp only [hc, decide_true, if_true]
    have : (some <$> A.base.getString : M τ (Option Bytes)) t2 = .ok (some out) t3 := M.bind_ok hget
    obtain ⟨t4, h4⟩ := hw t3
    rw [M.bind_ok this, M.bind_ok h4]
    rfl
  · simp only [hc, decide_false, if_false, Bool.false_eq_true]
    obtain ⟨t4, h4⟩ := hw t2
    rw [M.bind_ok (M.pure_def _ _), M.bind_ok h4]
    rfl

/-- An exception of the transform is passed on. -/
theorem C37_put_exn (A : AuthTransform τ) (text tag : Bytes) (ht : tag.length = A.tagSize)
    {t t1 : τ} {e : Exn} (hput : A.base.putString text t = .exn e t1) :
    authCheckTransformString A (text ++ tag) t = .exn e t1 := by
  unfold authCheckTransformString
  have hl : (text ++ tag).length = text.length + tag.length := List.length_append
  have hn : ¬ (text ++ tag).length < A.tagSize := by omega
  have hi : (((text ++ tag).length : Int) - (A.tagSize : Int)) = (text.length : Int) := by omega
  have h1 := bytesSub_ok (b := text ++ tag) (o := 0) (n := text.length) (by omega)
  rw [slice_zero, List.take_left, Int.natCast_zero] at h1
  simp only [if_neg hn, hi, h1]
  rw [M.bind_ok (M.orRaise_some _ _ _), M.bind_exn hput]

/-- An exception of `finish_and_get_tag` is passed on. -/
theorem C37_finish_exn (A : AuthTransform τ) (text tag : Bytes) (ht : tag.length = A.tagSize)
    {t t1 t2 : τ} {e : Exn} (hput : A.base.putString text t = .ok () t1)
    (hfin : A.finishAndGetTag t1 = .exn e t2) :
    authCheckTransformString A (text ++ tag) t = .exn e t2 := by
  unfold authCheckTransformString
  have hl : (text ++ tag).length = text.length + tag.length := List.length_append
  have hn : ¬ (text ++ tag).length < A.tagSize := by omega
  have hi : (((text ++ tag).length : Int) - (A.tagSize : Int)) = (text.length : Int) := by omega
  have h1 := bytesSub_ok (b := text ++ tag) (o := 0) (n := text.length) (by omega)
  rw [slice_zero, List.take_left, Int.natCast_zero] at h1
  simp only [if_neg hn, hi, h1]
  rw [M.bind_ok (M.orRaise_some _ _ _), M.bind_ok hput, M.bind_exn hfin]

/-- For transforms with a data-level description: any string that is long enough. -/
theorem AuthRefines.check {A : AuthTransform τ} {S : XSpec σ} {fin : σ → SRes Bytes} {maxLen : Nat}
    {R : τ → σ → Bytes → Prop} (h : AuthRefines A S fin maxLen R) (text tag : Bytes)
    (ht : tag.length = A.tagSize) {t s} (hR : R t s []) :
    match (S.put s text).andThen fin with
    | .ok out computed => out.length ≤ maxLen →
        (authCheckTransformString A (text ++ tag) t).observe
          = some (.ok (if computed = tag then some out else none))
    | .err out e => out.length ≤ maxLen →
        (authCheckTransformString A (text ++ tag) t).observe = some (.error e) := by
  have hc := h.base.putString (b := text) hR
  cases hput : S.put s text with
  | err out e =>
    rw [hput] at hc
    simp only [SRes.andThen]
    intro hfit
    obtain ⟨t', h1⟩ := hc (by simpa using hfit)
    rw [C37_put_exn A text tag ht h1]; rfl
  | ok out s1 =>
    rw [hput] at hc
    simp only [SRes.andThen]
    simp only [StepRefines, List.nil_append, List.length_nil, Nat.zero_add] at hc
    cases hfin : fin s1 with
    | err out2 e =>
      simp only
      intro hfit
      simp only [List.length_append] at hfit
      obtain ⟨t1, h1, h2⟩ := hc (by omega)
      have hf := h.tag h2
      rw [hfin] at hf
      obtain ⟨t2, h4⟩ := hf (by omega)
      rw [C37_finish_exn A text tag ht h1 h4]; rfl
    | ok out2 computed =>
      simp only
      intro hfit
      simp only [List.length_append] at hfit
      obtain ⟨t1, h1, h2⟩ := hc (by omega)
      have hf := h.tag h2
      rw [hfin] at hf
      obtain ⟨t2, t3, h4, h6⟩ := hf (by omega)
      exact C37_check A text tag ht h1 h4 h6 h.wipe

end Verif
