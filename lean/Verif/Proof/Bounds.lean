import Verif.Proof.Modes
import Verif.Proof.Checked
/-
Behaviour of block transforms and of the xor stub on illegal offsets.
-/
namespace Verif

theorem inRange_cons {b : Bytes} {s : Int} {n : Nat} (h1 : InRange b s 1) (h : InRange b (s + 1) n) :
    InRange b s (n + 1 : Nat) := by
  unfold InRange at *; omega

theorem cRead_some {b : Bytes} {o : Int} {n : Nat} {x : Bytes} (h : cRead b o n = some x) :
    InRange b o n := by
  unfold cRead at h
  split at h
  · assumption
  · simp at h

theorem xorByteStep_some {b : Bytes} {s d : Int} {dst r : Bytes}
    (h : xorByteStep (.other b) s d dst = some r) : InRange b s 1 := by
  unfold xorByteStep at h
  split at h
  · rename_i a b' h1 h2
    exact cRead_some h1
  · simp at h

theorem xorWordStep_some {b : Bytes} {s d : Int} {dst r : Bytes}
    (h : xorWordStep (.other b) s d dst = some r) : InRange b s 8 := by
  unfold xorWordStep at h
  split at h
  · rename_i a b' h1 h2
    exact cRead_some h1
  · simp at h

theorem xorByteLoop_some {b : Bytes} (n : Nat) : ∀ {s d : Int} {dst r : Bytes},
    xorByteLoop (.other b) s d n dst = some r → n = 0 ∨ InRange b s n := by
  induction n with
  | zero => intros; exact .inl rfl
  | succ n ih =>
    intro s d dst r h
    right
    rw [xorByteLoop] at h
    split at h
    · simp at h
    · rename_i dst' hst
      have h1 := xorByteStep_some hst
      rcases ih h with h0 | h0
      · subst h0; exact h1
      · exact inRange_cons h1 h0

theorem xorWordLoop_some {b : Bytes} (n : Nat) : ∀ {s d : Int} {dst r : Bytes},
    xorWordLoop (.other b) s d n dst = some r → n = 0 ∨ InRange b s n := by
  induction n using Nat.strongRecOn with
  | _ n ih =>
    intro s d dst r h
    rw [xorWordLoop] at h
    split at h
    · rename_i h8
      right
      split at h
      · simp at h
      · rename_i dst' hst
        have h1 := xorWordStep_some hst
        rcases ih (n - 8) (by omega) h with h0 | h0
        · have : n = 8 := by omega
          subst this; exact h1
        · unfold InRange at *; omega
    · exact xorByteLoop_some n h

theorem xorAlignLoop_some {b : Bytes} (n : Nat) : ∀ {s d : Int} {dst r : Bytes},
    xorAlignLoop (.other b) (xorWordLoop (.other b)) s d n dst = some r → n = 0 ∨ InRange b s n := by
  induction n with
  | zero => intros; exact .inl rfl
  | succ n ih =>
    intro s d dst r h
    right
    rw [xorAlignLoop] at h
    split at h
    · split at h
      · simp at h
      · rename_i dst' hst
        have h1 := xorByteStep_some hst
        rcases ih h with h0 | h0
        · subst h0; exact h1
        · exact inRange_cons h1 h0
    · rcases xorWordLoop_some _ h with h0 | h0
      · omega
      · exact h0

/-- The unchecked xor stub on an illegal source range is an out-of-bounds access. -/
theorem xorC_bad_src {b dst : Bytes} {s d : Int} {n : Nat} (hn : 0 < n) (h : ¬ InRange b s n) :
    xorC (.other b) s dst d n = none := by
  cases hx : xorC (.other b) s dst d n with
  | none => rfl
  | some r =>
    exfalso
    unfold xorC at hx
    split at hx
    · rcases xorAlignLoop_some _ hx with h0 | h0
      · simp at h0; omega
      · simp at h0; exact h (by unfold InRange at *; simpa using h0)
    · rcases xorByteLoop_some _ hx with h0 | h0
      · simp at h0; omega
      · simp at h0; exact h (by unfold InRange at *; simpa using h0)

end Verif
