import Verif.Model.Misc
import Verif.Proof.Bytes
import Verif.Spec.Common
/-
The xor loops of src/stubs-misc.c compute the byte-wise xor.
-/
namespace Verif

@[simp] theorem xorb_length (a b : Bytes) : (xorb a b).length = min a.length b.length := by
  simp [xorb]

theorem xorb_append {a b c d : Bytes} (h : a.length = b.length) :
    xorb (a ++ c) (b ++ d) = xorb a b ++ xorb c d := by
  simp [xorb, List.zipWith_append, h]

theorem xorb_comm (a b : Bytes) : xorb a b = xorb b a := by
  unfold xorb
  rw [List.zipWith_comm]
  congr 1; funext x y; exact BitVec.xor_comm y x

theorem xorb_xorb_cancel {a b : Bytes} (h : a.length ≤ b.length) : xorb (xorb a b) b = a := by
  induction a generalizing b with
  | nil => simp [xorb]
  | cons x xs ih =>
    cases b with
    | nil => simp at h
    | cons y ys =>
      simp only [xorb, List.zipWith_cons_cons] at *
      rw [ih (by simpa using h), BitVec.xor_assoc, BitVec.xor_self, BitVec.xor_zero]

theorem xorb_assoc (a b c : Bytes) : xorb (xorb a b) c = xorb a (xorb b c) := by
  induction a generalizing b c with
  | nil => simp [xorb]
  | cons x xs ih =>
    cases b with
    | nil => simp [xorb]
    | cons y ys =>
      cases c with
      | nil => simp [xorb]
      | cons z zs =>
        have := ih ys zs
        simp only [xorb, List.zipWith_cons_cons] at *
        rw [this, BitVec.xor_assoc]

/-- The reads of an increasing xor loop never see its own writes. -/
def NoFeedback (src : Src) (so dofs n : Nat) : Prop :=
  match src with
  | .other _ => True
  | .self => dofs ≤ so ∨ so + n ≤ dofs

theorem read_splice_later {src : Src} {so dofs n k : Nat} {dst x : Bytes}
    (hx : x.length = k) (hf : NoFeedback src so dofs (k + n))
    (hd : dofs + k ≤ dst.length) :
    slice (src.read (splice dst dofs x)) (so + k) n = slice (src.read dst) (so + k) n := by
  cases src with
  | other b => rfl
  | self =>
    simp only [Src.read]
    simp only [NoFeedback] at hf
    exact slice_splice_disj (by omega) (by omega)

theorem read_splice_length {src : Src} {dofs : Nat} {dst x : Bytes}
    (hd : dofs + x.length ≤ dst.length) :
    (src.read (splice dst dofs x)).length = (src.read dst).length := by
  cases src with
  | other b => rfl
  | self => exact splice_length hd

theorem NoFeedback.step {src : Src} {so dofs n k : Nat} (h : NoFeedback src so dofs (k + n)) :
    NoFeedback src (so + k) (dofs + k) n := by
  cases src with
  | other b => trivial
  | self => simp only [NoFeedback] at *; omega

theorem xor_chunk {src : Src} {so dofs n k : Nat} {dst : Bytes}
    (hs : so + (k + n) ≤ (src.read dst).length) (hd : dofs + (k + n) ≤ dst.length)
    (hf : NoFeedback src so dofs (k + n)) :
    let dst' := splice dst dofs (xorb (slice dst dofs k) (slice (src.read dst) so k))
    splice dst' (dofs + k) (xorb (slice dst' (dofs + k) n) (slice (src.read dst') (so + k) n))
      = splice dst dofs (xorb (slice dst dofs (k + n)) (slice (src.read dst) so (k + n))) := by
  intro dst'
  have hx : (xorb (slice dst dofs k) (slice (src.read dst) so k)).length = k := by simp; omega
  have e1 : slice (src.read dst') (so + k) n = slice (src.read dst) (so + k) n :=
    read_splice_later hx hf (by omega)
  have e2 : slice dst' (dofs + k) n = slice dst (dofs + k) n :=
    slice_splice_disj (by omega) (by omega)
  rw [e1, e2]
  have := splice_splice_append (b := dst) (o := dofs)
    (x := xorb (slice dst dofs k) (slice (src.read dst) so k))
    (y := xorb (slice dst (dofs + k) n) (slice (src.read dst) (so + k) n))
    (by rw [hx]; simp; omega)
  rw [hx] at this
  rw [this, ← xorb_append (by simp; omega), ← slice_append_right, ← slice_append_right]

theorem slice_one {b : Bytes} {o : Nat} (h : o < b.length) : slice b o 1 = [b[o]] := by
  apply List.ext_getElem?; intro i
  rw [getElem?_slice]
  cases i with
  | zero => simp [h]
  | succ i => simp

theorem xorByteStep_ok {src : Src} {so dofs : Nat} {dst : Bytes}
    (hs : so + 1 ≤ (src.read dst).length) (hd : dofs + 1 ≤ dst.length) :
    xorByteStep src so dofs dst
      = some (splice dst dofs (xorb (slice dst dofs 1) (slice (src.read dst) so 1))) := by
  unfold xorByteStep
  have h1 := cRead_ok hs
  have h2 := cRead_ok hd
  rw [slice_one (by omega)] at h1 h2
  simp only [h1, h2]
  rw [cWrite_ok (by simp; omega), slice_one (by omega), slice_one (by omega)]
  rfl

theorem xorByteLoop_ok (n : Nat) : ∀ {src : Src} {so dofs : Nat} {dst : Bytes},
    so + n ≤ (src.read dst).length → dofs + n ≤ dst.length → NoFeedback src so dofs n →
    xorByteLoop src so dofs n dst
      = some (splice dst dofs (xorb (slice dst dofs n) (slice (src.read dst) so n))) := by
  induction n with
  | zero => intro src so dofs dst _ _ _; simp [xorByteLoop, xorb]
  | succ n ih =>
    intro src so dofs dst hs hd hf
    rw [Nat.add_comm n 1] at hs hd hf
    have hx : (xorb (slice dst dofs 1) (slice (src.read dst) so 1)).length = 1 := by simp; omega
    unfold xorByteLoop
    rw [xorByteStep_ok (by omega) (by omega)]
    simp only
    have h1 : ((so : Int) + 1) = ((so + 1 : Nat) : Int) := by simp
    have h2 : ((dofs : Int) + 1) = ((dofs + 1 : Nat) : Int) := by simp
    rw [h1, h2, ih (by rw [read_splice_length (by omega)]; omega)
      (by rw [splice_length (by omega)]; omega) hf.step]
    congr 1
    rw [Nat.add_comm n 1]
    exact xor_chunk hs hd hf

theorem xorWordStep_ok {src : Src} {so dofs : Nat} {dst : Bytes}
    (hs : so + 8 ≤ (src.read dst).length) (hd : dofs + 8 ≤ dst.length) :
    xorWordStep src so dofs dst
      = some (splice dst dofs (xorb (slice dst dofs 8) (slice (src.read dst) so 8))) := by
  unfold xorWordStep
  have h1 := cRead_ok hs
  have h2 := cRead_ok hd
  simp only [h1, h2]
  rw [cWrite_ok (by simp; omega)]

theorem xorWordLoop_ok (n : Nat) : ∀ {src : Src} {so dofs : Nat} {dst : Bytes},
    so + n ≤ (src.read dst).length → dofs + n ≤ dst.length → NoFeedback src so dofs n →
    xorWordLoop src so dofs n dst
      = some (splice dst dofs (xorb (slice dst dofs n) (slice (src.read dst) so n))) := by
  induction n using Nat.strongRecOn with
  | _ n ih =>
    intro src so dofs dst hs hd hf
    unfold xorWordLoop
    split
    · rename_i h8
      obtain ⟨m, rfl⟩ : ∃ m, n = 8 + m := ⟨n - 8, by omega⟩
      have hx : (xorb (slice dst dofs 8) (slice (src.read dst) so 8)).length = 8 := by simp; omega
      rw [xorWordStep_ok (by omega) (by omega)]
      simp only
      have h1 : ((so : Int) + 8) = ((so + 8 : Nat) : Int) := by simp
      have h2 : ((dofs : Int) + 8) = ((dofs + 8 : Nat) : Int) := by simp
      rw [h1, h2, show 8 + m - 8 = m by omega,
        ih m (by omega) (by rw [read_splice_length (by omega)]; omega)
          (by rw [splice_length (by omega)]; omega) hf.step]
      congr 1
      exact xor_chunk hs hd hf
    · exact xorByteLoop_ok n hs hd hf

theorem xorAlignLoop_ok (n : Nat) : ∀ {src : Src} {so dofs : Nat} {dst : Bytes},
    so + n ≤ (src.read dst).length → dofs + n ≤ dst.length → NoFeedback src so dofs n →
    xorAlignLoop src (xorWordLoop src) so dofs n dst
      = some (splice dst dofs (xorb (slice dst dofs n) (slice (src.read dst) so n))) := by
  induction n with
  | zero =>
    intro src so dofs dst hs hd hf
    simp only [xorAlignLoop]
    exact xorWordLoop_ok 0 hs hd hf
  | succ n ih =>
    intro src so dofs dst hs hd hf
    unfold xorAlignLoop
    split
    · rw [Nat.add_comm n 1] at hs hd hf
      have hx : (xorb (slice dst dofs 1) (slice (src.read dst) so 1)).length = 1 := by
        simp; omega
      rw [xorByteStep_ok (by omega) (by omega)]
      simp only
      have h1 : ((so : Int) + 1) = ((so + 1 : Nat) : Int) := by simp
      have h2 : ((dofs : Int) + 1) = ((dofs + 1 : Nat) : Int) := by simp
      rw [h1, h2, ih (by rw [read_splice_length (by omega)]; omega)
        (by rw [splice_length (by omega)]; omega) hf.step]
      congr 1
      rw [Nat.add_comm n 1]
      exact xor_chunk hs hd hf
    · exact xorWordLoop_ok (n + 1) hs hd hf

/-- `caml_xor_string` on legal arguments xors `n` bytes of the source into the
destination, whatever loops it takes. -/
theorem xorC_ok {src : Src} {so dofs n : Nat} {dst : Bytes}
    (hs : so + n ≤ (src.read dst).length) (hd : dofs + n ≤ dst.length)
    (hf : NoFeedback src so dofs n) :
    xorC src so dst dofs n
      = some (splice dst dofs (xorb (slice dst dofs n) (slice (src.read dst) so n))) := by
  unfold xorC
  simp only [Int.toNat_natCast]
  split
  · exact xorAlignLoop_ok n hs hd hf
  · exact xorByteLoop_ok n hs hd hf

end Verif
