import Verif.Proof.Xor
/-
C39 Constant-time equality decides equality and its access pattern ignores contents.
C40 xor_bytes / xor_string.
-/
namespace Verif

theorem seqEqualLoop_spec (s1 s2 : Bytes) (l : Nat) (h1 : s1.length = l) (h2 : s2.length = l)
    (d : Nat) : ∀ i accu, l - i = d → i ≤ l →
    seqEqualLoop s1 s2 l i accu
      = some (decide (accu = 0 ∧ s1.drop i = s2.drop i), (List.range' i (l - i))) := by
  induction d with
  | zero =>
    intro i accu hd hi
    have : i = l := by omega
    subst this
    rw [seqEqualLoop, if_neg (by omega)]
    rw [List.drop_of_length_le (by omega), List.drop_of_length_le (by omega)]
    simp
    rfl
  | succ d ih =>
    intro i accu hd hi
    rw [seqEqualLoop, if_pos (by omega), List.getElem?_eq_getElem (by omega),
      List.getElem?_eq_getElem (by omega)]
    simp only
    rw [ih (i + 1) _ (by omega) (by omega)]
    simp only [Option.map_some]
    congr 2
    · rw [List.drop_eq_getElem_cons (show i < s1.length by omega),
        List.drop_eq_getElem_cons (show i < s2.length by omega)]
      rw [decide_eq_decide, List.cons.injEq, Nat.or_eq_zero_iff]
      have : (s1[i].toNat ^^^ s2[i].toNat = 0) ↔ s1[i] = s2[i] := by
        constructor
        · intro h
          apply BitVec.xor_eq_zero_iff.1
          apply BitVec.eq_of_toNat_eq
          rw [BitVec.toNat_xor, h]; rfl
        · intro h; rw [h]; exact Nat.xor_self _
      rw [this]
      constructor <;> (rintro ⟨h1, h2⟩; simp_all)
    · rw [show l - i = (l - (i + 1)) + 1 by omega, List.range'_succ]

/-- C39: `string_equal` / `bytes_equal` never raise and return `true` exactly on equal
sequences; the positions read are 0, 1, ..., n-1 when both lengths are n, and none when the
lengths differ: they depend on the lengths only. -/
theorem C39_equality (s1 s2 : Bytes) :
    seqEqual s1 s2 = some (decide (s1 = s2),
      if s1.length = s2.length then List.range s1.length else []) := by
  unfold seqEqual
  by_cases h : s1.length = s2.length
  · simp only [h, if_true]
    rw [seqEqualLoop_spec s1 s2 _ h rfl _ 0 0 rfl (by omega)]
    simp [List.range_eq_range']
  · simp only [h, if_false]
    have : s1 ≠ s2 := fun e => h (by rw [e])
    simp [this]

/-- C39, on its own: the access pattern of two calls on sequences of the same lengths is the
same, and positions are read in both sequences without bounds errors. -/
theorem C39_access_pattern (s1 s2 t1 t2 : Bytes) (h1 : s1.length = t1.length)
    (h2 : s2.length = t2.length) :
    (seqEqual s1 s2).map (·.2) = (seqEqual t1 t2).map (·.2) := by
  rw [C39_equality, C39_equality]; simp only [Option.map_some]; rw [h1, h2]

/-- C40, out of bounds: `Invalid_argument`, nothing changed. -/
theorem C40_out_of_bounds (src : Src) (so dofs len : Int) (dst : Bytes)
    (hbad : ¬ (InRange (src.read dst) so len ∧ InRange dst dofs len)) :
    xorBytes src so dofs len dst = .exn .invalidArg dst := by
  unfold xorBytes InRange at *
  rw [if_pos (by omega)]

/-- C40, within bounds and with a distinct source (or in place, unless the source range
starts before and overlaps the destination range): byte `dofs + i` becomes its xor with
source byte `so + i` for `i < len`, other bytes are unchanged. -/
theorem C40_xor (src : Src) (so dofs len : Nat) (dst : Bytes)
    (hs : so + len ≤ (src.read dst).length) (hd : dofs + len ≤ dst.length)
    (hplace : ∀ _ : src = .self, dofs ≤ so ∨ so + len ≤ dofs) :
    ∃ dst', xorBytes src so dofs len dst = .ok () dst' ∧ dst'.length = dst.length ∧
      (∀ i < len, dst'[dofs + i]? = some (dst[dofs + i]! ^^^ (src.read dst)[so + i]!)) ∧
      (∀ i, i < dofs ∨ dofs + len ≤ i → dst'[i]? = dst[i]?) := by
  have hf : NoFeedback src so dofs len := by
    cases src with
    | other b => trivial
    | self => exact hplace rfl
  have hx := xorC_ok hs hd hf
  have hl : (xorb (slice dst dofs len) (slice (src.read dst) so len)).length = len := by
    simp; omega
  refine ⟨_, ?_, splice_length (b := dst) (o := dofs)
    (x := xorb (slice dst dofs len) (slice (src.read dst) so len)) (by omega), ?_, ?_⟩
  · unfold xorBytes
    rw [if_neg (by omega), hx]
  · intro i hi
    rw [getElem?_splice (by omega), if_neg (by omega), if_pos (by omega),
      show dofs + i - dofs = i by omega]
    simp only [xorb, List.getElem?_zipWith, getElem?_slice, hi, if_true]
    rw [List.getElem?_eq_getElem (by omega), List.getElem?_eq_getElem (by omega)]
    simp only
    rw [getElem!_pos dst _ (by omega), getElem!_pos (src.read dst) _ (by omega)]
  · intro i hi
    rw [getElem?_splice (by omega), hl]
    rcases hi with hi | hi
    · rw [if_pos hi]
    · rw [if_neg (by omega), if_neg (by omega)]

/-- C40: doing it twice restores the destination. -/
theorem C40_involutive (b : Bytes) (so dofs len : Nat) (dst : Bytes)
    (hs : so + len ≤ b.length) (hd : dofs + len ≤ dst.length) :
    ∃ dst', xorBytes (.other b) so dofs len dst = .ok () dst' ∧
      xorBytes (.other b) so dofs len dst' = .ok () dst := by
  obtain ⟨d1, h1, hl1, he1, ho1⟩ := C40_xor (.other b) so dofs len dst hs hd (by simp)
  obtain ⟨d2, h2, hl2, he2, ho2⟩ := C40_xor (.other b) so dofs len d1 hs (by omega) (by simp)
  refine ⟨d1, h1, ?_⟩
  rw [h2]
  congr 1
  apply List.ext_getElem?
  intro i
  by_cases hi : i < dofs ∨ dofs + len ≤ i
  · rw [ho2 i hi, ho1 i hi]
  · have e2 := he2 (i - dofs) (by omega)
    have e1 := he1 (i - dofs) (by omega)
    rw [show dofs + (i - dofs) = i by omega] at e1 e2
    rw [e2]
    rw [List.getElem!_eq_getElem?_getD, e1]
    rw [List.getElem?_eq_getElem (show i < dst.length by omega)]
    simp only [Option.getD_some, Src.read_other]
    rw [getElem!_pos dst i (by omega), BitVec.xor_assoc, BitVec.xor_self, BitVec.xor_zero]

/-- 70 bytes at equal alignment: the word loop is used. -/
example : ∃ d, xorBytes (.other (List.replicate 100 0x0f)) 3 11 70 (List.replicate 90 0xff)
    = .ok () d ∧ d[11]? = some 0xf0 ∧ d[80]? = some 0xf0 ∧ d[81]? = some 0xff := by
  obtain ⟨d, h1, _, h2, h3⟩ := C40_xor (.other (List.replicate 100 0x0f)) 3 11 70
    (List.replicate 90 0xff) (by simp) (by simp) (by simp)
  exact ⟨d, h1, (h2 0 (by omega)).trans (by rfl), (h2 69 (by omega)).trans (by rfl),
    (h3 81 (by omega)).trans (by rfl)⟩

example : seqEqual [1, 2, 3] [1, 2, 4] = some (false, [0, 1, 2]) := C39_equality _ _

end Verif
