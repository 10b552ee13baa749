import Verif.Proof.Blake3Chunk
/-
BLAKE3: hashing of subtrees.
-/
namespace Verif
open Spec

theorem tree_small {key : List W32} {d : W32} {t : Nat} {m : Bytes} (h : m.length ≤ 1024) :
    B3.tree key d t m = B3.chunkNode key d t m := by
  rw [B3.tree, dif_pos h]

theorem tree_big {key : List W32} {d : W32} {t : Nat} {m : Bytes} (h : 1024 < m.length) :
    B3.tree key d t m = B3.parentNode key d (B3.tree key d t (m.take (B3.leftLen m.length))).cv
      (B3.tree key d (t + B3.leftLen m.length / 1024) (m.drop (B3.leftLen m.length))).cv := by
  rw [B3.tree, dif_neg (by omega)]

theorem b3LeftLen_eq {n : Nat} (h : 1024 < n) : b3LeftLen n = B3.leftLen n := by
  unfold b3LeftLen b3RoundDown B3.leftLen
  rw [Nat.one_shiftLeft, log2_or_one (by omega), Nat.mul_comm]

/-- The chaining value of a node, as stored. -/
def cvBytes (n : B3.Node) : Bytes := B3.ofWords n.cv

theorem cvBytes_length (n : B3.Node) : (cvBytes n).length = 32 := by
  rw [cvBytes, ofWords_length, cv_length]

/-- What `blake3_compress_subtree_wide` returns. -/
def wideOut (key : List W32) (d : W32) (t : Nat) (m : Bytes) : Bytes × Nat :=
  if m.length ≤ 1024 then (cvBytes (B3.tree key d t m), 1)
  else (cvBytes (B3.tree key d t (m.take (B3.leftLen m.length))) ++
    cvBytes (B3.tree key d (t + B3.leftLen m.length / 1024) (m.drop (B3.leftLen m.length))), 2)

theorem wideOut_small {key : List W32} {d : W32} {t : Nat} {m : Bytes} (h : m.length ≤ 1024) :
    wideOut key d t m = (cvBytes (B3.tree key d t m), 1) := by
  rw [wideOut, if_pos h]

theorem wideOut_big {key : List W32} {d : W32} {t : Nat} {m : Bytes} (h : ¬ m.length ≤ 1024) :
    wideOut key d t m = (cvBytes (B3.tree key d t (m.take (B3.leftLen m.length))) ++
      cvBytes (B3.tree key d (t + B3.leftLen m.length / 1024) (m.drop (B3.leftLen m.length))), 2) := by
  rw [wideOut, if_neg h]

theorem b3ChunksParallel_eq {e : B3Env} (he : 1 ≤ e.maxSimd) {key : List W32} (hk : key.length = 8)
    (t : Nat) (f : BitVec 8) {m : Bytes} (h0 : 0 < m.length) (h1 : m.length ≤ 1024) :
    b3ChunksParallel e m key (BitVec.ofNat 64 t) f =
      some (cvBytes (B3.tree key (f.setWidth 32) t m), 1) := by
  rw [tree_small h1]
  unfold b3ChunksParallel
  by_cases hf : m.length = 1024
  · have hc : b3CutChunks m = ([m], []) := by
      rw [b3CutChunks, if_pos (by omega), List.drop_eq_nil_of_le (by omega),
        List.take_of_length_le (by omega), b3CutChunks, if_neg (by simp)]
    rw [hc]
    simp only [List.length_singleton, List.length_nil]
    rw [if_neg (by omega), if_neg (by omega)]
    simp only [b3HashMany, List.append_nil]
    rw [show 1024 / 64 = 16 by decide, b3HashOne_chunk hk t f hf]
    rfl
  · have hc : b3CutChunks m = ([], m) := by
      rw [b3CutChunks, if_neg (by omega)]
    rw [hc]
    simp only [List.length_nil]
    rw [if_neg (by omega), if_pos h0]
    have hr := chunkRep_init key hk (BitVec.ofNat 64 t) f
      { b3ChunkInit key f with counter := BitVec.ofNat 64 t + BitVec.ofNat 64 0 } (by
        simp [b3ChunkInit])
    obtain ⟨c', h2, h3⟩ := b3ChunkUpdate_rep m hr
    rw [h2, Option.map_some, b3OutputCv_eq h3.out.1, h3.out.2]
    rfl

theorem slice_splice_zero {b x : Bytes} {o n : Nat} (h : o + n ≤ x.length) :
    slice (splice b 0 x) o n = slice x o n := by
  unfold splice slice
  rw [List.take_zero, List.nil_append, List.drop_append_of_le_length (by omega),
    List.take_append_of_le_length (by rw [List.length_drop]; omega)]

theorem or2_ge (e : B3Env) : 2 ≤ e.or2 := by
  unfold B3Env.or2; split <;> omega

/-- `compress_parents_parallel` on four children. -/
theorem b3Parents_four {e : B3Env} {key : List W32} (hk : key.length = 8) (f : BitVec 8)
    (a b c d : B3.Node) {children : Bytes} (hl : 128 ≤ children.length)
    (h : children.take 128 = cvBytes a ++ cvBytes b ++ (cvBytes c ++ cvBytes d)) :
    b3ParentsParallel e children 4 key f =
      some (cvBytes (B3.parentNode key (f.setWidth 32) a.cv b.cv) ++
        cvBytes (B3.parentNode key (f.setWidth 32) c.cv d.cv)) := by
  have l1 := cvBytes_length a
  have l2 := cvBytes_length b
  have l3 := cvBytes_length c
  have l4 := cvBytes_length d
  have e0 : slice children 0 64 = cvBytes a ++ cvBytes b := by
    rw [slice_zero, show children.take 64 = (children.take 128).take 64 by
      rw [List.take_take]; rfl, h, List.take_left' (by rw [List.length_append, l1, l2])]
  have e1 : slice children 64 64 = cvBytes c ++ cvBytes d := by
    show (children.drop 64).take (128 - 64) = _
    rw [← List.drop_take (l := children) (i := 64) (j := 128), h,
      List.drop_left' (by rw [List.length_append, l1, l2])]
  unfold b3ParentsParallel
  rw [if_neg (by have := or2_ge e; omega)]
  have r0 : cRead children (64 * (0 : Nat)) 64 = some (cvBytes a ++ cvBytes b) := by
    rw [← e0]; exact cRead_ok (o := 0) (by omega)
  have r1 : cRead children (64 * ((0 + 1 : Nat) : Int)) 64 = some (cvBytes c ++ cvBytes d) := by
    rw [← e1]; exact cRead_ok (o := 64) (by omega)
  have hb : b3ParentBlocks children (4 / 2) 0
      = some [cvBytes a ++ cvBytes b, cvBytes c ++ cvBytes d] := by
    show b3ParentBlocks children 2 0 = _
    rw [b3ParentBlocks, b3ParentBlocks, b3ParentBlocks, r0, r1]
  rw [hb]
  simp only [b3HashMany, List.append_nil]
  rw [if_neg (by decide)]
  simp only [Bool.false_eq_true, if_false]
  unfold cvBytes
  rw [b3HashOne_parent hk f _ _ (cv_length _) (cv_length _),
    b3HashOne_parent hk f _ _ (cv_length _) (cv_length _)]

/-- `compress_parents_parallel` on three children. -/
theorem b3Parents_three {e : B3Env} {key : List W32} (hk : key.length = 8) (f : BitVec 8)
    (a b c : B3.Node) {children : Bytes} (hl : 96 ≤ children.length)
    (h : children.take 96 = cvBytes a ++ cvBytes b ++ cvBytes c) :
    b3ParentsParallel e children 3 key f =
      some (cvBytes (B3.parentNode key (f.setWidth 32) a.cv b.cv) ++ cvBytes c) := by
  have l1 := cvBytes_length a
  have l2 := cvBytes_length b
  have l3 := cvBytes_length c
  have e0 : slice children 0 64 = cvBytes a ++ cvBytes b := by
    rw [slice_zero, show children.take 64 = (children.take 96).take 64 by
      rw [List.take_take]; rfl, h, List.take_left' (by rw [List.length_append, l1, l2])]
  have e1 : slice children 64 32 = cvBytes c := by
    show (children.drop 64).take (96 - 64) = _
    rw [← List.drop_take (l := children) (i := 64) (j := 96), h,
      List.drop_left' (by rw [List.length_append, l1, l2])]
  unfold b3ParentsParallel
  rw [if_neg (by have := or2_ge e; omega)]
  have r0 : cRead children (64 * (0 : Nat)) 64 = some (cvBytes a ++ cvBytes b) := by
    rw [← e0]; exact cRead_ok (o := 0) (by omega)
  have r1 : cRead children (2 * (((3 : Nat) : Int) / 2) * 32) 32 = some (cvBytes c) := by
    rw [← e1]; exact cRead_ok (o := 64) (by omega)
  have hb : b3ParentBlocks children (3 / 2) 0
      = some [cvBytes a ++ cvBytes b] := by
    show b3ParentBlocks children 1 0 = _
    rw [b3ParentBlocks, b3ParentBlocks, r0]
  rw [hb]
  simp only [b3HashMany, List.append_nil]
  rw [if_pos (by decide), r1, Option.map_some]
  unfold cvBytes
  rw [b3HashOne_parent hk f _ _ (cv_length _) (cv_length _)]

theorem leftLen_cases {n : Nat} (h : 1024 < n) :
    (B3.leftLen n = 1024 ∧ n ≤ 2048) ∨ (2048 ≤ B3.leftLen n) := by
  unfold B3.leftLen
  rcases Nat.eq_zero_or_pos (Nat.log2 ((n - 1) / 1024)) with h0 | h0
  · left
    rw [h0]
    refine ⟨rfl, ?_⟩
    have := (Nat.log2_lt (n := (n - 1) / 1024) (k := 1) (by omega)).1 (by omega)
    omega
  · right
    have : 2 ^ 1 ≤ 2 ^ Nat.log2 ((n - 1) / 1024) := Nat.pow_le_pow_right (by decide) h0
    omega

theorem b3Wide_eq {e : B3Env} (he : 1 ≤ e.maxSimd) {key : List W32} (hk : key.length = 8)
    (t : Nat) (f : BitVec 8) (m : Bytes) (h0 : 0 < m.length) :
    b3Wide e m key (BitVec.ofNat 64 t) f = some (wideOut key (f.setWidth 32) t m) := by
  induction hn : m.length using Nat.strongRecOn generalizing m t with
  | _ n ih =>
    rw [b3Wide]
    by_cases hs : m.length ≤ 1024
    · rw [dif_pos (by unfold b3SimdDegree; omega), b3ChunksParallel_eq he hk t f h0 hs, wideOut_small hs]
    · rw [dif_neg (by unfold b3SimdDegree; omega)]
      have hb := B3.leftLen_bounds (n := m.length) (by omega)
      have hc := leftLen_cases (n := m.length) (by omega)
      simp only [b3LeftLen_eq (n := m.length) (by omega)]
      have hl1 : (m.take (B3.leftLen m.length)).length = B3.leftLen m.length := by
        rw [List.length_take]; omega
      have hl2 : (m.drop (B3.leftLen m.length)).length = m.length - B3.leftLen m.length := by
        rw [List.length_drop]
      rw [← BitVec.ofNat_add, ih _ (by omega) t (m.take (B3.leftLen m.length)) (by omega) rfl,
        ih _ (by omega) (t + B3.leftLen m.length / 1024) (m.drop (B3.leftLen m.length)) (by omega)
          rfl]
      rw [wideOut_big hs]
      have hor := or2_ge e
      generalize hA : m.take (B3.leftLen m.length) = A at *
      generalize hB : m.drop (B3.leftLen m.length) = B at *
      generalize hL : B3.leftLen m.length = L at *
      have hcv := cvBytes_length
      rcases hc with ⟨hc1, hc2⟩ | hc
      · subst hc1
        rw [wideOut_small (m := A) (by omega), wideOut_small (m := B) (by omega)]
        simp only [b3SimdDegree]
        generalize B3.tree key (f.setWidth 32) t A = nA
        generalize B3.tree key (f.setWidth 32) _ B = nB
        rw [show (0 : Int) = ((0 : Nat) : Int) by rfl,
          cWrite_ok (by rw [List.length_replicate, hcv]; omega)]
        simp only
        rw [if_neg (by simp), show (((1 : Nat) : Int) * 32)
          = ((0 + (cvBytes nA).length : Nat) : Int) by rw [hcv]; rfl]
        rw [cWrite_ok (by
          rw [splice_length (by rw [List.length_replicate, hcv]; omega), List.length_replicate, hcv,
            hcv]
          omega)]
        simp only [if_true]
        rw [splice_splice_append (by rw [List.length_replicate, hcv, hcv]; omega),
          cRead_ok (by
            rw [splice_length (by
              rw [List.length_replicate, List.length_append, hcv, hcv]; omega),
              List.length_replicate]
            omega),
          slice_splice_zero (by rw [List.length_append, hcv, hcv]; decide),
          slice_full' (by rw [List.length_append, hcv, hcv])]
        rfl
      · rw [wideOut_big (m := A) (by omega)]
        have hda : 1024 < A.length := by omega
        rw [tree_big (m := A) hda]
        generalize B3.tree key (f.setWidth 32) t (A.take _) = a
        generalize B3.tree key (f.setWidth 32) _ (A.drop _) = b
        have hd : (((if L > 1024 ∧ b3SimdDegree = 1 then 2 else b3SimdDegree : Nat) : Int) * 32)
            = ((0 + (cvBytes a ++ cvBytes b).length : Nat) : Int) := by
          rw [if_pos ⟨by omega, rfl⟩, List.length_append, hcv, hcv]; rfl
        have hla : (cvBytes a ++ cvBytes b).length = 64 := by rw [List.length_append, hcv, hcv]
        have w1 : cWrite (List.replicate (2 * e.or2 * 32) e.junk) 0 (cvBytes a ++ cvBytes b)
            = some (splice (List.replicate (2 * e.or2 * 32) e.junk) 0 (cvBytes a ++ cvBytes b)) := by
          exact cWrite_ok (o := 0) (by rw [List.length_replicate, hla]; omega)
        by_cases hB1 : B.length ≤ 1024
        · rw [wideOut_small hB1]
          generalize B3.tree key (f.setWidth 32) _ B = c
          simp only
          rw [w1]
          simp only
          rw [hd, cWrite_ok (by
            rw [splice_length (by rw [List.length_replicate, hla]; omega), List.length_replicate,
              hla, hcv]
            omega)]
          simp only
          rw [splice_splice_append (by rw [List.length_replicate, hla, hcv]; omega),
            if_neg (by decide)]
          have hlx : (cvBytes a ++ cvBytes b ++ cvBytes c).length = 96 := by
            rw [List.length_append, hla, hcv]
          rw [b3Parents_three hk f a b c]
          · rfl
          · rw [splice_length (by rw [List.length_replicate, hlx]; omega), List.length_replicate]
            omega
          · rw [← slice_zero, slice_splice_zero (by omega), slice_full' hlx]
        · rw [wideOut_big hB1, tree_big (m := B) (by omega)]
          generalize B3.tree key (f.setWidth 32) _ (B.take _) = c
          generalize B3.tree key (f.setWidth 32) _ (B.drop _) = d
          have hlb : (cvBytes c ++ cvBytes d).length = 64 := by rw [List.length_append, hcv, hcv]
          simp only
          rw [w1]
          simp only
          rw [hd, cWrite_ok (by
            rw [splice_length (by rw [List.length_replicate, hla]; omega), List.length_replicate,
              hla, hlb]
            omega)]
          simp only
          rw [splice_splice_append (by rw [List.length_replicate, hla, hlb]; omega),
            if_neg (by decide)]
          have hlx : (cvBytes a ++ cvBytes b ++ (cvBytes c ++ cvBytes d)).length = 128 := by
            rw [List.length_append, hla, hlb]
          rw [b3Parents_four hk f a b c d]
          · rfl
          · rw [splice_length (by rw [List.length_replicate, hlx]; omega), List.length_replicate]
            omega
          · rw [← slice_zero, slice_splice_zero (by omega), slice_full' hlx]

theorem b3ToParentNode_eq {e : B3Env} (he : 1 ≤ e.maxSimd) {key : List W32} (hk : key.length = 8)
    (t : Nat) (f : BitVec 8) {m : Bytes} (h : 1024 < m.length) :
    b3ToParentNode e m key (BitVec.ofNat 64 t) f =
      some (cvBytes (B3.tree key (f.setWidth 32) t (m.take (B3.leftLen m.length))) ++
        cvBytes (B3.tree key (f.setWidth 32) (t + B3.leftLen m.length / 1024)
          (m.drop (B3.leftLen m.length)))) := by
  unfold b3ToParentNode
  rw [b3Wide_eq he hk t f m (by omega), wideOut_big (by omega)]
  generalize B3.tree key (f.setWidth 32) _ (m.take _) = a
  generalize B3.tree key (f.setWidth 32) _ (m.drop _) = b
  have hor := or2_ge e
  have hl : (cvBytes a ++ cvBytes b).length = 64 := by
    rw [List.length_append, cvBytes_length, cvBytes_length]
  simp only
  rw [show (0 : Int) = ((0 : Nat) : Int) by rfl,
    cWrite_ok (by rw [List.length_replicate, hl]; omega)]
  simp only
  rw [if_pos hor, b3Condense, dif_neg (by omega), show (0 : Int) = ((0 : Nat) : Int) by rfl,
    cRead_ok (by
      rw [splice_length (by rw [List.length_replicate, hl]; omega), List.length_replicate]; omega),
    slice_splice_zero (by omega), slice_full' hl]

end Verif
