import Verif.Spec.Blake3
import Verif.Model.Blake3
import Verif.Proof.Blake2
import Mathlib.Logic.Function.Iterate
/-
BLAKE3: the C compression function, and the output functions, are those of the specification.
-/
namespace Verif
open Spec

theorem b3G_eq {v : List W32} (i j k l : Nat) (x y : W32) (hv : v.length = 16)
    (h : i < 16 ∧ j < 16 ∧ k < 16 ∧ l < 16 ∧ i ≠ j ∧ i ≠ k ∧ i ≠ l ∧ j ≠ k ∧ j ≠ l ∧ k ≠ l) :
    b3G v i j k l x y = B3.G v i j k l x y := by
  have e : b3G v i j k l x y = blake2Mix blake2sCode v i j k l x y := by
    unfold b3G blake2Mix
    simp only [BitVec.add_assoc]
    rfl
  rw [e]
  exact blake2Mix_eq16 blake2s_conf i j k l x y hv h

theorem b3G_length (v : List W32) (i j k l : Nat) (x y : W32) :
    (B3.G v i j k l x y).length = v.length :=
  G_length (p := Spec.blake2s) v i j k l x y

theorem b3perm_getD (m : List W32) {j : Nat} (hj : j < 16) :
    (B3.permute m).getD j 0 = m.getD (B3.perm.getD j 0) 0 := by
  have : j < B3.perm.length := hj
  simp [B3.permute, List.getD_eq_getElem?_getD, this]

theorem b3sched_step : ∀ r < 6, ∀ j < 16,
    (b3Schedule.getD (r + 1) []).getD j 0 = (b3Schedule.getD r []).getD (B3.perm.getD j 0) 0 := by
  decide
theorem b3perm_lt : ∀ j < 16, B3.perm.getD j 0 < 16 := by decide
theorem b3sched_zero : ∀ j < 16, (b3Schedule.getD 0 []).getD j 0 = j := by decide

theorem b3sched (m : List W32) {r : Nat} (hr : r < 7) : ∀ {j : Nat}, j < 16 →
    m.getD ((b3Schedule.getD r []).getD j 0) 0 = (B3.permute^[r] m).getD j 0 := by
  induction r with
  | zero => intro j hj; rw [b3sched_zero j hj]; rfl
  | succ r ih =>
    intro j hj
    rw [Function.iterate_succ_apply', b3perm_getD _ hj, b3sched_step r (by omega) j hj]
    exact ih (by omega) (b3perm_lt j hj)

theorem b3Round_eq (m : List W32) {v : List W32} (hv : v.length = 16) {r : Nat} (hr : r < 7) :
    b3Round m v r = B3.round (B3.permute^[r] m) v := by
  unfold b3Round B3.round
  simp only
  rw [b3sched m hr (j := 0) (by decide), b3sched m hr (j := 1) (by decide),
    b3sched m hr (j := 2) (by decide), b3sched m hr (j := 3) (by decide),
    b3sched m hr (j := 4) (by decide), b3sched m hr (j := 5) (by decide),
    b3sched m hr (j := 6) (by decide), b3sched m hr (j := 7) (by decide),
    b3sched m hr (j := 8) (by decide), b3sched m hr (j := 9) (by decide),
    b3sched m hr (j := 10) (by decide), b3sched m hr (j := 11) (by decide),
    b3sched m hr (j := 12) (by decide), b3sched m hr (j := 13) (by decide),
    b3sched m hr (j := 14) (by decide), b3sched m hr (j := 15) (by decide)]
  rw [b3G_eq 0 4, b3G_eq 1 5, b3G_eq 2 6, b3G_eq 3 7, b3G_eq 0 5, b3G_eq 1 6, b3G_eq 2 7,
    b3G_eq 3 4]
  all_goals first | decide | simp only [b3G_length, hv]

theorem b3round_length (m v : List W32) : (B3.round m v).length = v.length := by
  unfold B3.round
  simp only [b3G_length]

theorem b3Iv_eq : b3Iv = B3.IV := blake2s_conf.iv

theorem b3words_eq {d : Bytes} (hd : d.length = 64) :
    (List.range 16).map (fun i => le32or (d.drop (4 * i))) = B3.toWords d := by
  have := blake2_words blake2s_conf (d := d) hd
  simp only [Nat.mul_comm _ blake2sCode.k] at this
  exact this

/-- Eight chaining words. -/
theorem list8 {α : Type _} {l : List α} (h : l.length = 8) (z : α) :
    l = [l.getD 0 z, l.getD 1 z, l.getD 2 z, l.getD 3 z, l.getD 4 z, l.getD 5 z, l.getD 6 z,
      l.getD 7 z] := by
  match l, h with
  | [_, _, _, _, _, _, _, _], _ => rfl

theorem b3CompressPre_eq {cv : List W32} {block : Bytes} (hcv : cv.length = 8)
    (hb : block.length = 64) (n : Nat) (t : W64) (f : BitVec 8) :
    b3CompressPre cv block n t f = B3.rounds 7 (B3.toWords block)
      (cv ++ B3.IV.take 4 ++ [t.setWidth 32, (t >>> 32).setWidth 32, BitVec.ofNat 32 n,
        f.setWidth 32]) := by
  have e : cv ++ B3.IV.take 4 ++ [t.setWidth 32, (t >>> 32).setWidth 32, BitVec.ofNat 32 n,
        f.setWidth 32] = [cv.getD 0 0, cv.getD 1 0, cv.getD 2 0, cv.getD 3 0, cv.getD 4 0,
        cv.getD 5 0, cv.getD 6 0, cv.getD 7 0, b3Iv.getD 0 0, b3Iv.getD 1 0, b3Iv.getD 2 0,
    b3Iv.getD 3 0, t.setWidth 32, (t >>> 32).setWidth 32, BitVec.ofNat 32 n, f.setWidth 32] := by
    conv => lhs; rw [list8 hcv 0, ← b3Iv_eq]
    rfl
  unfold b3CompressPre
  simp only
  rw [← e, b3words_eq hb]
  have hl : (cv ++ B3.IV.take 4 ++ [t.setWidth 32, (t >>> 32).setWidth 32, BitVec.ofNat 32 n,
        f.setWidth 32]).length = 16 := by rw [e]; rfl
  generalize (cv ++ B3.IV.take 4 ++ [t.setWidth 32, (t >>> 32).setWidth 32, BitVec.ofNat 32 n,
        f.setWidth 32]) = v at hl
  generalize B3.toWords block = m
  rw [b3Round_eq m (r := 0), b3Round_eq m (r := 1), b3Round_eq m (r := 2), b3Round_eq m (r := 3),
    b3Round_eq m (r := 4), b3Round_eq m (r := 5), b3Round_eq m (r := 6)]
  · rfl
  all_goals first | decide | simp only [b3round_length, hl]

theorem b3InPlace_eq {cv : List W32} {block : Bytes} (hcv : cv.length = 8)
    (hb : block.length = 64) (n : Nat) (t : W64) (f : BitVec 8) :
    b3CompressInPlace cv block n t f =
      (B3.compress cv (B3.toWords block) t (BitVec.ofNat 32 n) (f.setWidth 32)).take 8 := by
  unfold b3CompressInPlace B3.compress
  rw [b3CompressPre_eq hcv hb]
  simp

theorem b3InPlace_length (cv : List W32) (block : Bytes) (n : Nat) (t : W64) (f : BitVec 8) :
    (b3CompressInPlace cv block n t f).length = 8 := by
  simp [b3CompressInPlace]

theorem b3Xof_eq {cv : List W32} {block : Bytes} (hcv : cv.length = 8)
    (hb : block.length = 64) (n : Nat) (t : W64) (f : BitVec 8) :
    b3CompressXof cv block n t f =
      B3.ofWords (B3.compress cv (B3.toWords block) t (BitVec.ofNat 32 n) (f.setWidth 32)) := by
  unfold b3CompressXof B3.compress B3.ofWords
  rw [b3CompressPre_eq hcv hb]
  simp only [toLE32_eq, List.map_append, List.map_map, List.flatten_append]
  rfl

theorem b3StoreCv_eq {cv : List W32} (h : cv.length = 8) : b3StoreCv cv = B3.ofWords cv := by
  unfold b3StoreCv B3.ofWords
  conv => rhs; rw [list8 h 0]
  simp only [toLE32_eq]
  rfl

theorem b3LoadKey_eq {key : Bytes} (h : key.length = 32) : b3LoadKey key = B3.toWords key := by
  unfold b3LoadKey B3.toWords
  apply List.ext_getElem?
  intro i
  rw [List.getElem?_map, List.getElem?_map]
  by_cases hi : i < 8
  · rw [List.getElem?_range hi, chunks_getElem? (by decide) key i (by omega), Option.map_some,
      Option.map_some, le32or_eq (by rw [List.length_drop]; omega), Nat.mul_comm]
  · rw [List.getElem?_eq_none (by simp; omega), List.getElem?_eq_none]
    · rfl
    · rw [chunks_length (by decide), h]; omega

theorem ofWords_length (ws : List W32) : (B3.ofWords ws).length = 4 * ws.length := by
  unfold B3.ofWords
  induction ws with
  | nil => rfl
  | cons w ws ih =>
    simp only [List.map_cons, List.flatten_cons, List.length_append, ih, natToLE_length,
      List.length_cons]; omega

theorem ofWords_append (a b : List W32) : B3.ofWords (a ++ b) = B3.ofWords a ++ B3.ofWords b := by
  simp [B3.ofWords]

theorem toWords_ofWords (ws : List W32) : B3.toWords (B3.ofWords ws) = ws := by
  unfold B3.toWords
  induction ws with
  | nil => rw [show B3.ofWords [] = [] by rfl, chunks_nil]; rfl
  | cons w ws ih =>
    have e : B3.ofWords (w :: ws) = natToLE 4 w.toNat ++ B3.ofWords ws := by simp [B3.ofWords]
    rw [e, chunks_append (by decide) (natToLE_length 4 _), List.map_cons, ih, leNat_natToLE]
    congr 1
    apply BitVec.eq_of_toNat_eq
    have := w.isLt
    simp only [BitVec.toNat_ofNat]
    omega

theorem compress_length (h m : List W32) (t : W64) (b d : W32) :
    (B3.compress h m t b d).length = 16 := by simp [B3.compress]

theorem cv_length (n : B3.Node) : n.cv.length = 8 := by
  simp [B3.Node.cv, compress_length]

/-- The node whose last compression an `output_t` describes. -/
def B3Output.node (o : B3Output) : B3.Node :=
  ⟨o.inputCv, B3.toWords o.block, o.counter, BitVec.ofNat 32 o.blockLen, o.flags.setWidth 32⟩

structure B3Output.Ok (o : B3Output) : Prop where
  cv : o.inputCv.length = 8
  block : o.block.length = 64

theorem b3OutputCv_eq {o : B3Output} (h : o.Ok) : b3OutputCv o = B3.ofWords o.node.cv := by
  unfold b3OutputCv
  rw [b3InPlace_eq h.cv h.block, b3StoreCv_eq (by simp [compress_length])]
  rfl

theorem b3OutputCv_length {o : B3Output} (h : o.Ok) : (b3OutputCv o).length = 32 := by
  rw [b3OutputCv_eq h, ofWords_length, cv_length]

theorem rootBlock_length (n : B3.Node) (i : Nat) : (n.rootBlock i).length = 64 := by
  unfold B3.Node.rootBlock
  rw [ofWords_length, compress_length]

theorem b3RootLoop_eq {o : B3Output} (h : o.Ok) (len k : Nat) :
    b3RootLoop o len (BitVec.ofNat 64 k) 0 =
      (((List.range ((len + 63) / 64)).map fun i => o.node.rootBlock (k + i)).flatten).take len := by
  induction len using Nat.strongRecOn generalizing k with
  | _ len ih =>
    rw [b3RootLoop]
    by_cases h0 : len > 0
    · rw [dif_pos ⟨h0, by decide⟩]
      have hx : b3CompressXof o.inputCv o.block o.blockLen (BitVec.ofNat 64 k)
          (o.flags ||| b3Root) = o.node.rootBlock k := by
        rw [b3Xof_eq h.cv h.block]
        unfold B3.Node.rootBlock B3Output.node
        simp only [BitVec.setWidth_or]
        rfl
      simp only [hx, slice_zero]
      have hs : BitVec.ofNat 64 k + 1 = BitVec.ofNat 64 (k + 1) := by
        rw [BitVec.ofNat_add]; rfl
      rw [hs]
      have hr : (len + 63) / 64 = (len - 1) / 64 + 1 := by omega
      rw [hr, List.range_succ_eq_map]
      simp only [List.map_cons, List.map_map, List.flatten_cons, Nat.add_zero]
      split
      · next hl =>
        rw [show 64 - 0 = 64 by decide, ih (len - 64) (by omega) (k + 1)]
        have e1 : (o.node.rootBlock k).take 64 = o.node.rootBlock k :=
          List.take_of_length_le (by rw [rootBlock_length]; exact Nat.le_refl _)
        rw [e1, List.take_append, rootBlock_length]
        refine congrArg₂ (· ++ ·) ?_ ?_
        · rw [List.take_of_length_le (by rw [rootBlock_length]; omega)]
        · have e2 : (len - 64 + 63) / 64 = (len - 1) / 64 := by omega
          have e3 : (fun i => o.node.rootBlock (k + 1 + i))
              = (fun i => o.node.rootBlock (k + i)) ∘ Nat.succ := by
            funext i
            rw [Function.comp_apply, Nat.add_assoc, Nat.add_comm 1 i]
          rw [e2, e3]
      · next hl =>
        have e0 : len - len = 0 := by omega
        rw [e0, b3RootLoop, dif_neg (by omega), List.append_nil,
          List.take_append_of_le_length (by rw [rootBlock_length]; omega)]
    · have e0 : len = 0 := by omega
      subst e0
      rw [dif_neg (by omega)]
      simp

theorem b3RootBytes_eq {o : B3Output} (h : o.Ok) (len : Nat) :
    b3RootBytes o 0 len = o.node.output len := by
  unfold b3RootBytes
  rw [show 0 / 64 = 0 by decide, show 0 % 64 = 0 by decide, b3RootLoop_eq h len 0]
  unfold B3.Node.output
  simp only [Nat.zero_add]

theorem b3ParentOutput_ok {block : Bytes} {key : List W32} (flags : BitVec 8)
    (hb : block.length = 64) (hk : key.length = 8) : (b3ParentOutput block key flags).Ok :=
  ⟨hk, hb⟩

theorem b3ParentOutput_node {key l r : List W32} (flags : BitVec 8) :
    (b3ParentOutput (B3.ofWords l ++ B3.ofWords r) key flags).node
      = B3.parentNode key (flags.setWidth 32) l r := by
  unfold b3ParentOutput B3Output.node B3.parentNode
  simp only
  rw [← ofWords_append, toWords_ofWords, BitVec.setWidth_or]
  rfl

end Verif
