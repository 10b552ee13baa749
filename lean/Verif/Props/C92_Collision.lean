import Verif.Spec.CallCollision
import Verif.Props.C28_Blake2
import Verif.Props.C29_Blake3
import Verif.Props.C79_Collision
import Verif.Props.C31_Hmac
/-
C92: a collision of BLAKE2 or BLAKE3 objects is a collision of the compression function, a collision of HMAC
objects is a collision of the hash function.
-/
namespace Verif
open Spec

/-! ### BLAKE3 -/

section B3
open Spec.B3

/-- No two different elements have the same chaining value. -/
def NoColl (l l' : List Node) : Prop := ∀ n ∈ l, ∀ n' ∈ l', n.cv = n'.cv → n = n'

theorem NoColl.mono {l l' k k' : List Node} (h : NoColl l l') (h1 : k ⊆ l) (h2 : k' ⊆ l') : NoColl k k' :=
  fun n hn n' hn' e => h n (h1 hn) n' (h2 hn') e

/-- The compressions of a chunk, last one first. -/
inductive Chained (key : List (BitVec 32)) : List Node → Prop
  | first {n : Node} : n.h = key → n.d &&& 1 = 1 → Chained key [n]
  | next {n p : Node} {l : List Node} : Chained key (p :: l) → n.h = p.cv → n.d &&& 1 = 0 → Chained key (n :: p :: l)

theorem chained_eq {key key' : List (BitVec 32)} {l l' : List Node} {n : Node} (h : Chained key (n :: l))
    (h' : Chained key' (n :: l')) (hc : NoColl l l') : l = l' ∧ key = key' := by
  induction l generalizing n l' with
  | nil =>
    cases h with
    | first h0 h1 =>
      cases h' with
      | first h0' => exact ⟨rfl, h0.symm.trans h0'⟩
      | next _ _ h2 => rw [h1] at h2; exact absurd h2 (by decide)
  | cons p l ih =>
    cases h with
    | next k1 k2 k3 =>
      cases h' with
      | first _ h2 => rw [k3] at h2; exact absurd h2 (by decide)
      | @next _ p' l' g1 g2 g3 =>
        obtain rfl : p = p' := hc p (by simp) p' (by simp) (k2.symm.trans g2)
        obtain ⟨rfl, hk⟩ := ih k1 g1 (hc.mono (by simp) (by simp))
        exact ⟨rfl, hk⟩

/-- The mode flags. -/
def IsMode (d : BitVec 32) : Prop := d = 0 ∨ d = KEYED_HASH

theorem chunk_chained {key : List (BitVec 32)} {d : BitVec 32} (hd : IsMode d) (t : BitVec 64) (c : Bytes) :
    ∀ (h : List (BitVec 32)) (start : BitVec 32) (P : List Node),
      (P = [] ∧ h = key ∧ start = CHUNK_START) ∨ (∃ p l, P = p :: l ∧ Chained key P ∧ h = p.cv ∧ start = 0) →
      Chained key (chunkFrom h t d start c :: ((chunkCalls h t d start c).reverse ++ P)) := by
  induction hc : c.length using Nat.strongRecOn generalizing c with
  | _ k ih =>
    intro h start P hP
    by_cases hl : c.length ≤ 64
    · rw [chunkFrom_short hl, chunkCalls, if_pos hl, List.reverse_nil, List.nil_append]
      rcases hP with ⟨rfl, rfl, rfl⟩ | ⟨p, l, rfl, h1, rfl, rfl⟩
      · exact .first rfl (by rcases hd with rfl | rfl <;> (simp only; decide))
      · exact .next h1 rfl (by rcases hd with rfl | rfl <;> (simp only; decide))
    · rw [chunkFrom_long (by omega), chunkCalls, if_neg hl]
      simp only [List.reverse_cons, List.append_assoc, List.singleton_append]
      refine ih (c.drop 64).length (by rw [List.length_drop]; omega) _ rfl _ _ _ (.inr ⟨_, _, rfl, ?_, rfl, rfl⟩)
      rcases hP with ⟨rfl, rfl, rfl⟩ | ⟨p, l, rfl, h1, rfl, rfl⟩
      · exact .first rfl (by rcases hd with rfl | rfl <;> (simp only; decide))
      · exact .next h1 rfl (by rcases hd with rfl | rfl <;> (simp only; decide))

theorem toWords_inj4 {n : Nat} {a b : Bytes} (ha : a.length = 4 * n) (hb : b.length = 4 * n) (h : toWords a = toWords b) :
    a = b := by
  have key : ∀ (k : Nat) (a b : Bytes), a.length = 4 * k → b.length = 4 * k → toWords a = toWords b → a = b := by
    intro k
    induction k with
    | zero =>
      intro a b ha hb _
      rw [List.length_eq_zero_iff.1 (by omega : a.length = 0), List.length_eq_zero_iff.1 (by omega : b.length = 0)]
    | succ k ih =>
      intro a b ha hb h
      have na : a ≠ [] := by rintro rfl; simp at ha
      have nb : b ≠ [] := by rintro rfl; simp at hb
      unfold toWords at h
      rw [chunks_cons (by decide) na, chunks_cons (by decide) nb, List.map_cons, List.map_cons] at h
      obtain ⟨h1, h2⟩ := List.cons.inj h
      have l1 : (a.take 4).length = 4 := by simp; omega
      have l2 : (b.take 4).length = 4 := by simp; omega
      have b1 := leNat_lt (a.take 4)
      have b2 := leNat_lt (b.take 4)
      rw [l1] at b1
      rw [l2] at b2
      have e := congrArg BitVec.toNat h1
      simp only [BitVec.toNat_ofNat] at e
      rw [Nat.mod_eq_of_lt (by omega), Nat.mod_eq_of_lt (by omega)] at e
      have e1 : a.take 4 = b.take 4 := by
        rw [← natToLE_leNat (a.take 4), ← natToLE_leNat (b.take 4), l1, l2, e]
      have e2 := ih (a.drop 4) (b.drop 4) (by simp; omega) (by simp; omega) h2
      rw [← List.take_append_drop 4 a, ← List.take_append_drop 4 b, e1, e2]
  exact key n a b ha hb h

theorem toWords_inj {a b : Bytes} (ha : a.length = 64) (hb : b.length = 64) (h : toWords a = toWords b) : a = b :=
  toWords_inj4 (n := 16) ha hb h

theorem chunk_inj {d : BitVec 32} (c : Bytes) : ∀ (h h' : List (BitVec 32)) (t t' : BitVec 64) (start start' : BitVec 32)
    (c' : Bytes), chunkCalls h t d start c = chunkCalls h' t' d start' c' →
      chunkFrom h t d start c = chunkFrom h' t' d start' c' → c = c' := by
  induction hc : c.length using Nat.strongRecOn generalizing c with
  | _ k ih =>
    intro h h' t t' start start' c' e1 e2
    by_cases hl : c.length ≤ 64
    · by_cases hl' : c'.length ≤ 64
      · rw [chunkFrom_short hl, chunkFrom_short hl'] at e2
        injection e2 with _ e3 _ e4 _
        have e5 := toWords_inj (pad64_length hl) (pad64_length hl') e3
        have e6 : c.length = c'.length := by
          have := congrArg BitVec.toNat e4
          simp only [BitVec.toNat_ofNat] at this
          omega
        exact (List.append_inj e5 e6).1
      · rw [chunkCalls, if_pos hl] at e1
        rw [chunkCalls, if_neg hl'] at e1
        cases e1
    · by_cases hl' : c'.length ≤ 64
      · rw [chunkCalls, if_neg hl] at e1
        rw [chunkCalls, if_pos hl'] at e1
        cases e1
      · rw [chunkCalls, if_neg hl] at e1
        conv at e1 => rhs; rw [chunkCalls, if_neg hl']
        rw [chunkFrom_long (by omega)] at e2
        conv at e2 => rhs; rw [chunkFrom_long (by omega)]
        obtain ⟨e3, e4⟩ := List.cons.inj e1
        injection e3 with _ e5 _ _ _
        have e6 := toWords_inj (by simp; omega) (by simp; omega) e5
        have e7 := ih (c.drop 64).length (by rw [List.length_drop]; omega) (c.drop 64) rfl _ _ _ _ _ _ _ e4 e2
        rw [← List.take_append_drop 64 c, ← List.take_append_drop 64 c', e6, e7]

theorem chunkFrom_d (d : BitVec 32) (t : BitVec 64) (c : Bytes) : ∀ (h : List (BitVec 32)) (start : BitVec 32),
    (chunkFrom h t d start c).d = d ||| start ||| CHUNK_END ∨ (chunkFrom h t d start c).d = d ||| 0 ||| CHUNK_END := by
  induction hc : c.length using Nat.strongRecOn generalizing c with
  | _ k ih =>
    intro h start
    by_cases hl : c.length ≤ 64
    · rw [chunkFrom_short hl]; exact .inl rfl
    · rw [chunkFrom_long (by omega)]
      rcases ih (c.drop 64).length (by rw [List.length_drop]; omega) (c.drop 64) rfl
        ((compress h (toWords (c.take 64)) t 64 (d ||| start)).take 8) 0 with h | h <;> exact .inr h

theorem chunkFrom_t (d : BitVec 32) (t : BitVec 64) (c : Bytes) : ∀ (h : List (BitVec 32)) (start : BitVec 32),
    (chunkFrom h t d start c).t = t := by
  induction hc : c.length using Nat.strongRecOn generalizing c with
  | _ k ih =>
    intro h start
    by_cases hl : c.length ≤ 64
    · rw [chunkFrom_short hl]
    · rw [chunkFrom_long (by omega)]
      exact ih (c.drop 64).length (by rw [List.length_drop]; omega) (c.drop 64) rfl _ _

/-- Equal nodes of messages come from a collision, unless the keys and messages are equal. -/
theorem tree_inj {key key' : List (BitVec 32)} {d : BitVec 32} (hd : IsMode d) (m : Bytes) : ∀ (t t' : Nat) (m' : Bytes),
    NoColl (innerCalls key d t m) (innerCalls key' d t' m') → tree key d t m = tree key' d t' m' →
      m = m' ∧ key = key' := by
  induction hm : m.length using Nat.strongRecOn generalizing m with
  | _ k ih =>
    intro t t' m' hc he
    by_cases hl : m.length ≤ 1024
    · by_cases hl' : m'.length ≤ 1024
      · rw [innerCalls, dif_pos hl] at hc
        rw [innerCalls, dif_pos hl'] at hc
        rw [tree, dif_pos hl] at he
        conv at he => rhs; rw [tree, dif_pos hl']
        unfold chunkNode at he
        have h1 := chunk_chained (key := key) hd (BitVec.ofNat 64 t) m key CHUNK_START [] (.inl ⟨rfl, rfl, rfl⟩)
        have h2 := chunk_chained (key := key') hd (BitVec.ofNat 64 t') m' key' CHUNK_START [] (.inl ⟨rfl, rfl, rfl⟩)
        rw [he] at h1
        obtain ⟨h3, h4⟩ := chained_eq h1 h2 (hc.mono (by intro x; simp) (by intro x; simp))
        simp only [List.append_nil, List.reverse_inj] at h3
        exact ⟨chunk_inj m _ _ _ _ _ _ m' h3 he, h4⟩
      · rw [tree, dif_pos hl] at he
        conv at he => rhs; rw [tree, dif_neg hl']
        have h1 := chunkFrom_d d (BitVec.ofNat 64 t) m key CHUNK_START
        unfold chunkNode at he
        rw [he] at h1
        simp only [parentNode] at h1
        exfalso
        rcases hd with rfl | rfl <;> rcases h1 with h1 | h1 <;> exact absurd h1 (by decide)
    · by_cases hl' : m'.length ≤ 1024
      · rw [tree, dif_neg hl] at he
        conv at he => rhs; rw [tree, dif_pos hl']
        have h1 := chunkFrom_d d (BitVec.ofNat 64 t') m' key' CHUNK_START
        unfold chunkNode at he
        rw [← he] at h1
        simp only [parentNode] at h1
        exfalso
        rcases hd with rfl | rfl <;> rcases h1 with h1 | h1 <;> exact absurd h1 (by decide)
      · rw [innerCalls, dif_neg hl] at hc
        rw [innerCalls, dif_neg hl'] at hc
        rw [tree, dif_neg hl] at he
        conv at he => rhs; rw [tree, dif_neg hl']
        simp only [parentNode] at he hc
        injection he with e0 e1 _ _ _
        obtain ⟨e2, e3⟩ := List.append_inj e1 (by rw [cv_length, cv_length])
        have b1 := leftLen_bounds (n := m.length) (by omega)
        have e4 := hc _ (by simp) _ (by simp) e2
        have e5 := hc _ (by simp) _ (by simp) e3
        have e6 := ih (m.take (leftLen m.length)).length (by rw [List.length_take]; omega) _ rfl _ _ _
          (hc.mono (by intro x hx; simp [hx]) (by intro x hx; simp [hx])) e4
        have e7 := ih (m.drop (leftLen m.length)).length (by rw [List.length_drop]; omega) _ rfl _ _ _
          (hc.mono (by intro x hx; simp [hx]) (by intro x hx; simp [hx])) e5
        refine ⟨?_, e0⟩
        rw [← List.take_append_drop (leftLen m.length) m, e6.1, e7.1, List.take_append_drop]

theorem tree_d {key : List (BitVec 32)} {d : BitVec 32} (hd : IsMode d) (t : Nat) (m : Bytes) :
    (tree key d t m).d ∈ [3#32, 2#32, 4#32, 19#32, 18#32, 20#32] := by
  rw [tree]
  split
  · have h1 := chunkFrom_d d (BitVec.ofNat 64 t) m key CHUNK_START
    unfold chunkNode
    rcases h1 with h1 | h1 <;> rw [h1] <;> rcases hd with rfl | rfl <;> decide
  · simp only [parentNode]
    rcases hd with rfl | rfl <;> decide

theorem tree_d_mode {key key' : List (BitVec 32)} {d d' : BitVec 32} (hd : IsMode d) (hd' : IsMode d') (t t' : Nat)
    (m m' : Bytes) (h : (tree key d t m).d = (tree key' d' t' m').d) : d = d' := by
  have flag : ∀ (key : List (BitVec 32)) (d : BitVec 32) (t : Nat) (m : Bytes), IsMode d →
      (tree key d t m).d &&& 16 = d := by
    intro key d t m hd
    rw [tree]
    split
    · have h1 := chunkFrom_d d (BitVec.ofNat 64 t) m key CHUNK_START
      unfold chunkNode
      rcases h1 with h1 | h1 <;> rw [h1] <;> rcases hd with rfl | rfl <;> decide
    · simp only [parentNode]
      rcases hd with rfl | rfl <;> decide
  have h1 := flag key d t m hd
  rw [h, flag key' d' t' m' hd'] at h1
  exact h1.symm

theorem tree_t (key : List (BitVec 32)) (d : BitVec 32) (m : Bytes) : (tree key d 0 m).t = 0 := by
  rw [tree]
  split
  · exact chunkFrom_t d _ m key _
  · rfl

/-- The first 32 bytes of the result are the chaining value of the last compression. -/
theorem output_take (n : Node) {k : Nat} (hk : 32 ≤ k) :
    (n.output k).take 32 = ofWords ({ n with t := 0, d := n.d ||| ROOT } : Node).cv := by
  unfold Node.output
  obtain ⟨j, hj⟩ : ∃ j, (k + 63) / 64 = j + 1 := ⟨(k + 63) / 64 - 1, by omega⟩
  rw [hj, List.range_succ_eq_map, List.map_cons, List.flatten_cons, List.take_take, Nat.min_eq_left hk,
    List.take_append_of_le_length (by rw [rootBlock_length]; decide)]
  unfold Node.rootBlock Node.cv
  simp only [BitVec.ofNat_eq_ofNat]
  generalize hw : compress n.h n.m 0#64 n.b (n.d ||| ROOT) = ws
  have hlen : ws.length = 16 := by rw [← hw]; exact compress_length _ _ _ _ _
  conv => lhs; rw [← List.take_append_drop 8 ws, ofWords_append]
  rw [List.take_append_of_le_length (by rw [ofWords_length, List.length_take]; omega), List.take_of_length_le]
  rw [ofWords_length, List.length_take]; omega

theorem isMode_modeFlag (key : Bytes) : IsMode (modeFlag key) := by
  unfold modeFlag; split
  · exact .inl rfl
  · exact .inr rfl

theorem keyWords_inj {key key' : Bytes} (hk : key.length = 0 ∨ key.length = 32) (hk' : key'.length = 0 ∨ key'.length = 32)
    (h1 : modeFlag key = modeFlag key') (h2 : keyWords key = keyWords key') : key = key' := by
  unfold modeFlag at h1
  unfold keyWords at h2
  by_cases h : key = []
  · by_cases h' : key' = []
    · rw [h, h']
    · rw [if_pos h, if_neg h'] at h1; exact absurd h1 (by decide)
  · by_cases h' : key' = []
    · rw [if_neg h, if_pos h'] at h1; exact absurd h1 (by decide)
    · rw [if_neg h, if_neg h'] at h2
      have n1 : key.length ≠ 0 := fun e => h (List.length_eq_zero_iff.1 e)
      have n2 : key'.length ≠ 0 := fun e => h' (List.length_eq_zero_iff.1 e)
      exact toWords_inj4 (n := 8) (by omega) (by omega) h2

theorem flags_inj : ∀ x ∈ [3#32, 2#32, 4#32, 19#32, 18#32, 20#32], ∀ y ∈ [3#32, 2#32, 4#32, 19#32, 18#32, 20#32],
    x ||| ROOT = y ||| ROOT → x = y := by
  simp only [List.mem_cons, List.not_mem_nil, or_false]
  rintro x (rfl | rfl | rfl | rfl | rfl | rfl) y (rfl | rfl | rfl | rfl | rfl | rfl) <;> decide

theorem blake3_root {key key' m m' : Bytes} (hk : key.length = 0 ∨ key.length = 32)
    (hk' : key'.length = 0 ∨ key'.length = 32) (hne : ¬ (key = key' ∧ m = m'))
    (e3 : rootCall key m = rootCall key' m') : CollisionIn Node.cv (B3.inner key m) (B3.inner key' m') := by
  apply Classical.byContradiction
  intro hn
  have hc : NoColl (B3.inner key m) (B3.inner key' m') := by
    intro n h1 n' h2 e
    apply Classical.byContradiction
    intro h3
    exact hn ⟨n, h1, n', h2, h3, e⟩
  have hd := isMode_modeFlag key
  have hd' := isMode_modeFlag key'
  have d1 := tree_d (key := keyWords key) hd 0 m
  have d2 := tree_d (key := keyWords key') hd' 0 m'
  have t1 := tree_t (keyWords key) (modeFlag key) m
  have t2 := tree_t (keyWords key') (modeFlag key') m'
  unfold rootCall at e3
  have e4 : tree (keyWords key) (modeFlag key) 0 m = tree (keyWords key') (modeFlag key') 0 m' := by
    clear hc hn
    generalize tree (keyWords key) (modeFlag key) 0 m = n at *
    generalize tree (keyWords key') (modeFlag key') 0 m' = n' at *
    obtain ⟨h, w, t, b, d⟩ := n
    obtain ⟨h', w', t', b', d'⟩ := n'
    simp only at e3 d1 d2 t1 t2
    injection e3 with f1 f2 f3 f4 f5
    rw [f1, f2, f4, t1, t2, flags_inj d d1 d' d2 f5]
  have hmode := tree_d_mode hd hd' 0 0 m m' (congrArg Node.d e4)
  unfold B3.inner at hc
  rw [← hmode] at hc e4
  obtain ⟨h1, h2⟩ := tree_inj hd m 0 0 m' hc e4
  exact hne ⟨keyWords_inj hk hk' hmode h2, h1⟩

theorem blake3_same {k : Nat} {key key' m m' : Bytes} (he : BLAKE3 k key m = BLAKE3 k key' m') :
    (ofWords (rootCall key m).cv).take k = (ofWords (rootCall key' m').cv).take k := by
  have h1 := congrArg (List.take 32) he
  unfold BLAKE3 at h1
  have step : ∀ n : Node, (n.output k).take 32 = (ofWords ({ n with t := 0, d := n.d ||| ROOT } : Node).cv).take k := by
    intro n
    by_cases hk : 32 ≤ k
    · rw [output_take n hk, List.take_of_length_le]
      rw [ofWords_length, cv_length]; omega
    · have h2 : n.output k = (n.output 32).take k := by
        unfold Node.output
        rw [List.take_take, Nat.min_eq_left (by omega)]
        by_cases h0 : k = 0
        · simp [h0]
        · rw [show (k + 63) / 64 = (32 + 63) / 64 by omega]
      rw [h2, List.take_take, Nat.min_comm, ← List.take_take, output_take n (by omega)]
  rw [step, step] at h1
  exact h1

theorem blake3_collision {k : Nat} {key key' m m' : Bytes} (hk : key.length = 0 ∨ key.length = 32)
    (hk' : key'.length = 0 ∨ key'.length = 32) (hne : ¬ (key = key' ∧ m = m'))
    (he : BLAKE3 k key m = BLAKE3 k key' m') :
    CollisionIn Node.cv (B3.inner key m) (B3.inner key' m') ∨
      (rootCall key m ≠ rootCall key' m' ∧
        (ofWords (rootCall key m).cv).take k = (ofWords (rootCall key' m').cv).take k) := by
  by_cases h : rootCall key m = rootCall key' m'
  · exact .inl (blake3_root hk hk' hne h)
  · exact .inr ⟨h, blake3_same he⟩

theorem ofWords_inj {a b : List (BitVec 32)} (h : ofWords a = ofWords b) : a = b := by
  rw [← toWords_ofWords a, ← toWords_ofWords b, h]

theorem blake3_collision_full {k : Nat} (hk32 : 32 ≤ k) {key key' m m' : Bytes} (hk : key.length = 0 ∨ key.length = 32)
    (hk' : key'.length = 0 ∨ key'.length = 32) (hne : ¬ (key = key' ∧ m = m'))
    (he : BLAKE3 k key m = BLAKE3 k key' m') :
    CollisionIn Node.cv (B3.hashCalls key m) (B3.hashCalls key' m') := by
  rcases blake3_collision hk hk' hne he with ⟨x, h1, y, h2, h3⟩ | ⟨h1, h2⟩
  · exact ⟨x, List.mem_append_left _ h1, y, List.mem_append_left _ h2, h3⟩
  · refine ⟨_, List.mem_append_right _ (List.mem_singleton_self _), _,
      List.mem_append_right _ (List.mem_singleton_self _), h1, ofWords_inj ?_⟩
    rwa [List.take_of_length_le (by rw [ofWords_length, cv_length]; omega),
      List.take_of_length_le (by rw [ofWords_length, cv_length]; omega)] at h2

theorem b3New_key {key : Bytes} {sz : Int} {stack0 : Bytes} {s : Option B3Hasher} (h : b3New key sz stack0 = .ok s) :
    key.length = 0 ∨ key.length = 32 := by
  unfold b3New at h
  split at h
  · next hk => exact hk.2.2
  · cases h

/-- C92 for BLAKE3, with or without key: if two objects with the same size of result give the same result
although their keys or the data added differ, then either two different applications of the compression
function before the last one, in the two computations, have the same chaining value (32 bytes), or the
last ones differ and agree on as many bytes as the result has (at most 32). -/
theorem C92_blake3 (e : B3Env) (he : 1 ≤ e.maxSimd) (key key' : Bytes) (sz : Int) (stack0 stack0' : Bytes)
    (hs : stack0.length = 1760) (hs' : stack0'.length = 1760) (s s' : Option B3Hasher)
    (h : b3New key sz stack0 = .ok s) (h' : b3New key' sz stack0' = .ok s') (ops ops' : List HOp)
    (hl : ∀ op ∈ ops, op.Legal) (hl' : ∀ op ∈ ops', op.Legal)
    (hlt : (hinputOf ops).length < 2 ^ 64) (hlt' : (hinputOf ops').length < 2 ^ 64)
    (hne : ¬ (key = key' ∧ hinputOf ops = hinputOf ops'))
    (heq : ((b3Class e sz).digest ops s).observe = ((b3Class e sz).digest ops' s').observe) :
    CollisionIn B3.Node.cv (B3.inner key (hinputOf ops)) (B3.inner key' (hinputOf ops')) ∨
      (B3.rootCall key (hinputOf ops) ≠ B3.rootCall key' (hinputOf ops') ∧
        (B3.ofWords (B3.rootCall key (hinputOf ops)).cv).take (sz / 8).toNat =
          (B3.ofWords (B3.rootCall key' (hinputOf ops')).cv).take (sz / 8).toNat) := by
  refine blake3_collision (b3New_key h) (b3New_key h') hne ?_
  rw [C29_blake3 e he key sz stack0 hs s h ops hl hlt, C29_blake3 e he key' sz stack0' hs' s' h' ops' hl' hlt'] at heq
  simpa using heq

/-- C92 for BLAKE3 with a result of 256 bits at least: a collision of two objects, with any keys, is a collision
of the compression function. -/
theorem C92_blake3_256 (e : B3Env) (he : 1 ≤ e.maxSimd) (key key' : Bytes) (sz : Int) (hsz : 256 ≤ sz)
    (stack0 stack0' : Bytes)
    (hs : stack0.length = 1760) (hs' : stack0'.length = 1760) (s s' : Option B3Hasher)
    (h : b3New key sz stack0 = .ok s) (h' : b3New key' sz stack0' = .ok s') (ops ops' : List HOp)
    (hl : ∀ op ∈ ops, op.Legal) (hl' : ∀ op ∈ ops', op.Legal)
    (hlt : (hinputOf ops).length < 2 ^ 64) (hlt' : (hinputOf ops').length < 2 ^ 64)
    (hne : ¬ (key = key' ∧ hinputOf ops = hinputOf ops'))
    (heq : ((b3Class e sz).digest ops s).observe = ((b3Class e sz).digest ops' s').observe) :
    CollisionIn B3.Node.cv (B3.hashCalls key (hinputOf ops)) (B3.hashCalls key' (hinputOf ops')) := by
  refine blake3_collision_full (k := (sz / 8).toNat) (by omega) (b3New_key h) (b3New_key h') hne ?_
  rw [C29_blake3 e he key sz stack0 hs s h ops hl hlt, C29_blake3 e he key' sz stack0' hs' s' h' ops' hl' hlt'] at heq
  simpa using heq

end B3

/-! ### BLAKE2 -/

section B2
variable (p : Blake2Params)

theorem F_counter (h : List (BitVec p.w)) (d : Bytes) (t : Nat) (f : Bool) :
    p.F h d (BitVec.ofNat (2 * p.w) t).toNat f = p.F h d t f := by
  have e1 : BitVec.ofNat p.w (t % 2 ^ (2 * p.w)) = BitVec.ofNat p.w t := by
    apply BitVec.eq_of_toNat_eq
    rw [BitVec.toNat_ofNat, BitVec.toNat_ofNat, Nat.mod_mod_of_dvd _ (Nat.pow_dvd_pow 2 (by omega))]
  have e2 : BitVec.ofNat p.w (t % 2 ^ (2 * p.w) / 2 ^ p.w) = BitVec.ofNat p.w (t / 2 ^ p.w) := by
    apply BitVec.eq_of_toNat_eq
    rw [BitVec.toNat_ofNat, BitVec.toNat_ofNat, Nat.two_mul, Nat.pow_add, Nat.mod_mul_right_div_self, Nat.mod_mod]
  unfold Blake2Params.F
  rw [BitVec.toNat_ofNat, e1, e2]

/-- Equal results of chains of the same number of blocks come from a collision, or from equal blocks. -/
theorem absorb_inj (L L' : List Bytes) (hlen : L.length = L'.length) : ∀ (i : Nat) (h h' : List (BitVec p.w)),
    ¬ CollisionIn p.Fcall (p.absorbCalls i h L) (p.absorbCalls i h' L') → p.absorb i h L = p.absorb i h' L' →
      h = h' ∧ L = L' := by
  induction L generalizing L' with
  | nil =>
    intro i h h' _ he
    obtain rfl := List.length_eq_zero_iff.1 hlen.symm
    exact ⟨he, rfl⟩
  | cons d L ih =>
    intro i h h' hc he
    cases L' with
    | nil => cases hlen
    | cons d' L' =>
      simp only [Blake2Params.absorbCalls] at hc
      simp only [Blake2Params.absorb] at he
      obtain ⟨h1, rfl⟩ := ih L' (by simpa using hlen) _ _ _
        (fun ⟨x, h1, y, h2, h3⟩ => hc ⟨x, List.mem_cons_of_mem _ h1, y, List.mem_cons_of_mem _ h2, h3⟩) he
      have h2 : (h, d, BitVec.ofNat (2 * p.w) ((i + 1) * p.bb), false) = (h', d', BitVec.ofNat (2 * p.w) ((i + 1) * p.bb), false) := by
        apply Classical.byContradiction
        intro hn
        refine hc ⟨_, List.mem_cons_self, _, List.mem_cons_self, hn, ?_⟩
        simp only [Blake2Params.Fcall, F_counter]
        exact h1
      simp only [Prod.mk.injEq, and_true] at h2
      exact ⟨h2.1, by rw [h2.2]⟩

theorem padBlocks_flatten (hb : 0 < p.bb) (m : Bytes) :
    ∃ z, (((chunks p.bb m).map p.padBlock).flatten) = m ++ z := by
  induction hm : m.length using Nat.strongRecOn generalizing m with
  | _ k ih =>
    by_cases h0 : m = []
    · subst h0; exact ⟨[], by rw [chunks_nil]; rfl⟩
    · rw [chunks_cons hb h0, List.map_cons, List.flatten_cons]
      by_cases hl : m.length ≤ p.bb
      · rw [List.drop_eq_nil_of_le hl, chunks_nil, List.take_of_length_le hl]
        exact ⟨_, by simp only [List.map_nil, List.flatten_nil, List.append_nil]; rfl⟩
      · obtain ⟨z, hz⟩ := ih (m.drop p.bb).length
          (by rw [List.length_drop]; have := List.length_pos_iff.2 h0; omega) (m.drop p.bb) rfl
        refine ⟨z, ?_⟩
        rw [hz]
        unfold Blake2Params.padBlock
        rw [List.length_take, Nat.min_eq_left (by omega), Nat.sub_self, List.replicate_zero, List.append_nil,
          ← List.append_assoc, List.take_append_drop]

/-- Number of bytes counted by the last call. -/
def b2Count (key m : Bytes) : Nat := if key.length = 0 then m.length else m.length + p.bb

theorem blocks_ne (key m : Bytes) : p.blocks key m ≠ [] := by
  unfold Blake2Params.blocks
  simp only
  generalize (if key.length > 0 then [p.padBlock key] else []) ++ (chunks p.bb m).map p.padBlock = bs
  by_cases h : bs = []
  · rw [if_pos h]; simp
  · rwa [if_neg h]

theorem blocks_count (hb : 0 < p.bb) (key m : Bytes) :
    (p.blocks key m).length = if b2Count p key m = 0 then 1 else (b2Count p key m + p.bb - 1) / p.bb := by
  unfold Blake2Params.blocks b2Count
  by_cases hk : key.length = 0
  · by_cases hm : m = []
    · subst hm
      simp [hk, chunks_nil]
    · have hm' : m.length ≠ 0 := fun h => hm (List.length_eq_zero_iff.1 h)
      have hne : (chunks p.bb m).map p.padBlock ≠ [] := by
        rw [chunks_cons hb hm]; simp
      simp only [hk, Nat.lt_irrefl, gt_iff_lt, if_false, List.nil_append, if_neg hne, if_true, if_neg hm']
      rw [List.length_map, chunks_length hb]
  · have h1 : key.length > 0 := by omega
    have h2 : ¬ m.length + p.bb = 0 := by omega
    simp only [if_pos h1, List.singleton_append, List.cons_ne_nil, if_false, if_neg hk, if_neg h2]
    rw [List.length_cons, List.length_map, chunks_length hb,
      show m.length + p.bb + p.bb - 1 = (m.length + p.bb - 1) + p.bb by omega, Nat.add_div_right _ hb]

theorem blocks_inj (hb : 0 < p.bb) {key key' m m' : Bytes} (hk : key.length = key'.length) (hm : m.length = m'.length)
    (h : p.blocks key m = p.blocks key' m') : key = key' ∧ m = m' := by
  have tail : (chunks p.bb m).map p.padBlock = (chunks p.bb m').map p.padBlock → m = m' := by
    intro e
    obtain ⟨z, hz⟩ := padBlocks_flatten p hb m
    obtain ⟨z', hz'⟩ := padBlocks_flatten p hb m'
    rw [e, hz'] at hz
    exact (List.append_inj hz.symm hm).1
  unfold Blake2Params.blocks at h
  by_cases h0 : key.length = 0
  · have h0' : key'.length = 0 := by omega
    refine ⟨by rw [List.length_eq_zero_iff.1 h0, List.length_eq_zero_iff.1 h0'], ?_⟩
    by_cases hm0 : m = []
    · subst hm0; exact (List.length_eq_zero_iff.1 hm.symm).symm
    · have hm0' : m' ≠ [] := fun e => hm0 (List.length_eq_zero_iff.1 (by rw [hm, e]; rfl))
      have hne : (chunks p.bb m).map p.padBlock ≠ [] := by rw [chunks_cons hb hm0]; simp
      have hne' : (chunks p.bb m').map p.padBlock ≠ [] := by rw [chunks_cons hb hm0']; simp
      simp only [h0, h0', Nat.lt_irrefl, gt_iff_lt, if_false, List.nil_append, if_neg hne, if_neg hne'] at h
      exact tail h
  · have h1 : key.length > 0 := by omega
    have h1' : key'.length > 0 := by omega
    simp only [if_pos h1, if_pos h1', List.singleton_append, List.cons_ne_nil, if_false] at h
    obtain ⟨h2, h3⟩ := List.cons.inj h
    exact ⟨(List.append_inj h2 hk).1, tail h3⟩

theorem start_inj {nn : Nat} {key key' : Bytes} (hiv : 0 < p.IV.length) (hk : key.length * 256 < 2 ^ p.w)
    (hk' : key'.length * 256 < 2 ^ p.w) (h : p.start nn key = p.start nn key') : key.length = key'.length := by
  have h1 := congrArg (fun l => l.getD 0 0) h
  unfold Blake2Params.start at h1
  simp only [List.getD_eq_getElem?_getD, List.getElem?_set_self hiv, Option.getD_some] at h1
  have h2 := (BitVec.xor_left_inj _).1 h1
  have h3 := (BitVec.xor_right_inj _).1 h2
  have h4 := congrArg BitVec.toNat h3
  simp only [BitVec.toNat_ofNat, Nat.reducePow] at h4
  rw [Nat.mod_eq_of_lt hk, Nat.mod_eq_of_lt hk'] at h4
  omega

theorem b2_last (hb : 0 < p.bb) (hiv : 0 < p.IV.length) {nn : Nat} {key key' m m' : Bytes}
    (hk : key.length * 256 < 2 ^ p.w) (hk' : key'.length * 256 < 2 ^ p.w)
    (hm : m.length + p.bb < 2 ^ (2 * p.w)) (hm' : m'.length + p.bb < 2 ^ (2 * p.w))
    (hc : ¬ CollisionIn p.Fcall (p.innerCalls nn key m) (p.innerCalls nn key' m'))
    (h : p.lastCall nn key m = p.lastCall nn key' m') : key = key' ∧ m = m' := by
  unfold Blake2Params.lastCall at h
  simp only [Prod.mk.injEq, and_true] at h
  obtain ⟨h1, h2, h3⟩ := h
  have h4 : b2Count p key m = b2Count p key' m' := by
    have := congrArg BitVec.toNat h3
    simp only [BitVec.toNat_ofNat] at this
    unfold b2Count
    rw [Nat.mod_eq_of_lt (by split <;> omega), Nat.mod_eq_of_lt (by split <;> omega)] at this
    exact this
  have h5 : (p.blocks key m).length = (p.blocks key' m').length := by
    rw [blocks_count p hb, blocks_count p hb, h4]
  obtain ⟨h6, h7⟩ := absorb_inj p _ _ (by rw [List.length_dropLast, List.length_dropLast, h5]) 0 _ _ hc h1
  have h8 := start_inj p hiv hk hk' h6
  have h9 : p.blocks key m = p.blocks key' m' := by
    have e1 := List.dropLast_append_getLast (blocks_ne p key m)
    have e2 := List.dropLast_append_getLast (blocks_ne p key' m')
    rw [← e1, ← e2, h7]
    rw [List.getLastD_eq_getLast?, List.getLastD_eq_getLast?, List.getLast?_eq_some_getLast (blocks_ne p key m),
      List.getLast?_eq_some_getLast (blocks_ne p key' m')] at h2
    simp only [Option.getD_some] at h2
    rw [h2]
  refine blocks_inj p hb h8 ?_ h9
  unfold b2Count at h4
  rw [h8] at h4
  split at h4 <;> omega

theorem b2_collision (hb : 0 < p.bb) (hiv : 0 < p.IV.length) {nn : Nat} {key key' m m' : Bytes}
    (hk : key.length * 256 < 2 ^ p.w) (hk' : key'.length * 256 < 2 ^ p.w)
    (hm : m.length + p.bb < 2 ^ (2 * p.w)) (hm' : m'.length + p.bb < 2 ^ (2 * p.w))
    (hne : ¬ (key = key' ∧ m = m')) (he : p.hash nn key m = p.hash nn key' m') :
    CollisionIn p.Fcall (p.innerCalls nn key m) (p.innerCalls nn key' m') ∨
      (p.lastCall nn key m ≠ p.lastCall nn key' m' ∧
        (p.toBytes (p.Fcall (p.lastCall nn key m))).take nn = (p.toBytes (p.Fcall (p.lastCall nn key' m'))).take nn) := by
  by_cases hc : CollisionIn p.Fcall (p.innerCalls nn key m) (p.innerCalls nn key' m')
  · exact .inl hc
  · refine .inr ⟨fun h => hne (b2_last p hb hiv hk hk' hm hm' hc h), ?_⟩
    unfold Blake2Params.Fcall Blake2Params.lastCall
    simp only [F_counter]
    exact he

theorem b2_full {w8 : Nat} (hw : p.w = 8 * w8) {nn : Nat} (hn : 8 * w8 ≤ nn) {a b : List (BitVec p.w)}
    (ha : a.length = 8) (hb : b.length = 8) (h : (p.toBytes a).take nn = (p.toBytes b).take nn) : a = b := by
  have len : ∀ l : List (BitVec p.w), l.length = 8 → (p.toBytes l).length = 8 * w8 := by
    intro l hl
    unfold Blake2Params.toBytes
    have e : l.map (List.length ∘ fun x => natToLE (p.w / 8) x.toNat) = List.replicate 8 (p.w / 8) := by
      rw [← hl]
      exact List.map_eq_replicate_iff.2 (fun x _ => natToLE_length _ _)
    rw [List.length_flatten, List.map_map, e, List.sum_replicate_nat, hw]
    omega
  rw [List.take_of_length_le (by rw [len a ha]; exact hn), List.take_of_length_le (by rw [len b hb]; exact hn)] at h
  exact words_inj (fun x => natToLE_length _ _)
    (wordLE_inj (by rw [hw, Nat.mul_div_cancel_left _ (by decide), Nat.pow_mul])) (by rw [ha, hb]) h

theorem b2_hashCalls {nn : Nat} {key key' m m' : Bytes} {w8 : Nat} (hw : p.w = 8 * w8) (hn : 8 * w8 ≤ nn)
    (h : CollisionIn p.Fcall (p.innerCalls nn key m) (p.innerCalls nn key' m') ∨
      (p.lastCall nn key m ≠ p.lastCall nn key' m' ∧
        (p.toBytes (p.Fcall (p.lastCall nn key m))).take nn = (p.toBytes (p.Fcall (p.lastCall nn key' m'))).take nn)) :
    CollisionIn p.Fcall (p.hashCalls nn key m) (p.hashCalls nn key' m') := by
  rcases h with ⟨x, h1, y, h2, h3⟩ | ⟨h1, h2⟩
  · exact ⟨x, List.mem_append_left _ h1, y, List.mem_append_left _ h2, h3⟩
  · refine ⟨_, List.mem_append_right _ (List.mem_singleton_self _), _,
      List.mem_append_right _ (List.mem_singleton_self _), h1, b2_full p hw hn ?_ ?_ h2⟩ <;>
    · unfold Blake2Params.Fcall Blake2Params.F
      rw [List.length_map, List.length_range]

end B2

/-- C92 for BLAKE2b, with or without key: if two objects with the same size of result give the same result although
their keys or the data added differ, then either two different applications of the compression
function before the last one, in the two computations, have the same result, or the last ones differ and agree on
as many bytes as the result has. -/
theorem C92_blake2b (sz : Int) (key key' buf0 buf0' : Bytes) (x x' : Blake2Ctx 64)
    (h : blake2bNew sz key buf0 = .ok (some x)) (h' : blake2bNew sz key' buf0' = .ok (some x'))
    (hb : buf0.length = 128) (hb' : buf0'.length = 128) (ops ops' : List HOp)
    (hl : ∀ op ∈ ops, op.Legal) (hl' : ∀ op ∈ ops', op.Legal)
    (hlt : (hinputOf ops).length + 128 < 2 ^ 128) (hlt' : (hinputOf ops').length + 128 < 2 ^ 128)
    (hne : ¬ (key = key' ∧ hinputOf ops = hinputOf ops'))
    (heq : ((blake2Class blake2bCode sz).digest ops x).observe = ((blake2Class blake2bCode sz).digest ops' x').observe) :
    let n := (sz / 8).toNat
    CollisionIn blake2b.Fcall (blake2b.innerCalls n key (hinputOf ops)) (blake2b.innerCalls n key' (hinputOf ops')) ∨
      (blake2b.lastCall n key (hinputOf ops) ≠ blake2b.lastCall n key' (hinputOf ops') ∧
        (blake2b.toBytes (blake2b.Fcall (blake2b.lastCall n key (hinputOf ops)))).take n =
          (blake2b.toBytes (blake2b.Fcall (blake2b.lastCall n key' (hinputOf ops')))).take n) := by
  obtain ⟨_, e, c⟩ := C28_blake2b sz key buf0 _ h hb
  obtain ⟨_, e', c'⟩ := C28_blake2b sz key' buf0' _ h' hb'
  cases e
  cases e'
  rw [c ops hl, c' ops' hl'] at heq
  have k1 : key.length ≤ 64 := by
    unfold blake2bNew at h; split at h
    · next hk => exact hk.2.2.2
    · cases h
  have k2 : key'.length ≤ 64 := by
    unfold blake2bNew at h'; split at h'
    · next hk => exact hk.2.2.2
    · cases h'
  exact b2_collision blake2b (by decide) (by decide) (by simp only [blake2b]; omega) (by simp only [blake2b]; omega)
    hlt hlt' hne (by simpa [BLAKE2b] using heq)

/-- C92 for BLAKE2s. -/
theorem C92_blake2s (sz : Int) (key key' buf0 buf0' : Bytes) (x x' : Blake2Ctx 32)
    (h : blake2sNew sz key buf0 = .ok (some x)) (h' : blake2sNew sz key' buf0' = .ok (some x'))
    (hb : buf0.length = 64) (hb' : buf0'.length = 64) (ops ops' : List HOp)
    (hl : ∀ op ∈ ops, op.Legal) (hl' : ∀ op ∈ ops', op.Legal)
    (hlt : (hinputOf ops).length + 64 < 2 ^ 64) (hlt' : (hinputOf ops').length + 64 < 2 ^ 64)
    (hne : ¬ (key = key' ∧ hinputOf ops = hinputOf ops'))
    (heq : ((blake2Class blake2sCode sz).digest ops x).observe = ((blake2Class blake2sCode sz).digest ops' x').observe) :
    let n := (sz / 8).toNat
    CollisionIn blake2s.Fcall (blake2s.innerCalls n key (hinputOf ops)) (blake2s.innerCalls n key' (hinputOf ops')) ∨
      (blake2s.lastCall n key (hinputOf ops) ≠ blake2s.lastCall n key' (hinputOf ops') ∧
        (blake2s.toBytes (blake2s.Fcall (blake2s.lastCall n key (hinputOf ops)))).take n =
          (blake2s.toBytes (blake2s.Fcall (blake2s.lastCall n key' (hinputOf ops')))).take n) := by
  obtain ⟨_, e, c⟩ := C28_blake2s sz key buf0 _ h hb
  obtain ⟨_, e', c'⟩ := C28_blake2s sz key' buf0' _ h' hb'
  cases e
  cases e'
  rw [c ops hl, c' ops' hl'] at heq
  have k1 : key.length ≤ 32 := by
    unfold blake2sNew at h; split at h
    · next hk => exact hk.2.2.2
    · cases h
  have k2 : key'.length ≤ 32 := by
    unfold blake2sNew at h'; split at h'
    · next hk => exact hk.2.2.2
    · cases h'
  exact b2_collision blake2s (by decide) (by decide) (by simp only [blake2s]; omega) (by simp only [blake2s]; omega)
    hlt hlt' hne (by simpa [BLAKE2s] using heq)

/-- C92 for BLAKE2b with 512 bits: a collision of two objects is a collision of the compression function. -/
theorem C92_blake2b_512 (key key' buf0 buf0' : Bytes) (x x' : Blake2Ctx 64)
    (h : blake2bNew 512 key buf0 = .ok (some x)) (h' : blake2bNew 512 key' buf0' = .ok (some x'))
    (hb : buf0.length = 128) (hb' : buf0'.length = 128) (ops ops' : List HOp)
    (hl : ∀ op ∈ ops, op.Legal) (hl' : ∀ op ∈ ops', op.Legal)
    (hlt : (hinputOf ops).length + 128 < 2 ^ 128) (hlt' : (hinputOf ops').length + 128 < 2 ^ 128)
    (hne : ¬ (key = key' ∧ hinputOf ops = hinputOf ops'))
    (heq : ((blake2Class blake2bCode 512).digest ops x).observe = ((blake2Class blake2bCode 512).digest ops' x').observe) :
    CollisionIn blake2b.Fcall (blake2b.hashCalls 64 key (hinputOf ops)) (blake2b.hashCalls 64 key' (hinputOf ops')) :=
  b2_hashCalls blake2b (w8 := 8) rfl (by decide)
    (C92_blake2b 512 key key' buf0 buf0' x x' h h' hb hb' ops ops' hl hl' hlt hlt' hne heq)

/-- C92 for BLAKE2s with 256 bits. -/
theorem C92_blake2s_256 (key key' buf0 buf0' : Bytes) (x x' : Blake2Ctx 32)
    (h : blake2sNew 256 key buf0 = .ok (some x)) (h' : blake2sNew 256 key' buf0' = .ok (some x'))
    (hb : buf0.length = 64) (hb' : buf0'.length = 64) (ops ops' : List HOp)
    (hl : ∀ op ∈ ops, op.Legal) (hl' : ∀ op ∈ ops', op.Legal)
    (hlt : (hinputOf ops).length + 64 < 2 ^ 64) (hlt' : (hinputOf ops').length + 64 < 2 ^ 64)
    (hne : ¬ (key = key' ∧ hinputOf ops = hinputOf ops'))
    (heq : ((blake2Class blake2sCode 256).digest ops x).observe = ((blake2Class blake2sCode 256).digest ops' x').observe) :
    CollisionIn blake2s.Fcall (blake2s.hashCalls 32 key (hinputOf ops)) (blake2s.hashCalls 32 key' (hinputOf ops')) :=
  b2_hashCalls blake2s (w8 := 4) rfl (by decide)
    (C92_blake2s 256 key key' buf0 buf0' x x' h h' hb hb' ops ops' hl hl' hlt hlt' hne heq)

/-! ### HMAC -/

/-- C92 for HMAC, with any hash function: two objects with the same key that give the same result although the data
added differ give a collision of the hash function. It is between the data given to the hash function in the two
computations: `K xor ipad` and the data, or `K xor opad` and the inner hash. -/
theorem C92_hmac (h : HashObj τ) (new : τ → Prop) (H : Bytes → Bytes) (B : Nat)
    (computes : ∀ s, new s → h.Computes s H) (short : ∀ m, (H m).length ≤ B)
    (small : B ≤ maxString) (wipe : ∀ s, ∃ s', h.wipe s = .ok () s')
    (fresh fresh' : Nat → τ) (hf : ∀ i, new (fresh i)) (hf' : ∀ i, new (fresh' i)) (s s' : τ) (hs : new s) (hs' : new s')
    (key : Bytes) (hk : key.length ≤ maxString) (s1 s1' : τ)
    (h1 : hmacNew h B fresh key s = .ok () s1) (h1' : hmacNew h B fresh' key s' = .ok () s1')
    (ops ops' : List HOp) (hl : ∀ op ∈ ops, op.Legal) (hl' : ∀ op ∈ ops', op.Legal)
    (hne : hinputOf ops ≠ hinputOf ops')
    (heq : ((hmac h B fresh key).digest ops s1).observe = ((hmac h B fresh' key).digest ops' s1').observe) :
    CollisionIn H (hmacCalls H B key (hinputOf ops)) (hmacCalls H B key (hinputOf ops')) := by
  obtain ⟨_, e, c⟩ := C31_hmac h new H B computes short small wipe fresh hf s hs key hk
  obtain ⟨_, e', c'⟩ := C31_hmac h new H B computes short small wipe fresh' hf' s' hs' key hk
  rw [h1] at e
  rw [h1'] at e'
  cases e
  cases e'
  rw [c ops hl, c' ops' hl'] at heq
  simp only [Option.some.injEq, Except.ok.injEq] at heq
  by_cases hi : H (hmacInner H B key (hinputOf ops)) = H (hmacInner H B key (hinputOf ops'))
  · refine ⟨_, List.mem_cons_self, _, List.mem_cons_self, ?_, hi⟩
    intro hx
    exact hne (List.append_cancel_left hx)
  · refine ⟨_, List.mem_cons_of_mem _ List.mem_cons_self, _, List.mem_cons_of_mem _ List.mem_cons_self, ?_, heq⟩
    intro hx
    exact hi (List.append_cancel_left hx)

/-! ### The hypotheses are met -/

namespace Example

def oneByte (b : Byte) : List HOp := [.addChar b]

theorem oneByte_legal (b : Byte) : ∀ op ∈ oneByte b, op.Legal := by
  intro op ho
  rw [oneByte, List.mem_singleton] at ho
  subst ho
  trivial

/-- The 8-bit BLAKE2s of the byte 2 and, with key "k", of the byte 32. -/
example : (∃ x, blake2sNew 8 [] (List.replicate 64 1) = .ok (some x) ∧
    ∃ x', blake2sNew 8 [0x6b] (List.replicate 64 2) = .ok (some x') ∧
      ((blake2Class blake2sCode 8).digest (oneByte 2) x).observe = ((blake2Class blake2sCode 8).digest (oneByte 32) x').observe) ∧
    ¬ (([] : Bytes) = [0x6b] ∧ hinputOf (oneByte 2) = hinputOf (oneByte 32)) := by
  refine ⟨⟨_, rfl, _, rfl, ?_⟩, by simp⟩
  decide +kernel

set_option maxRecDepth 100000 in
/-- The 8-bit BLAKE2b of the byte 1 and, with key "k", of the byte 17. -/
example : (∃ x, blake2bNew 8 [] (List.replicate 128 1) = .ok (some x) ∧
    ∃ x', blake2bNew 8 [0x6b] (List.replicate 128 2) = .ok (some x') ∧
      ((blake2Class blake2bCode 8).digest (oneByte 1) x).observe = ((blake2Class blake2bCode 8).digest (oneByte 17) x').observe) ∧
    ¬ (([] : Bytes) = [0x6b] ∧ hinputOf (oneByte 1) = hinputOf (oneByte 17)) := by
  refine ⟨⟨_, rfl, _, rfl, ?_⟩, by simp⟩
  decide +kernel

/-- The 8-bit BLAKE3 of the bytes 0 and 45. -/
example : ((b3Class ⟨2, 0xaa⟩ 8).digest (oneByte 0) (some (b3Init [] (List.replicate 1760 0x55)))).observe
    = ((b3Class ⟨2, 0xaa⟩ 8).digest (oneByte 45) (some (b3Init [] (List.replicate 1760 0x55)))).observe ∧
    hinputOf (oneByte 0) ≠ hinputOf (oneByte 45) := by decide +kernel

/-- A message of two chunks and one block: 33 compressions before the root, among which 2 are the roots of the
subtrees. -/
example : (B3.inner [] (List.replicate 1100 7)).length = 15 + 1 + (1 + 1) := by decide +kernel

/-- A 300-byte message with a key: 3 compressions before the last. -/
example : (blake2b.innerCalls 64 [1] (List.replicate 300 7)).length = 3 := by decide +kernel

/-- A weak hash function: the sum of the bytes. -/
def sumHash : HashObj Byte :=
  stubHash 8 (fun s b => some (b.foldl (· + ·) s)) (fun s => some ([s], s)) (fun _ => 0)

def sumFn (m : Bytes) : Bytes := [m.foldl (· + ·) 0]

theorem sumHash_computes (s : Byte) (hs : s = 0) : sumHash.Computes s sumFn :=
  stubHash_computes (R := fun m s => s = m.foldl (· + ·) 0)
    ⟨fun m s b h _ => ⟨_, rfl, by rw [h, List.foldl_append]⟩, fun m s h => ⟨s, by rw [h]; rfl⟩⟩ hs

def ab : List HOp := [.addChar 1, .addChar 2]
def ba : List HOp := [.addChar 2, .addChar 1]

/-- The two objects of this weak HMAC give the same result for "\\001\\002" and "\\002\\001": a collision. -/
example : CollisionIn sumFn (hmacCalls sumFn 4 [7] (hinputOf ab)) (hmacCalls sumFn 4 [7] (hinputOf ba)) := by
  have hl : ∀ l : List HOp, (l = ab ∨ l = ba) → ∀ op ∈ l, op.Legal := by
    rintro l (rfl | rfl) op ho <;>
    · simp only [ab, ba, List.mem_cons, List.not_mem_nil, or_false] at ho
      rcases ho with rfl | rfl <;> trivial
  obtain ⟨s1, e1, _⟩ := C31_hmac sumHash (· = 0) sumFn 4 sumHash_computes
    (fun m => by show 1 ≤ 4; decide) (by decide) (fun s => ⟨_, rfl⟩) (fun _ => 0) (fun _ => rfl) 0 rfl [7] (by decide)
  refine C92_hmac sumHash (· = 0) sumFn 4 sumHash_computes
    (fun m => by show 1 ≤ 4; decide) (by decide) (fun s => ⟨_, rfl⟩) (fun _ => 0) (fun _ => 0) (fun _ => rfl) (fun _ => rfl) 0 0 rfl rfl
    [7] (by decide) s1 s1 e1 e1 ab ba (hl _ (.inl rfl)) (hl _ (.inr rfl)) (by decide) ?_
  rw [show s1 = (match hmacNew sumHash 4 (fun _ => 0) [7] 0 with | .ok _ s => s | _ => 0) by rw [e1]]
  decide +kernel

end Example

end Verif
