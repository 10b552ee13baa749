import Verif.Model.Aesni
import Verif.Proof.Aes
/-
The AES classes compute AES (code with AES-NI instructions).
-/
namespace Verif.Aesni
open Spec.Aes (expand expand_rot4 expand_plain2 expand_sub4 expand_add expand_length subWord rotWord
  xorb_len)
open Rijndael (KeySize)

def M128.words (x : M128) : List Bytes := [x.d0, x.d1, x.d2, x.d3]

theorem bytes_words (x : M128) : x.bytes = x.words.flatten := by
  simp [M128.bytes, M128.words]

/-! ### Words -/

theorem xorb_zero4 {x : Bytes} (h : x.length = 4) : xorb x [0, 0, 0, 0] = x := by
  match x, h with
  | [a, b, c, d], _ => simp [xorb]

theorem rot_sub (x : Bytes) : rotWord (subWord x) = subWord (rotWord x) := by
  simp [rotWord, subWord, List.map_drop, List.map_take]

/-- The four words that follow, when the word to add to the first one is `g`. -/
def next4 (a b c d g : Bytes) : M128 :=
  ⟨xorb a g, xorb b (xorb a g), xorb c (xorb b (xorb a g)),
   xorb d (xorb c (xorb b (xorb a g)))⟩

theorem spread_xor {a b c d : Bytes} (g : Bytes) (ha : a.length = 4) (hb : b.length = 4)
    (hc : c.length = 4) (hd : d.length = 4) :
    xor (spread ⟨a, b, c, d⟩) ⟨g, g, g, g⟩ = next4 a b c d g := by
  unfold xor spread slli4 next4
  simp only [xor]
  rw [xorb_zero4 ha, xorb_zero4 ha, xorb_zero4 ha, xorb_zero4 (xorb_len hb ha),
    xorb_zero4 (xorb_len hb ha), xorb_zero4 (xorb_len (xorb_len hc hb) ha)]
  congr 1
  · rw [xorb_assoc]
  · rw [xorb_assoc, xorb_assoc]
  · rw [xorb_assoc, xorb_assoc, xorb_assoc]

theorem assist128_eq {a b c d : Bytes} {rc : Byte} (ha : a.length = 4) (hb : b.length = 4)
    (hc : c.length = 4) (hd : d.length = 4) :
    assist128 ⟨a, b, c, d⟩ (keygenAssist ⟨a, b, c, d⟩ rc)
      = next4 a b c d (xorb (subWord (rotWord d)) [rc, 0, 0, 0]) := by
  rw [← rot_sub]
  exact spread_xor _ ha hb hc hd

theorem assist192_eq {a b c d e f x y : Bytes} {rc : Byte} (ha : a.length = 4) (hb : b.length = 4)
    (hc : c.length = 4) (hd : d.length = 4) (he : e.length = 4) (hf : f.length = 4) :
    let t := assist192 ⟨a, b, c, d⟩ (keygenAssist ⟨e, f, x, y⟩ rc) ⟨e, f, x, y⟩
    let n := next4 a b c d (xorb (subWord (rotWord f)) [rc, 0, 0, 0])
    t.1 = n ∧ t.2.d0 = xorb e n.d3 ∧ t.2.d1 = xorb f (xorb e n.d3) := by
  have h1 : xor (spread ⟨a, b, c, d⟩) (shuffle (keygenAssist ⟨e, f, x, y⟩ rc) 0x55)
      = next4 a b c d (xorb (subWord (rotWord f)) [rc, 0, 0, 0]) := by
    rw [← rot_sub]
    exact spread_xor _ ha hb hc hd
  unfold assist192
  simp only [h1, true_and]
  generalize next4 a b c d (xorb (subWord (rotWord f)) [rc, 0, 0, 0]) = n
  simp only [xor, slli4]
  rw [xorb_zero4 he]
  refine ⟨rfl, ?_⟩
  rw [xorb_assoc]
  rfl

theorem assist256_1_eq {a b c d e f x y : Bytes} {rc : Byte} (ha : a.length = 4)
    (hb : b.length = 4) (hc : c.length = 4) (hd : d.length = 4) :
    assist256_1 ⟨a, b, c, d⟩ (keygenAssist ⟨e, f, x, y⟩ rc)
      = next4 a b c d (xorb (subWord (rotWord y)) [rc, 0, 0, 0]) := by
  rw [← rot_sub]
  exact spread_xor _ ha hb hc hd

theorem assist256_2_eq {a b c d : Bytes} {t1 : M128} (ha : a.length = 4) (hb : b.length = 4)
    (hc : c.length = 4) (hd : d.length = 4) :
    assist256_2 t1 ⟨a, b, c, d⟩ = next4 a b c d (subWord t1.d3) :=
  spread_xor _ ha hb hc hd

theorem getD_pre {pre l : List Bytes} (j : Nat) : (pre ++ l).getD (pre.length + j) [] = l.getD j [] := by
  rw [List.getD_eq_getElem?_getD, List.getElem?_append_right (by omega), Nat.add_sub_cancel_left,
    List.getD_eq_getElem?_getD]

theorem expand4 {pre : List Bytes} {a b c d : Bytes} {i : Nat} (hp : pre.length = 4 * i) :
    expand 4 4 (pre ++ [a, b, c, d]) = pre ++ [a, b, c, d] ++
      (next4 a b c d (xorb (subWord (rotWord d)) (Spec.Aes.rcon (i + 1)))).words := by
  rw [expand_rot4 (by omega) (by simp; omega) (by simp)]
  have e : (pre ++ [a, b, c, d]).length - 4 = pre.length := by simp
  have e1 : (pre ++ [a, b, c, d]).length - 1 = pre.length + 3 := by simp
  have e2 : (pre ++ [a, b, c, d]).length / 4 = i + 1 := by simp; omega
  simp only [e, e1, e2, getD_pre]
  rfl

theorem expand6 {pre : List Bytes} {a b c d e f : Bytes} {i : Nat} (hp : pre.length = 6 * i) :
    let n := next4 a b c d (xorb (subWord (rotWord f)) (Spec.Aes.rcon (i + 1)))
    expand 6 4 (pre ++ [a, b, c, d, e, f]) = pre ++ [a, b, c, d, e, f] ++ n.words ∧
    expand 6 6 (pre ++ [a, b, c, d, e, f]) = pre ++ [a, b, c, d, e, f] ++ n.words ++
      [xorb e n.d3, xorb f (xorb e n.d3)] := by
  have h4 : expand 6 4 (pre ++ [a, b, c, d, e, f]) = pre ++ [a, b, c, d, e, f] ++
      (next4 a b c d (xorb (subWord (rotWord f)) (Spec.Aes.rcon (i + 1)))).words := by
    rw [expand_rot4 (by omega) (by simp; omega) (by simp)]
    have e0 : (pre ++ [a, b, c, d, e, f]).length - 6 = pre.length := by simp
    have e1 : (pre ++ [a, b, c, d, e, f]).length - 1 = pre.length + 5 := by simp
    have e2 : (pre ++ [a, b, c, d, e, f]).length / 6 = i + 1 := by simp; omega
    simp only [e0, e1, e2, getD_pre]
    rfl
  refine ⟨h4, ?_⟩
  rw [show 6 = 4 + 2 from rfl, expand_add 6 4 2, h4]
  generalize next4 a b c d (xorb (subWord (rotWord f)) (Spec.Aes.rcon (i + 1))) = n
  rw [expand_plain2 (by simp [M128.words]; omega)]
  have e0 : (pre ++ [a, b, c, d, e, f] ++ n.words).length - 6 = pre.length + 4 := by
    simp [M128.words]
  have e1 : (pre ++ [a, b, c, d, e, f] ++ n.words).length - 1 = pre.length + 9 := by
    simp [M128.words]
  have e2 : (pre ++ [a, b, c, d, e, f] ++ n.words).length - 5 = pre.length + 5 := by
    simp [M128.words]
  simp only [e0, e1, e2]
  rw [List.append_assoc pre, getD_pre, getD_pre, getD_pre]
  rfl

theorem expand8 {pre : List Bytes} {a b c d e f g h : Bytes} {i : Nat} (hp : pre.length = 8 * i) :
    let n := next4 a b c d (xorb (subWord (rotWord h)) (Spec.Aes.rcon (i + 1)))
    expand 8 4 (pre ++ [a, b, c, d, e, f, g, h]) = pre ++ [a, b, c, d, e, f, g, h] ++ n.words ∧
    expand 8 8 (pre ++ [a, b, c, d, e, f, g, h]) = pre ++ [a, b, c, d, e, f, g, h] ++ n.words ++
      (next4 e f g h (subWord n.d3)).words := by
  have h4 : expand 8 4 (pre ++ [a, b, c, d, e, f, g, h]) = pre ++ [a, b, c, d, e, f, g, h] ++
      (next4 a b c d (xorb (subWord (rotWord h)) (Spec.Aes.rcon (i + 1)))).words := by
    rw [expand_rot4 (by omega) (by simp; omega) (by simp)]
    have e0 : (pre ++ [a, b, c, d, e, f, g, h]).length - 8 = pre.length := by simp
    have e1 : (pre ++ [a, b, c, d, e, f, g, h]).length - 1 = pre.length + 7 := by simp
    have e2 : (pre ++ [a, b, c, d, e, f, g, h]).length / 8 = i + 1 := by simp; omega
    simp only [e0, e1, e2, getD_pre]
    rfl
  refine ⟨h4, ?_⟩
  rw [show 8 = 4 + 4 from rfl, expand_add 8 4 4, h4]
  generalize next4 a b c d (xorb (subWord (rotWord h)) (Spec.Aes.rcon (i + 1))) = n
  rw [expand_sub4 (by simp [M128.words]; omega) (by simp; omega)]
  have e0 : (pre ++ [a, b, c, d, e, f, g, h] ++ n.words).length - 8 = pre.length + 4 := by
    simp [M128.words]
  have e1 : (pre ++ [a, b, c, d, e, f, g, h] ++ n.words).length - 1 = pre.length + 11 := by
    simp [M128.words]
  have e2 : (pre ++ [a, b, c, d, e, f, g, h] ++ n.words).length - 7 = pre.length + 5 := by
    simp [M128.words]
  have e3 : (pre ++ [a, b, c, d, e, f, g, h] ++ n.words).length - 6 = pre.length + 6 := by
    simp [M128.words]
  have e4 : (pre ++ [a, b, c, d, e, f, g, h] ++ n.words).length - 5 = pre.length + 7 := by
    simp [M128.words]
  simp only [e0, e1, e2, e3, e4]
  rw [List.append_assoc pre]
  simp only [getD_pre]
  rfl

def Len4 (w : List Bytes) : Prop := ∀ x ∈ w, x.length = 4

theorem next4_len {a b c d g : Bytes} (ha : a.length = 4) (hb : b.length = 4)
    (hc : c.length = 4) (hd : d.length = 4) (hg : g.length = 4) :
    (next4 a b c d g).d0.length = 4 ∧ (next4 a b c d g).d1.length = 4 ∧
      (next4 a b c d g).d2.length = 4 ∧ (next4 a b c d g).d3.length = 4 := by
  simp [next4, ha, hb, hc, hd, hg]

theorem rcon_len {x : Bytes} (h : x.length = 4) (i : Nat) :
    (xorb (subWord (rotWord x)) (Spec.Aes.rcon i)).length = 4 := by
  match x, h with
  | [a, b, c, d], _ => rfl

theorem sub_len {x : Bytes} (h : x.length = 4) : (subWord x).length = 4 := by
  simp [subWord, h]

theorem rc_word (rc : Byte) (i : Nat) (h : rc = Spec.Aes.xtime^[i] 1) :
    [rc, 0, 0, 0] = Spec.Aes.rcon (i + 1) := by
  subst h; rfl

/-! ### Key expansion -/

/-- Invariant of the 128-bit case: `w` is the schedule so far. -/
structure Inv128 (i : Nat) (w : List Bytes) (t1 : M128) (ks : List M128) : Prop where
  ks : ks.flatMap M128.words = w
  last : ∃ pre, w = pre ++ t1.words ∧ pre.length = 4 * i
  len : Len4 t1.words

theorem inv128_step {i : Nat} {w : List Bytes} {s : M128 × List M128} {rc : Byte}
    (h : Inv128 i w s.1 s.2) (hrc : rc = Spec.Aes.xtime^[i] 1) :
    Inv128 (i + 1) (expand 4 4 w) (step128 s rc).1 (step128 s rc).2 := by
  obtain ⟨⟨a, b, c, d⟩, ks⟩ := s
  obtain ⟨h1, ⟨pre, h2, hp⟩, h3⟩ := h
  simp only at h1 h2 h3
  simp only [M128.words, Len4, List.mem_cons, List.not_mem_nil, or_false, forall_eq_or_imp,
    forall_eq] at h3
  obtain ⟨ha, hb, hc, hd⟩ := h3
  have e := expand4 (pre := pre) (a := a) (b := b) (c := c) (d := d) hp
  have e2 : assist128 ⟨a, b, c, d⟩ (keygenAssist ⟨a, b, c, d⟩ rc)
      = next4 a b c d (xorb (subWord (rotWord d)) (Spec.Aes.rcon (i + 1))) := by
    rw [assist128_eq ha hb hc hd, rc_word rc i hrc]
  have hl := next4_len ha hb hc hd (rcon_len hd (i + 1))
  have hw : w = pre ++ [a, b, c, d] := h2
  rw [hw, e]
  unfold step128
  simp only [e2]
  refine ⟨?_, ⟨pre ++ [a, b, c, d], rfl, by simp; omega⟩, ?_⟩
  · rw [List.flatMap_append, h1, hw]
    simp
  · simpa [Len4, M128.words] using hl

theorem load_words {p : Bytes} {i : Nat} :
    (load p i).words = [slice p i 4, slice p (i + 4) 4, slice p (i + 8) 4, slice p (i + 12) 4] := rfl

theorem slice_len {p : Bytes} {i n : Nat} (h : i + n ≤ p.length) : (slice p i n).length = n := by
  simp [slice]; omega

theorem chunks_key {p : Bytes} (n : Nat) (h : p.length = 4 * n) :
    chunks 4 p = (List.range n).map fun j => slice p (4 * j) 4 := by
  have := Rijndael.chunks_slice (p := p) n 0 (by omega)
  simpa using this

theorem expansion128_eq {key : Bytes} (h : key.length = 16) :
    (expansion128 key).flatMap M128.words = Spec.Aes.keyExpansion key := by
  have h0 : Inv128 0 (chunks 4 key) (load key 0) [load key 0] := by
    have e : chunks 4 key = (load key 0).words := by
      rw [chunks_key 4 (by omega), load_words]; rfl
    refine ⟨by simp [e], ⟨[], by simp [e], rfl⟩, ?_⟩
    intro x hx
    rw [← e, chunks_key 4 (by omega), List.mem_map] at hx
    obtain ⟨j, hj, rfl⟩ := hx
    rw [List.mem_range] at hj
    exact slice_len (by omega)
  have h1 : ∀ n, Inv128 n (expand 4 (4 * n) (chunks 4 key))
      (((List.range n).map fun i => Spec.Aes.xtime^[i] 1).foldl step128
        (load key 0, [load key 0])).1
      (((List.range n).map fun i => Spec.Aes.xtime^[i] 1).foldl step128
        (load key 0, [load key 0])).2 := by
    intro n
    induction n with
    | zero => exact h0
    | succ n ih =>
      rw [List.range_succ, List.map_append, List.foldl_append, Nat.mul_add, Nat.mul_one,
        expand_add]
      exact inv128_step ih rfl
  have h2 := (h1 10).ks
  rw [show ((List.range 10).map fun i => Spec.Aes.xtime^[i] 1)
    = [0x1, 0x2, 0x4, 0x8, 0x10, 0x20, 0x40, 0x80, 0x1b, 0x36] by decide +kernel] at h2
  unfold Spec.Aes.keyExpansion
  rw [h]
  exact h2

/-- Invariant of the 256-bit case. -/
structure Inv256 (i : Nat) (w : List Bytes) (t1 t3 : M128) (ks : List M128) : Prop where
  ks : ks.flatMap M128.words = w
  last : ∃ pre, w = pre ++ (t1.words ++ t3.words) ∧ pre.length = 8 * i
  len1 : Len4 t1.words
  len3 : Len4 t3.words

theorem inv256_step {i : Nat} {w : List Bytes} {s : M128 × M128 × List M128} {rc : Byte}
    (h : Inv256 i w s.1 s.2.1 s.2.2) (hrc : rc = Spec.Aes.xtime^[i] 1) :
    Inv256 (i + 1) (expand 8 8 w) (step256 s rc).1 (step256 s rc).2.1 (step256 s rc).2.2 ∧
    (s.2.2 ++ [assist256_1 s.1 (keygenAssist s.2.1 rc)]).flatMap M128.words = expand 8 4 w := by
  obtain ⟨⟨a, b, c, d⟩, ⟨p, q, r, t⟩, ks⟩ := s
  obtain ⟨h1, ⟨pre, h2, hp⟩, h3, h4⟩ := h
  simp only at h1 h2 h3 h4
  simp only [M128.words, Len4, List.mem_cons, List.not_mem_nil, or_false, forall_eq_or_imp,
    forall_eq] at h3 h4
  obtain ⟨ha, hb, hc, hd⟩ := h3
  obtain ⟨hpp, hq, hr, ht⟩ := h4
  obtain ⟨e4, e8⟩ := expand8 (pre := pre) (a := a) (b := b) (c := c) (d := d) (e := p) (f := q)
    (g := r) (h := t) hp
  have e2 : assist256_1 ⟨a, b, c, d⟩ (keygenAssist ⟨p, q, r, t⟩ rc)
      = next4 a b c d (xorb (subWord (rotWord t)) (Spec.Aes.rcon (i + 1))) := by
    rw [assist256_1_eq ha hb hc hd, rc_word rc i hrc]
  have hl := next4_len ha hb hc hd (rcon_len ht (i + 1))
  have hw : w = pre ++ [a, b, c, d, p, q, r, t] := h2
  have hl' := next4_len hpp hq hr ht (sub_len hl.2.2.2)
  rw [hw, e8, e4]
  unfold step256
  simp only [e2, assist256_2_eq hpp hq hr ht]
  refine ⟨⟨?_, ⟨pre ++ [a, b, c, d, p, q, r, t], ?_, by simp; omega⟩, ?_, ?_⟩, ?_⟩
  · rw [List.flatMap_append, List.flatMap_append, h1, hw]
    simp
  · simp
  · simpa [Len4, M128.words] using hl
  · simpa [Len4, M128.words] using hl'
  · rw [List.flatMap_append, h1, hw]
    simp

theorem expansion256_eq {key : Bytes} (h : key.length = 32) :
    (expansion256 key).flatMap M128.words = Spec.Aes.keyExpansion key := by
  have h0 : Inv256 0 (chunks 4 key) (load key 0) (load key 16) [load key 0, load key 16] := by
    have e : chunks 4 key = (load key 0).words ++ (load key 16).words := by
      rw [chunks_key 8 (by omega), load_words]; rfl
    refine ⟨by simp [e], ⟨[], by simp [e], rfl⟩, ?_, ?_⟩
    · intro x hx
      have hx : x ∈ chunks 4 key := by rw [e]; simp [hx]
      rw [chunks_key 8 (by omega), List.mem_map] at hx
      obtain ⟨j, hj, rfl⟩ := hx
      rw [List.mem_range] at hj
      exact slice_len (by omega)
    · intro x hx
      have hx : x ∈ chunks 4 key := by rw [e]; simp [hx]
      rw [chunks_key 8 (by omega), List.mem_map] at hx
      obtain ⟨j, hj, rfl⟩ := hx
      rw [List.mem_range] at hj
      exact slice_len (by omega)
  have h1 : ∀ n s, s = ((List.range n).map fun i => Spec.Aes.xtime^[i] 1).foldl step256
        (load key 0, load key 16, [load key 0, load key 16]) →
      Inv256 n (expand 8 (8 * n) (chunks 4 key)) s.1 s.2.1 s.2.2 := by
    rintro n _ rfl
    induction n with
    | zero => exact h0
    | succ n ih =>
      rw [List.range_succ, List.map_append, List.foldl_append, Nat.mul_add, Nat.mul_one,
        expand_add]
      exact (inv256_step ih rfl).1
  have h2 := (inv256_step (rc := 0x40) (h1 6 _ rfl) (by decide +kernel)).2
  rw [← expand_add, show ((List.range 6).map fun i => Spec.Aes.xtime^[i] 1)
    = [0x01, 0x02, 0x04, 0x08, 0x10, 0x20] by decide +kernel] at h2
  unfold Spec.Aes.keyExpansion
  rw [h]
  exact h2

/-- Invariant of the 192-bit case, after `stepA`. The lanes 2 and 3 of `t3` are not specified. -/
structure Inv192 (i : Nat) (w : List Bytes) (s : S192) : Prop where
  ks : s.ks.flatMap M128.words = w
  last : ∃ pre, w = pre ++ (s.t1.words ++ [s.t3.d0, s.t3.d1]) ∧ pre.length = 6 * i
  len1 : Len4 s.t1.words
  len3 : s.t3.d0.length = 4 ∧ s.t3.d1.length = 4

/-- After `stepB`, or initially. -/
structure InvB (i : Nat) (w : List Bytes) (s : S192) : Prop where
  ks : ∃ ks, s.ks = ks ++ [s.t1, s.t3] ∧
    ks.flatMap M128.words ++ s.t1.words ++ [s.t3.d0, s.t3.d1] = w
  last : ∃ pre, w = pre ++ (s.t1.words ++ [s.t3.d0, s.t3.d1]) ∧ pre.length = 6 * i
  len1 : Len4 s.t1.words
  len3 : s.t3.d0.length = 4 ∧ s.t3.d1.length = 4

/-- The new values of `t1` and `t3`. -/
theorem inv192_assist {i : Nat} {w : List Bytes} {t1 t3 : M128} {rc : Byte}
    (hlast : ∃ pre, w = pre ++ (t1.words ++ [t3.d0, t3.d1]) ∧ pre.length = 6 * i)
    (h1 : Len4 t1.words) (h3 : t3.d0.length = 4 ∧ t3.d1.length = 4)
    (hrc : rc = Spec.Aes.xtime^[i] 1) :
    let t := assist192 t1 (keygenAssist t3 rc) t3
    expand 6 4 w = w ++ t.1.words ∧
    expand 6 6 w = w ++ (t.1.words ++ [t.2.d0, t.2.d1]) ∧ w.length = 6 * (i + 1) ∧
      Len4 t.1.words ∧ t.2.d0.length = 4 ∧ t.2.d1.length = 4 := by
  obtain ⟨a, b, c, d⟩ := t1
  obtain ⟨e, f, x, y⟩ := t3
  obtain ⟨pre, h2, hp⟩ := hlast
  simp only [M128.words, Len4, List.mem_cons, List.not_mem_nil, or_false, forall_eq_or_imp,
    forall_eq] at h1
  obtain ⟨ha, hb, hc, hd⟩ := h1
  obtain ⟨he, hf⟩ := h3
  obtain ⟨e4, e6⟩ := expand6 (pre := pre) (a := a) (b := b) (c := c) (d := d) (e := e) (f := f) hp
  obtain ⟨p1, p2, p3⟩ := assist192_eq (x := x) (y := y) (rc := rc) ha hb hc hd he hf
  have hl := next4_len ha hb hc hd (rcon_len hf (i + 1))
  have hw : w = pre ++ [a, b, c, d, e, f] := h2
  rw [rc_word rc i hrc] at p1 p2 p3
  simp only at p1 p2 p3 ⊢
  rw [hw, e4, e6, p1, p2, p3]
  refine ⟨rfl, ?_, by simp; omega, by simpa [Len4, M128.words] using hl, xorb_len he hl.2.2.2,
    xorb_len hf (xorb_len he hl.2.2.2)⟩
  simp

theorem stepA_inv {i : Nat} {w : List Bytes} {s : S192} {rc : Byte} (h : InvB i w s)
    (hrc : rc = Spec.Aes.xtime^[i] 1) : Inv192 (i + 1) (expand 6 6 w) (stepA s rc) := by
  obtain ⟨_, e6, hl, p1, p2, p3⟩ := inv192_assist h.last h.len1 h.len3 hrc
  obtain ⟨ks, hk, hw⟩ := h.ks
  refine ⟨?_, ⟨w, e6, hl⟩, p1, p2, p3⟩
  rw [e6]
  unfold stepA
  simp only [hk]
  rw [show ks ++ [s.t1, s.t3] = (ks ++ [s.t1]) ++ [s.t3] by simp, List.getLastD_concat,
    List.dropLast_concat, List.flatMap_append, List.flatMap_append, ← hw]
  simp [M128.words, shufflePd]

theorem stepB_inv {i : Nat} {w : List Bytes} {s : S192} {rc : Byte} (h : Inv192 i w s)
    (hrc : rc = Spec.Aes.xtime^[i] 1) : InvB (i + 1) (expand 6 6 w) (stepB s rc) := by
  obtain ⟨_, e6, hl, p1, p2, p3⟩ := inv192_assist h.last h.len1 h.len3 hrc
  refine ⟨⟨s.ks, rfl, ?_⟩, ⟨w, e6, hl⟩, p1, p2, p3⟩
  rw [e6, h.ks]
  simp [stepB]

theorem expansion192_eq {key : Bytes} (pad : Bytes) (h : key.length = 24) :
    (expansion192 key pad).flatMap M128.words = Spec.Aes.keyExpansion key := by
  have h0 : InvB 0 (chunks 4 key) ⟨load key 0, load (key ++ pad) 16,
      [load key 0, load (key ++ pad) 16]⟩ := by
    have hs : ∀ i, i + 4 ≤ 24 → slice (key ++ pad) i 4 = slice key i 4 := by
      intro i hi
      unfold slice
      rw [List.drop_append_of_le_length (by omega), List.take_append_of_le_length (by simp; omega)]
    have e : chunks 4 key = (load key 0).words ++ [(load (key ++ pad) 16).d0,
        (load (key ++ pad) 16).d1] := by
      rw [chunks_key 6 (by omega), load_words]
      simp only [load]
      rw [hs 16 (by omega), hs 20 (by omega)]
      rfl
    have hlen : Len4 (chunks 4 key) := by
      intro x hx
      rw [chunks_key 6 (by omega), List.mem_map] at hx
      obtain ⟨j, hj, rfl⟩ := hx
      rw [List.mem_range] at hj
      exact slice_len (by omega)
    refine ⟨⟨[], rfl, by rw [e]; simp⟩, ⟨[], by simp [e], rfl⟩, ?_, ?_, ?_⟩
    · intro x hx
      exact hlen x (by rw [e]; simp [hx])
    · exact hlen _ (by rw [e]; simp)
    · exact hlen _ (by rw [e]; simp)
  have h1 := stepA_inv (rc := 0x1) h0 (by decide +kernel)
  have h2 := stepA_inv (rc := 0x4) (stepB_inv (rc := 0x2) h1 (by decide +kernel)) (by decide +kernel)
  have h3 := stepA_inv (rc := 0x10) (stepB_inv (rc := 0x8) h2 (by decide +kernel)) (by decide +kernel)
  have h4 := stepA_inv (rc := 0x40) (stepB_inv (rc := 0x20) h3 (by decide +kernel))
    (by decide +kernel)
  obtain ⟨e4, -⟩ := inv192_assist (rc := 0x80) h4.last h4.len1 h4.len3 (by decide +kernel)
  unfold Spec.Aes.keyExpansion
  rw [h]
  have hk := h4.ks
  simp only [← expand_add] at e4 hk
  change _ = expand 6 (6 + (6 + 6) + (6 + 6) + (6 + 6) + 4) (chunks 4 key)
  unfold expansion192
  simp only
  rw [List.flatMap_append]
  refine Eq.trans ?_ (Eq.trans e4.symm ?_)
  · rw [hk]; simp
  · rfl

/-! ### Blocks -/

theorem load_bytes {p : Bytes} {i : Nat} : (load p i).bytes = slice p i 16 := by
  simp only [load, M128.bytes, slice]
  rw [← List.drop_drop, ← List.drop_drop, ← List.drop_drop]
  generalize List.drop i p = q
  rw [show 16 = 4 + 12 from rfl, List.take_add, show 12 = 4 + 8 from rfl, List.take_add,
    show 8 = 4 + 4 from rfl, List.take_add]
  simp [List.drop_drop]

theorem load_bytes0 {p : Bytes} (h : p.length = 16) : (load p 0).bytes = p := by
  rw [load_bytes]; exact slice_full' h

theorem xor_bytes {x y : M128} (hx : Len4 x.words) (hy : Len4 y.words) :
    (xor x y).bytes = xorb x.bytes y.bytes := by
  obtain ⟨a, b, c, d⟩ := x
  obtain ⟨a', b', c', d'⟩ := y
  simp only [M128.words, Len4, List.mem_cons, List.not_mem_nil, or_false, forall_eq_or_imp,
    forall_eq] at hx hy
  obtain ⟨ha, hb, hc, hd⟩ := hx
  obtain ⟨ha', hb', hc', hd'⟩ := hy
  simp only [xor, M128.bytes]
  rw [xorb_append (by simp [ha, ha', hb, hb', hc, hc']), xorb_append (by simp [ha, ha', hb, hb']),
    xorb_append (by simp [ha, ha'])]

theorem load_len4 {p : Bytes} {i : Nat} (h : i + 16 ≤ p.length) : Len4 (load p i).words := by
  rw [load_words]
  intro x hx
  simp only [List.mem_cons, List.not_mem_nil, or_false] at hx
  rcases hx with rfl | rfl | rfl | rfl <;> exact slice_len (by omega)

/-- What the loop and the last instruction compute. -/
theorem crypt_eq {op opLast : M128 → M128 → M128} {f g : Bytes → Bytes → Bytes}
    (hop : ∀ t k : M128, t.bytes.length = 16 → k.bytes.length = 16 →
      (op t k).bytes = f t.bytes k.bytes)
    (hlast : ∀ t k : M128, t.bytes.length = 16 → k.bytes.length = 16 →
      (opLast t k).bytes = g t.bytes k.bytes)
    (hf : ∀ s k : Bytes, s.length = 16 → k.length = 16 → (f s k).length = 16)
    {sched : Bytes} {nr : Nat} (hnr : 2 ≤ nr) {K : Nat → Bytes} (hl : 16 * (nr + 1) ≤ sched.length)
    (hK : ∀ r ≤ nr, slice sched (16 * r) 16 = K r) {b : Bytes} (hb : b.length = 16) :
    crypt op opLast sched nr b = some (g ((List.range (nr - 1)).foldl
      (fun s i => f s (K (i + 1))) (xorb b (K 0))) (K nr)) := by
  have hr : ∀ m n j t, t.bytes.length = 16 → nr = j + m + 1 → m < n →
      (rounds op sched nr n j t).1.bytes.length = 16 ∧ (rounds op sched nr n j t).2 = nr ∧ (rounds op sched nr n j t).1.bytes
        = (List.range (m + 1)).foldl (fun s i => f s (K (j + i))) t.bytes := by
    intro m
    induction m with
    | zero =>
      intro n j t ht hj hn
      obtain ⟨n, rfl⟩ : ∃ n', n = n' + 1 := ⟨n - 1, by omega⟩
      simp only [rounds]
      rw [if_neg (by omega)]
      have hk16 : (load sched (16 * j)).bytes.length = 16 := by
        rw [load_bytes]; exact slice_len (by omega)
      rw [hop _ _ ht hk16]
      refine ⟨hf _ _ ht hk16, by omega, ?_⟩
      rw [load_bytes, hK j (by omega)]
      rfl
    | succ m ih =>
      intro n j t ht hj hn
      obtain ⟨n, rfl⟩ : ∃ n', n = n' + 1 := ⟨n - 1, by omega⟩
      simp only [rounds]
      rw [if_pos (by omega)]
      have hk16 : (load sched (16 * j)).bytes.length = 16 := by
        rw [load_bytes]; exact slice_len (by omega)
      obtain ⟨i0, i1, i2⟩ := ih n (j + 1) (op t (load sched (16 * j)))
        (by rw [hop _ _ ht hk16]; exact hf _ _ ht hk16) (by omega) (by omega)
      refine ⟨i0, i1, ?_⟩
      rw [i2, hop _ _ ht hk16, load_bytes,
        hK j (by omega), List.range_succ_eq_map (n := m + 1), List.foldl_cons, List.foldl_map]
      simp only [Nat.succ_eq_add_one, Nat.add_zero]
      congr 1
      funext s i
      rw [show j + 1 + i = j + (i + 1) by omega]
  unfold crypt
  rw [if_neg (by rw [Nat.max_eq_right hnr]; omega)]
  have hx := xor_bytes (load_len4 (p := b) (i := 0) (by omega))
    (load_len4 (p := sched) (i := 0) (by omega))
  obtain ⟨r0, r1, r2⟩ := hr (nr - 2) nr 1 (xor (load b 0) (load sched 0))
    (by rw [hx, load_bytes0 hb, load_bytes]; exact xorb_len hb (slice_len (by omega))) (by omega)
    (by omega)
  simp only
  rw [r1, hlast _ _ r0 (by rw [load_bytes]; exact slice_len (by omega)), r2, load_bytes,
    hK nr (Nat.le_refl _), hx, load_bytes0 hb, load_bytes]
  have h0 := hK 0 (by omega)
  rw [Nat.mul_zero] at h0
  rw [h0, show nr - 2 + 1 = nr - 1 by omega]
  congr 3
  funext s i
  rw [Nat.add_comm 1 i]

theorem shift_sub_comm (s : Bytes) (h : s.length = 16) :
    Spec.Aes.subBytes (Spec.Aes.shiftRows s) = Spec.Aes.shiftRows (Spec.Aes.subBytes s) := by
  match s, h with
  | [a0, a1, a2, a3, b0, b1, b2, b3, c0, c1, c2, c3, d0, d1, d2, d3], _ => rfl

/-- Elements of a schedule. -/
theorem ks_getD {ks : List M128} {w : List Bytes} (h : ks.flatMap M128.words = w) {r : Nat}
    (hr : r < ks.length) : (ks.getD r M128.zero).bytes = Spec.Aes.roundKey w r := by
  subst h
  induction ks generalizing r with
  | nil => simp at hr
  | cons k ks ih =>
    cases r with
    | zero =>
      simp [Spec.Aes.roundKey, M128.words, M128.bytes]
    | succ r =>
      have := ih (r := r) (by simpa using hr)
      rw [List.getD_cons_succ, this]
      unfold Spec.Aes.roundKey
      rw [List.flatMap_cons, show 4 * (r + 1) = k.words.length + 4 * r by simp [M128.words]; omega,
        ← List.drop_drop, List.drop_left]

theorem ks_length {ks : List M128} {w : List Bytes} (h : ks.flatMap M128.words = w) :
    w.length = 4 * ks.length := by
  subst h
  induction ks with
  | nil => rfl
  | cons k ks ih => rw [List.flatMap_cons, List.length_append, ih]; simp [M128.words]; omega

theorem flatMap_length16 {f : Nat → Bytes} {n : Nat} (h : ∀ i < n, (f i).length = 16) :
    ((List.range n).flatMap f).length = 16 * n := by
  induction n with
  | zero => rfl
  | succ n ih =>
    rw [List.range_succ, List.flatMap_append, List.length_append, ih fun i hi => h i (by omega)]
    simp [h n (by omega)]; omega

theorem slice_flatMap {f : Nat → Bytes} {n : Nat} (h : ∀ i < n, (f i).length = 16)
    (rest : Bytes) {r : Nat} (hr : r < n) :
    slice ((List.range n).flatMap f ++ rest) (16 * r) 16 = f r := by
  obtain ⟨m, rfl⟩ : ∃ m, n = r + 1 + m := ⟨n - r - 1, by omega⟩
  have hl := flatMap_length16 (f := f) (n := r) fun i hi => h i (by omega)
  rw [List.range_add, List.flatMap_append, List.range_succ, List.flatMap_append,
    List.append_assoc, List.append_assoc]
  unfold slice
  rw [← hl, List.drop_left]
  have h16 := h r (by omega)
  simp only [List.flatMap_cons, List.flatMap_nil, List.append_nil]
  rw [← h16, List.take_left]

theorem keyExpansion_eq {key : Bytes} (pad : Bytes) (hk : KeySize key) :
    ∃ ks, keyExpansion key pad (8 * key.length) = some (ks, Spec.Aes.rounds (key.length / 4)) ∧
      ks.flatMap M128.words = Spec.Aes.keyExpansion key := by
  rcases hk with h | h | h
  · exact ⟨expansion128 key, by rw [h]; rfl, expansion128_eq h⟩
  · exact ⟨expansion192 key pad, by rw [h]; rfl, expansion192_eq pad h⟩
  · exact ⟨expansion256 key, by rw [h]; rfl, expansion256_eq h⟩

theorem enc_stub (junk pad : Bytes) {key : Bytes} (hk : KeySize key) :
    ∃ k, cookEnc junk key pad = some k ∧ ∀ b : Bytes, b.length = 16 →
      crypt aesenc aesenclast k.sched k.nr.toNat b = some (Spec.Aes.encrypt key b) := by
  obtain ⟨ks, hks, hw⟩ := keyExpansion_eq pad hk
  have hl := Rijndael.keyExpansion_length hk
  have hkl := ks_length hw
  have hnr : 2 ≤ Spec.Aes.rounds (key.length / 4) := by unfold Spec.Aes.rounds; omega
  have h16 : ∀ i < Spec.Aes.rounds (key.length / 4) + 1,
      (ks.getD i M128.zero).bytes = Spec.Aes.roundKey (Spec.Aes.keyExpansion key) i := by
    intro i hi
    exact ks_getD hw (by omega)
  have h16' : ∀ i < Spec.Aes.rounds (key.length / 4) + 1,
      (ks.getD i M128.zero).bytes.length = 16 := by
    intro i hi
    rw [h16 i hi]
    exact Spec.Aes.roundKey_keyExpansion hk (by omega)
  refine ⟨_, by unfold cookEnc; rw [hks]; rfl, ?_⟩
  intro b hb
  simp only [Aes.nr_toNat hk]
  have hlen := flatMap_length16 h16'
  rw [crypt_eq (f := Spec.Aes.encRound) (g := Spec.Aes.encLast) ?_ ?_ ?_ hnr
    (K := Spec.Aes.roundKey (Spec.Aes.keyExpansion key)) (by rw [List.length_append, hlen]; omega)
    ?_ hb]
  · rfl
  · intro t k ht hk'
    unfold aesenc Spec.Aes.encRound
    rw [load_bytes0, shift_sub_comm _ ht]
    rw [shift_sub_comm _ ht]
    exact xorb_len (Spec.Aes.mixColumns_len (Spec.Aes.subShift_length _)).1 hk'
  · intro t k ht hk'
    unfold aesenclast Spec.Aes.encLast
    rw [load_bytes0, shift_sub_comm _ ht]
    rw [shift_sub_comm _ ht]
    exact xorb_len (Spec.Aes.subShift_length _) hk'
  · intro s k _ hk'
    exact xorb_len (Spec.Aes.mixColumns_len (Spec.Aes.subShift_length _)).1 hk'
  · intro r hr
    rw [slice_flatMap h16' _ (by omega), h16 r (by omega)]

theorem dec_stub (junk pad : Bytes) {key : Bytes} (hk : KeySize key) :
    ∃ k, cookDec junk key pad = some k ∧ ∀ b : Bytes, b.length = 16 →
      crypt aesdec aesdeclast k.sched k.nr.toNat b = some (Spec.Aes.decrypt key b) := by
  obtain ⟨ks, hks, hw⟩ := keyExpansion_eq pad hk
  have hl := Rijndael.keyExpansion_length hk
  have hkl := ks_length hw
  have hnr : 2 ≤ Spec.Aes.rounds (key.length / 4) := by unfold Spec.Aes.rounds; omega
  have hrk : ∀ i ≤ Spec.Aes.rounds (key.length / 4),
      (Spec.Aes.roundKey (Spec.Aes.keyExpansion key) i).length = 16 := fun i hi =>
    Spec.Aes.roundKey_keyExpansion hk hi
  refine ⟨_, by unfold cookDec; rw [hks]; rfl, ?_⟩
  intro b hb
  simp only [Aes.nr_toNat hk]
  unfold Spec.Aes.decrypt
  simp only
  generalize Spec.Aes.rounds (key.length / 4) = nr at *
  generalize Spec.Aes.keyExpansion key = w at *
  have h16 : ∀ i ≤ nr, (ks.getD i M128.zero).bytes = Spec.Aes.roundKey w i := by
    intro i hi
    exact ks_getD hw (by omega)
  -- the bytes stored are the round keys `DK`
  let DK := fun r => if r = 0 ∨ r = nr then Spec.Aes.roundKey w (nr - r)
    else Spec.Aes.invMixColumns (Spec.Aes.roundKey w (nr - r))
  have hDK : ∀ i < nr + 1, (DK i).length = 16 := by
    intro i hi
    simp only [DK]
    split
    · exact hrk _ (by omega)
    · exact (Spec.Aes.mixColumns_len (hrk _ (by omega))).2
  have hb' : (ks.getD nr M128.zero).bytes
      ++ ((List.range (nr - 1)).flatMap fun i =>
        (aesimc (ks.getD (nr - (i + 1)) M128.zero)).bytes)
      ++ (ks.getD 0 M128.zero).bytes = (List.range (nr + 1)).flatMap DK := by
    obtain ⟨n, rfl⟩ : ∃ n, nr = n + 1 := ⟨nr - 1, by omega⟩
    rw [List.range_succ, List.flatMap_append, List.range_succ_eq_map, List.flatMap_cons,
      List.flatMap_map]
    simp only [List.flatMap_cons, List.flatMap_nil, List.append_nil, Nat.add_sub_cancel]
    congr 1
    · congr 1
      · rw [h16 _ (Nat.le_refl _)]
        simp only [DK, true_or, if_true, Nat.sub_zero]
      · rw [List.flatMap_def, List.flatMap_def]
        congr 1
        apply List.map_congr_left
        intro i hi
        rw [List.mem_range] at hi
        simp only [DK, Nat.succ_eq_add_one]
        rw [if_neg (by omega)]
        unfold aesimc
        rw [h16 _ (by omega), load_bytes0 (Spec.Aes.mixColumns_len (hrk _ (by omega))).2]
    · rw [h16 0 (by omega)]
      simp only [DK, or_true, if_true, Nat.sub_self]
  rw [hb']
  have hlen := flatMap_length16 hDK
  rw [crypt_eq (f := fun s k => xorb (Spec.Aes.invMixColumns (Spec.Aes.invShiftSub s)) k)
    (g := Spec.Aes.decLast) ?_ ?_ ?_ hnr (K := DK)
    (by rw [List.length_append, hlen]; omega) ?_ hb]
  · have e0 : DK 0 = Spec.Aes.roundKey w nr := by simp only [DK, true_or, if_true, Nat.sub_zero]
    have en : DK nr = Spec.Aes.roundKey w 0 := by simp only [DK, or_true, if_true, Nat.sub_self]
    rw [e0, en]
    congr 2
    apply Spec.Aes.foldl_range_congr
    intro s i hi
    simp only [DK]
    rw [if_neg (by omega), show nr - (i + 1) = nr - 1 - i by omega]
    exact (Spec.Aes.invMixColumns_xor (Spec.Aes.invShiftSub_length s) (hrk _ (by omega))).symm
  · intro t k ht hk'
    unfold aesdec
    exact load_bytes0 (xorb_len (Spec.Aes.mixColumns_len (Spec.Aes.invShiftSub_length _)).2 hk')
  · intro t k ht hk'
    unfold aesdeclast
    exact load_bytes0 (xorb_len (Spec.Aes.invShiftSub_length _) hk')
  · intro s k _ hk'
    exact xorb_len (Spec.Aes.mixColumns_len (Spec.Aes.invShiftSub_length _)).2 hk'
  · intro r hr
    exact slice_flatMap hDK _ (by omega)

theorem enc_pure (junk pad : Bytes) {key : Bytes} (hk : KeySize key) :
    ∃ k, encNew junk key pad = some (.ok k) ∧ PureCipher encCipher k (Spec.Aes.encrypt key) := by
  obtain ⟨k, h1, h2⟩ := enc_stub junk pad hk
  refine ⟨k, ?_, ?_⟩
  · unfold encNew
    rw [if_pos (by exact hk), h1]; rfl
  have := checkedCipher_pure (n := 16) (k := k)
    (stub := fun k => crypt aesenc aesenclast k.sched k.nr.toNat) (stubs := fun _ => [])
    (wipe := wipeKey)
    (E := Spec.Aes.encrypt key) (Es := []) (by decide) h2
    (by simp) (fun b _ => Spec.Aes.encrypt_length hk b) (by simp)
  exact this

theorem dec_pure (junk pad : Bytes) {key : Bytes} (hk : KeySize key) :
    ∃ k, decNew junk key pad = some (.ok k) ∧ PureCipher decCipher k (Spec.Aes.decrypt key) := by
  obtain ⟨k, h1, h2⟩ := dec_stub junk pad hk
  refine ⟨k, ?_, ?_⟩
  · unfold decNew
    rw [if_pos (by exact hk), h1]; rfl
  have := checkedCipher_pure (n := 16) (k := k)
    (stub := fun k => crypt aesdec aesdeclast k.sched k.nr.toNat) (stubs := fun _ => [])
    (wipe := wipeKey)
    (E := Spec.Aes.decrypt key) (Es := []) (by decide) h2
    (by simp) (fun b _ => Spec.Aes.decrypt_length hk b) (by simp)
  exact this

end Verif.Aesni
