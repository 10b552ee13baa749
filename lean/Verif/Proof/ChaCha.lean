import Verif.Proof.Stream
import Verif.Proof.Words
import Verif.Proof.Chunks
/-
ChaCha20: the C code produces the keystream of RFC 8439 (and of the original 64-bit counter
variant).
-/
namespace Verif
open Spec

/-- The words of the state, in order. -/
def X16.toList (x : X16) : List W32 :=
  [x.x0, x.x1, x.x2, x.x3, x.x4, x.x5, x.x6, x.x7, x.x8, x.x9, x.x10, x.x11, x.x12, x.x13, x.x14,
   x.x15]

theorem quarterRound_eq (a b c d : W32) : quarterRound a b c d = ChaCha20.quarter a b c d := by
  simp only [quarterRound, ChaCha20.quarter]
  rw [rol32_eq _ (by decide), rol32_eq _ (by decide), rol32_eq _ (by decide),
    rol32_eq _ (by decide)]

theorem doubleRound_toList (x : X16) : (doubleRound x).toList = ChaCha20.innerBlock x.toList := by
  obtain ⟨x0, x1, x2, x3, x4, x5, x6, x7, x8, x9, x10, x11, x12, x13, x14, x15⟩ := x
  simp only [doubleRound, quarterRound_eq, ChaCha20.innerBlock, X16.toList, List.foldl,
    ChaCha20.quarterAt, List.getD_cons_zero, List.getD_cons_succ, List.set]

theorem repeat_succ' (f : α → α) (n : Nat) (x : α) : Nat.repeat f (n + 1) x = Nat.repeat f n (f x) := by
  induction n with
  | zero => rfl
  | succ n ih => rw [Nat.repeat, ih]; rfl

theorem doubleRounds_toList (n : Nat) (x : X16) :
    (doubleRounds n x).toList = Nat.repeat ChaCha20.innerBlock n x.toList := by
  induction n generalizing x with
  | zero => rfl
  | succ n ih => rw [doubleRounds, ih, doubleRound_toList, repeat_succ']

theorem chachaBlock_output (c : ChaCha) :
    (chachaBlock c).output = ChaCha20.block c.input.toList := by
  simp only [chachaBlock, ChaCha20.block, ← doubleRounds_toList]
  generalize doubleRounds 10 c.input = x
  simp only [X16.toList, List.zipWith, List.map, List.flatten_cons, List.flatten_nil, ← toLE32_eq,
    List.append_assoc, List.append_nil]

theorem chacha_block_length {s : List W32} (h : s.length = 16) :
    (ChaCha20.block s).length = 64 := by
  match s, h with
  | [x0, x1, x2, x3, x4, x5, x6, x7, x8, x9, x10, x11, x12, x13, x14, x15], _ =>
    have := doubleRounds_toList 10 ⟨x0, x1, x2, x3, x4, x5, x6, x7, x8, x9, x10, x11, x12, x13, x14, x15⟩
    have hb := chachaBlock_output
      ⟨⟨x0, x1, x2, x3, x4, x5, x6, x7, x8, x9, x10, x11, x12, x13, x14, x15⟩, [], 0, 0⟩
    have e : X16.toList ⟨x0, x1, x2, x3, x4, x5, x6, x7, x8, x9, x10, x11, x12, x13, x14, x15⟩
      = [x0, x1, x2, x3, x4, x5, x6, x7, x8, x9, x10, x11, x12, x13, x14, x15] := rfl
    rw [← e, ← hb]
    simp only [chachaBlock, toLE32, List.length_append, List.length_cons, List.length_nil]

theorem words_cons {b : Bytes} (h : 4 ≤ b.length) :
    ChaCha20.words b = le32 b :: ChaCha20.words (b.drop 4) := by
  have : b ≠ [] := by intro hb; subst hb; simp at h
  rw [ChaCha20.words, chunks_cons (by decide) this, List.map_cons, le32_eq h]
  rfl

theorem words_nil : ChaCha20.words [] = [] := by rw [ChaCha20.words, chunks_nil]; rfl

theorem words_empty {b : Bytes} (h : b.length = 0) : ChaCha20.words b = [] := by
  rw [List.length_eq_zero_iff.1 h, words_nil]

theorem words_16 {b : Bytes} (h : b.length = 16) :
    ChaCha20.words b = [le32 b, le32 (b.drop 4), le32 (b.drop 8), le32 (b.drop 12)] := by
  rw [words_cons (by omega), words_cons (by simp; omega), words_cons (by simp; omega),
    words_cons (by simp; omega)]
  simp only [List.drop_drop]
  rw [words_empty (by simp; omega)]

theorem words_append {a b : Bytes} (h : a.length = 16) :
    ChaCha20.words (a ++ b) = ChaCha20.words a ++ ChaCha20.words b := by
  match a, h with
  | [a0, a1, a2, a3, a4, a5, a6, a7, a8, a9, a10, a11, a12, a13, a14, a15], _ =>
    rw [words_16 (b := [a0, a1, a2, a3, a4, a5, a6, a7, a8, a9, a10, a11, a12, a13, a14, a15]) rfl]
    rw [words_cons (by simp), words_cons (by simp), words_cons (by simp), words_cons (by simp)]
    rfl

/-- The C context holds the state of block `n`. -/
theorem chachaInit_state (env : Env) {key iv : Bytes} (counter : W64)
    (hk : key.length = 16 ∨ key.length = 32) (hiv : iv.length = 8 ∨ iv.length = 12) :
    (chachaInit env key iv counter).input.toList = ChaCha20.state key iv counter.toNat := by
  have hc1 : (ascii "expand 32-byte k").length = 16 := by decide
  have hc2 : (ascii "expand 16-byte k").length = 16 := by decide
  have hct : counter.setWidth 32 = BitVec.ofNat 32 counter.toNat := by
    apply BitVec.eq_of_toNat_eq; simp
  have hch : (counter >>> 32).setWidth 32 = BitVec.ofNat 32 (counter.toNat / 2 ^ 32) := by
    apply BitVec.eq_of_toNat_eq; simp [Nat.shiftRight_eq_div_pow]
  have hivw : (if iv.length = 8 then [BitVec.ofNat 32 counter.toNat,
        BitVec.ofNat 32 (counter.toNat / 2 ^ 32)]
       else [BitVec.ofNat 32 counter.toNat]) ++ ChaCha20.words iv
      = [(chachaInit env key iv counter).input.x12, (chachaInit env key iv counter).input.x13,
         (chachaInit env key iv counter).input.x14, (chachaInit env key iv counter).input.x15] := by
    rcases hiv with h | h
    · rw [words_cons (by omega), words_cons (by simp; omega), List.drop_drop,
        words_empty (by simp; omega)]
      simp only [chachaInit, h, if_true, hct, hch, List.cons_append, List.nil_append]
    · rw [words_cons (by omega), words_cons (by simp; omega), words_cons (by simp; omega)]
      simp only [List.drop_drop]
      rw [words_empty (by simp; omega)]
      simp only [chachaInit, h, hct, List.cons_append, List.nil_append]
      rfl
  rw [ChaCha20.state, List.append_assoc, hivw]
  rcases hk with h | h
  · rw [ChaCha20.keyWords, if_neg (by omega), words_16 h]
    rw [words_16 (b := ChaCha20.text "expand 16-byte k") hc2]
    simp only [X16.toList, chachaInit, h]
    rfl
  · rw [ChaCha20.keyWords, if_pos h, words_16 (b := ChaCha20.text "expand 32-byte k") hc1]
    have hkw : ChaCha20.words key = ChaCha20.words (key.take 16) ++ ChaCha20.words (key.drop 16) := by
      rw [← words_append (by simp; omega), List.take_append_drop]
    rw [words_cons (by omega), words_cons (by simp; omega), words_cons (by simp; omega),
      words_cons (by simp; omega)]
    simp only [List.drop_drop]
    rw [words_16 (by simp; omega)]
    simp only [X16.toList, chachaInit, h, if_true]
    rfl

theorem keyWords_length {key : Bytes} (hk : key.length = 16 ∨ key.length = 32) :
    (ChaCha20.keyWords key).length = 12 := by
  have := chachaInit_state ⟨0, fun _ _ => 0⟩ (iv := List.replicate 8 0) 0 hk (by simp)
  have := congrArg List.length this
  rw [ChaCha20.state, List.append_assoc, List.length_append,
    words_cons (by simp), words_cons (by simp)] at this
  simp [X16.toList, words_nil] at this
  omega

theorem state_length {key iv : Bytes} (hk : key.length = 16 ∨ key.length = 32)
    (hiv : iv.length = 8 ∨ iv.length = 12) (n : Nat) : (ChaCha20.state key iv n).length = 16 := by
  have := chachaInit_state ⟨0, fun _ _ => 0⟩ (iv := iv) 0 hk hiv
  have := congrArg List.length this
  rw [ChaCha20.state, List.length_append, List.length_append] at this ⊢
  simp only [X16.toList, List.length_cons, List.length_nil] at this
  rcases hiv with h | h <;> simp [h] at this ⊢ <;> omega

theorem chachaBlock_input {c : ChaCha} {key iv : Bytes} {n : Nat}
    (hiv : c.ivLength = iv.length) (hiv' : iv.length = 8 ∨ iv.length = 12)
    (hk : key.length = 16 ∨ key.length = 32)
    (h : c.input.toList = ChaCha20.state key iv n) :
    (chachaBlock c).input.toList = ChaCha20.state key iv (n + 1) := by
  have hkl := keyWords_length hk
  have h12 : (BitVec.ofNat 32 (n + 1)) = BitVec.ofNat 32 n + 1 := by
    apply BitVec.eq_of_toNat_eq; simp
  have hcarry : BitVec.ofNat 32 ((n + 1) / 2 ^ 32)
      = if BitVec.ofNat 32 n + 1 = 0 then BitVec.ofNat 32 (n / 2 ^ 32) + 1
        else BitVec.ofNat 32 (n / 2 ^ 32) := by
    rw [← h12]
    have hz : (BitVec.ofNat 32 (n + 1) = 0) ↔ (n + 1) % 2 ^ 32 = 0 := by
      rw [← BitVec.toNat_inj]; simp
    split
    · rename_i hh
      have := hz.1 hh
      rw [show (n + 1) / 2 ^ 32 = n / 2 ^ 32 + 1 by omega]
      apply BitVec.eq_of_toNat_eq; simp
    · rename_i hh
      have : ¬ (n + 1) % 2 ^ 32 = 0 := fun e => hh (hz.2 e)
      rw [show (n + 1) / 2 ^ 32 = n / 2 ^ 32 by omega]
  obtain ⟨⟨x0, x1, x2, x3, x4, x5, x6, x7, x8, x9, x10, x11, x12, x13, x14, x15⟩, out, nx, il⟩ := c
  simp only at hiv
  subst hiv
  simp only [X16.toList, ChaCha20.state] at h ⊢
  match hkw : ChaCha20.keyWords key, hkl with
  | [k0, k1, k2, k3, k4, k5, k6, k7, k8, k9, k10, k11], _ =>
  rw [hkw] at h
  simp only [chachaBlock]
  rcases hiv' with hl | hl
  · rw [hl] at h
    simp only [if_true, List.cons_append, List.nil_append, List.cons.injEq] at h
    obtain ⟨e0, e1, e2, e3, e4, e5, e6, e7, e8, e9, e10, e11, e12, e13, e14⟩ := h
    subst e0 e1 e2 e3 e4 e5 e6 e7 e8 e9 e10 e11 e12 e13
    rw [hl, ← e14, h12, hcarry]
    simp
  · rw [hl] at h
    rw [if_neg (by omega)] at h
    simp only [List.cons_append, List.nil_append, List.cons.injEq] at h
    obtain ⟨e0, e1, e2, e3, e4, e5, e6, e7, e8, e9, e10, e11, e12, e13⟩ := h
    subst e0 e1 e2 e3 e4 e5 e6 e7 e8 e9 e10 e11 e12
    rw [hl, ← e13, h12]
    simp

/-- The context at keystream position `p`: `b` blocks have been produced. -/
def ChaCha.At (key iv : Bytes) (ctr : Nat) (c : ChaCha) (p : Nat) : Prop :=
  c.ivLength = iv.length ∧ c.next ≤ 64 ∧ ∃ b, p + 64 = 64 * b + c.next ∧
    c.input.toList = ChaCha20.state key iv (ctr + b) ∧
    (c.next < 64 → ∃ b', b = b' + 1 ∧ c.output = ChaCha20.block (ChaCha20.state key iv (ctr + b')))

theorem chacha_generates {key iv : Bytes} (hk : key.length = 16 ∨ key.length = 32)
    (hiv : iv.length = 8 ∨ iv.length = 12) (ctr : Nat) :
    Generates chachaNext (ChaCha.At key iv ctr) (ChaCha20.keystream key iv ctr) where
  step := by
    intro c p ⟨h1, h2, b, h3, h4, h5⟩
    have aux : ∀ (c : ChaCha) (b' : Nat), c.ivLength = iv.length → c.next < 64 →
        p = 64 * b' + c.next → c.input.toList = ChaCha20.state key iv (ctr + (b' + 1)) →
        c.output = ChaCha20.block (ChaCha20.state key iv (ctr + b')) →
        c.output[c.next]? = some (ChaCha20.keystream key iv ctr p) ∧
        ChaCha.At key iv ctr { c with next := c.next + 1 } (p + 1) := by
      intro c b' g1 g2 g3 g4 g5
      refine ⟨?_, g1, by simp only; omega, b' + 1, by simp only; omega, g4,
        fun _ => ⟨b', rfl, g5⟩⟩
      have hlen : c.output.length = 64 := by
        rw [g5]
        exact chacha_block_length (state_length hk hiv _)
      rw [ChaCha20.keystream, show p / 64 = b' by omega, show p % 64 = c.next by omega, ← g5,
        List.getD_eq_getElem?_getD, List.getElem?_eq_getElem (by omega)]
      rfl
    by_cases hn : c.next ≥ 64
    · have hn' : c.next = 64 := by omega
      obtain ⟨e1, e2⟩ := aux { chachaBlock c with next := 0 } b h1 (by simp) (by simp only; omega)
        (by
          have := chachaBlock_input h1 hiv hk h4
          rw [Nat.add_assoc] at this
          exact this)
        (by rw [← h4]; exact chachaBlock_output c)
      refine ⟨_, ?_, e2⟩
      simp only [chachaNext]
      rw [if_pos hn]
      simp only [e1]
    · obtain ⟨b', rfl, g5⟩ := h5 (by omega)
      obtain ⟨e1, e2⟩ := aux c b' h1 (by omega) (by omega) h4 g5
      refine ⟨_, ?_, e2⟩
      simp only [chachaNext]
      rw [if_neg hn]
      simp only [e1]

theorem chachaInit_at (env : Env) {key iv : Bytes} (counter : W64)
    (hk : key.length = 16 ∨ key.length = 32) (hiv : iv.length = 8 ∨ iv.length = 12) :
    ChaCha.At key iv counter.toNat (chachaInit env key iv counter) 0 :=
  ⟨rfl, Nat.le_refl _, 0, rfl, chachaInit_state env counter hk hiv, fun h => absurd h (Nat.lt_irrefl 64)⟩

end Verif
