import Verif.Proof.Blake3Core
/-
BLAKE3: the chunk state, and the hashing of whole chunks and parents.
-/
namespace Verif
open Spec

theorem chunkFrom_short {h : List W32} {t : W64} {d start : W32} {c : Bytes} (hc : c.length ≤ 64) :
    B3.chunkFrom h t d start c =
      ⟨h, B3.toWords (B3.pad64 c), t, BitVec.ofNat 32 c.length, d ||| start ||| B3.CHUNK_END⟩ := by
  rw [B3.chunkFrom, if_pos hc]

theorem chunkFrom_long {h : List W32} {t : W64} {d start : W32} {c : Bytes} (hc : 64 < c.length) :
    B3.chunkFrom h t d start c =
      B3.chunkFrom ((B3.compress h (B3.toWords (c.take 64)) t 64 (d ||| start)).take 8) t d 0
        (c.drop 64) := by
  rw [B3.chunkFrom, if_neg (by omega)]

/-- The chunk state has absorbed the bytes `r` of chunk number `t`, the last of which, `rest`, are
in the buffer. -/
structure CRep (key : List W32) (t : W64) (f : BitVec 8) (c : B3Chunk) (r rest : Bytes) : Prop where
  flags : c.flags = f
  counter : c.counter = t
  cv : c.cv.length = 8
  buf : c.buf = B3.pad64 rest
  bufLen : c.bufLen = rest.length
  le : rest.length ≤ 64
  len : r.length = 64 * c.blocks + rest.length
  node : ∀ x : Bytes, rest ++ x ≠ [] ∨ c.blocks = 0 →
    B3.chunkFrom key t (f.setWidth 32) B3.CHUNK_START (r ++ x) =
      B3.chunkFrom c.cv t (f.setWidth 32) ((b3StartFlag c).setWidth 32) (rest ++ x)

/-- Same, with a buffer that is not empty unless the chunk is. -/
def ChunkRep (key : List W32) (t : W64) (f : BitVec 8) (c : B3Chunk) (r : Bytes) : Prop :=
  ∃ rest, CRep key t f c r rest ∧ (0 < c.blocks → rest ≠ [])

theorem pad64_length {b : Bytes} (h : b.length ≤ 64) : (B3.pad64 b).length = 64 := by
  simp [B3.pad64]; omega

theorem pad64_full {b : Bytes} (h : b.length = 64) : B3.pad64 b = b := by
  simp [B3.pad64, h]

theorem splice_pad64 {rest x : Bytes} (h : rest.length + x.length ≤ 64) :
    splice (B3.pad64 rest) rest.length x = B3.pad64 (rest ++ x) := by
  unfold splice B3.pad64
  rw [List.take_left', List.drop_append, List.drop_eq_nil_of_le (as := rest) (by omega),
    List.nil_append, List.drop_replicate, List.length_append, List.append_assoc]
  · rw [show 64 - rest.length - (rest.length + x.length - rest.length)
      = 64 - (rest.length + x.length) by omega, List.append_assoc]
  · rfl

theorem b3FillBuf_eq {c : B3Chunk} {rest input : Bytes} (hb : c.buf = B3.pad64 rest)
    (hl : c.bufLen = rest.length) (hle : rest.length ≤ 64) :
    ∃ k, k = min (64 - rest.length) input.length ∧
      b3FillBuf c input = some ({ c with
        buf := B3.pad64 (rest ++ input.take k), bufLen := (rest ++ input.take k).length }, k) := by
  refine ⟨_, rfl, ?_⟩
  unfold b3FillBuf
  simp only [hl, hb]
  have e : (if 64 - rest.length > input.length then input.length else 64 - rest.length)
      = min (64 - rest.length) input.length := by
    split <;> omega
  rw [e]
  have h1 : rest.length + (input.take (min (64 - rest.length) input.length)).length ≤ 64 := by
    rw [List.length_take]; omega
  rw [cWrite_ok (by rw [pad64_length hle]; exact h1), splice_pad64 h1, Option.map_some,
    List.length_append]
  have e2 : (input.take (min (64 - rest.length) input.length)).length
      = min (64 - rest.length) input.length := by rw [List.length_take]; omega
  rw [e2]

theorem startFlag_next (cv : List W32) (t : W64) (b : Bytes) (l n : Nat) (f : BitVec 8) :
    (b3StartFlag ⟨cv, t, b, l, n + 1, f⟩).setWidth 32 = 0#32 := by
  unfold b3StartFlag
  rw [if_neg (Nat.succ_ne_zero n)]
  rfl

/-- Compressing a full block that is not the last one. -/
theorem CRep.step {key : List W32} {t : W64} {f : BitVec 8} {c : B3Chunk} {r rest : Bytes}
    (h : CRep key t f c r rest) {b : Bytes} (hl : (rest ++ b).length = 64)
    (buf : Bytes) (hbuf : buf = B3.pad64 []) :
    CRep key t f { c with
      cv := b3CompressInPlace c.cv (rest ++ b) 64 c.counter (c.flags ||| b3StartFlag c),
      blocks := c.blocks + 1, bufLen := 0, buf := buf } (r ++ b) [] where
  flags := h.flags
  counter := h.counter
  cv := b3InPlace_length _ _ _ _ _
  buf := hbuf
  bufLen := rfl
  le := by decide
  len := by
    have := h.len
    rw [List.length_append] at hl ⊢
    simp only [List.length_nil]
    omega
  node := by
    intro x hx
    have hx : x ≠ [] := by
      rcases hx with hx | hx
      · exact hx
      · exact absurd hx (by simp)
    have hne : rest ++ (b ++ x) ≠ [] := by
      intro h0; simp at h0; exact hx h0.2.2
    rw [List.append_assoc, h.node (b ++ x) (Or.inl hne), ← List.append_assoc]
    have h64 : 64 < (rest ++ b ++ x).length := by
      rw [List.length_append, hl]
      have := List.length_pos_iff.2 hx
      omega
    rw [chunkFrom_long h64, List.take_left' hl, List.drop_left' hl, startFlag_next,
      b3InPlace_eq h.cv hl, h.flags, h.counter, BitVec.setWidth_or]
    rfl

theorem b3ChunkTail_nil {key : List W32} {t : W64} {f : BitVec 8} {c : B3Chunk} {r rest : Bytes}
    (h : CRep key t f c r rest) : b3ChunkTail c [] = some c := by
  unfold b3ChunkTail
  rw [b3ChunkLoop, if_neg (by simp)]
  simp only
  obtain ⟨k, hk, e⟩ := b3FillBuf_eq (input := []) h.buf h.bufLen h.le
  rw [e]
  simp only [List.take_nil, List.append_nil, ← h.buf, ← h.bufLen, Option.map_some]

theorem b3ChunkTail_rep {key : List W32} {t : W64} {f : BitVec 8} (input : Bytes) {c : B3Chunk}
    {r : Bytes} (h : CRep key t f c r []) (hi : input ≠ [] ∨ c.blocks = 0) :
    ∃ c', b3ChunkTail c input = some c' ∧ ChunkRep key t f c' (r ++ input) := by
  induction hn : input.length using Nat.strongRecOn generalizing input c r with
  | _ n ih =>
    by_cases h64 : input.length > 64
    · have e : b3ChunkTail c input = b3ChunkTail { c with
          cv := b3CompressInPlace c.cv (input.take 64) 64 c.counter (c.flags ||| b3StartFlag c),
          blocks := c.blocks + 1 } (input.drop 64) := by
        unfold b3ChunkTail
        rw [b3ChunkLoop, if_pos h64]
      have hs := h.step (b := input.take 64) (by simp; omega) _ rfl
      rw [List.nil_append] at hs
      have hc : ({ c with
          cv := b3CompressInPlace c.cv (input.take 64) 64 c.counter (c.flags ||| b3StartFlag c),
          blocks := c.blocks + 1 } : B3Chunk) = { c with
          cv := b3CompressInPlace c.cv (input.take 64) 64 c.counter (c.flags ||| b3StartFlag c),
          blocks := c.blocks + 1, bufLen := 0, buf := B3.pad64 [] } := by
        rw [← h.buf]
        have := h.bufLen
        simp only [List.length_nil] at this
        rw [← this]
      rw [e, hc]
      have hne : input.drop 64 ≠ [] := by
        intro h0
        have := congrArg List.length h0
        simp at this; omega
      obtain ⟨c', h1, h2⟩ := ih (input.drop 64).length (by simp; omega) (input.drop 64) hs
        (Or.inl hne) rfl
      refine ⟨c', h1, ?_⟩
      rw [List.append_assoc, List.take_append_drop] at h2
      exact h2
    · unfold b3ChunkTail
      rw [b3ChunkLoop, if_neg h64]
      simp only
      obtain ⟨k, hk, e⟩ := b3FillBuf_eq (input := input) h.buf h.bufLen h.le
      have hki : k = input.length := by
        simp only [List.length_nil] at hk; omega
      rw [hki, List.take_length, List.nil_append] at e
      rw [e, Option.map_some]
      refine ⟨_, rfl, input, ⟨h.flags, h.counter, h.cv, rfl, rfl, by omega, ?_, ?_⟩, ?_⟩
      · have := h.len
        simp only [List.length_append, List.length_nil] at this ⊢
        omega
      · intro x hx
        rw [List.append_assoc, h.node (input ++ x) hx]
        rfl
      · intro hb
        rcases hi with hi | hi
        · exact hi
        · exact absurd hi (by simp only at hb; omega)

theorem b3ChunkUpdate_rep {key : List W32} {t : W64} {f : BitVec 8} (input : Bytes) {c : B3Chunk}
    {r : Bytes} (h : ChunkRep key t f c r) :
    ∃ c', b3ChunkUpdate c input = some c' ∧ ChunkRep key t f c' (r ++ input) := by
  obtain ⟨rest, hr, hne⟩ := h
  unfold b3ChunkUpdate
  by_cases h0 : c.bufLen > 0
  · rw [if_pos h0]
    obtain ⟨k, hk, e⟩ := b3FillBuf_eq (input := input) hr.buf hr.bufLen hr.le
    rw [e]
    simp only
    have hrne : rest ≠ [] := by
      intro h; rw [hr.bufLen, h] at h0; simp at h0
    have hlen : (rest ++ input.take k).length = rest.length + k := by
      rw [List.length_append, List.length_take]; omega
    have hle := hr.le
    by_cases hd : (input.drop k).length > 0
    · rw [if_pos hd]
      have hk64 : rest.length + k = 64 := by rw [List.length_drop] at hd; omega
      have hs := hr.step (b := input.take k) (by omega) (List.replicate 64 0) (by rfl)
      have hp : B3.pad64 (rest ++ input.take k) = rest ++ input.take k := pad64_full (by omega)
      rw [hp]
      obtain ⟨c', h1, h2⟩ := b3ChunkTail_rep (input.drop k) hs
        (Or.inl (List.ne_nil_of_length_pos hd))
      refine ⟨c', h1, ?_⟩
      rw [List.append_assoc, List.take_append_drop] at h2
      exact h2
    · rw [if_neg hd]
      have hd0 : input.drop k = [] := List.length_eq_zero_iff.1 (by omega)
      have hki : k = input.length := by rw [List.length_drop] at hd; omega
      rw [hd0, hki, List.take_length]
      have hc : CRep key t f { c with
          buf := B3.pad64 (rest ++ input),
          bufLen := (rest ++ input).length } (r ++ input) (rest ++ input) := by
        refine ⟨hr.flags, hr.counter, hr.cv, rfl, rfl, ?_, ?_, ?_⟩
        · rw [hki, List.take_length] at hlen; omega
        · have := hr.len
          simp only [List.length_append]; omega
        · intro x _
          rw [List.append_assoc, List.append_assoc, hr.node (input ++ x) (Or.inl (by simp [hrne]))]
          rfl
      exact ⟨_, b3ChunkTail_nil hc, rest ++ input, hc, fun _ => by simp [hrne]⟩
  · rw [if_neg h0]
    have hr0 : rest = [] := List.length_eq_zero_iff.1 (by have := hr.bufLen; omega)
    subst hr0
    refine b3ChunkTail_rep input hr (Or.inr ?_)
    exact Nat.eq_zero_of_not_pos fun hb => hne hb rfl

theorem chunkRep_init (key : List W32) (hk : key.length = 8) (t : W64) (f : BitVec 8) (c : B3Chunk)
    (hc : c = ⟨key, t, List.replicate 64 0, 0, 0, f⟩) : ChunkRep key t f c [] := by
  subst hc
  exact ⟨[], ⟨rfl, rfl, hk, rfl, rfl, by decide, rfl, fun x _ => rfl⟩, fun h => absurd h (Nat.lt_irrefl 0)⟩

theorem ChunkRep.flags {key : List W32} {t : W64} {f : BitVec 8} {c : B3Chunk} {r : Bytes}
    (h : ChunkRep key t f c r) : c.flags = f := h.elim fun _ x => x.1.flags
theorem ChunkRep.counter {key : List W32} {t : W64} {f : BitVec 8} {c : B3Chunk} {r : Bytes}
    (h : ChunkRep key t f c r) : c.counter = t := h.elim fun _ x => x.1.counter
theorem ChunkRep.len {key : List W32} {t : W64} {f : BitVec 8} {c : B3Chunk} {r : Bytes}
    (h : ChunkRep key t f c r) : b3ChunkLen c = r.length := by
  obtain ⟨rest, hr, _⟩ := h
  rw [b3ChunkLen, hr.len, hr.bufLen]

theorem ChunkRep.out {key : List W32} {t : Nat} {f : BitVec 8} {c : B3Chunk} {r : Bytes}
    (h : ChunkRep key (BitVec.ofNat 64 t) f c r) :
    (b3ChunkOutput c).Ok ∧ (b3ChunkOutput c).node = B3.chunkNode key (f.setWidth 32) t r := by
  obtain ⟨rest, hr, hne⟩ := h
  refine ⟨⟨hr.cv, ?_⟩, ?_⟩
  · show c.buf.length = 64
    rw [hr.buf, pad64_length hr.le]
  · have h1 := hr.node [] (by
      by_cases hb : 0 < c.blocks
      · left; simpa using hne hb
      · right; omega)
    rw [List.append_nil, List.append_nil, chunkFrom_short hr.le] at h1
    unfold B3.chunkNode
    rw [h1]
    unfold b3ChunkOutput B3Output.node
    simp only [hr.buf, hr.bufLen, hr.counter, hr.flags, BitVec.setWidth_or]
    rfl

theorem b3HashOneLoop_eq (t : W64) (f bf : BitVec 8) (start : W32) (n : Nat) {input : Bytes}
    {cv : List W32} (hcv : cv.length = 8) (hl : input.length = 64 * (n + 1))
    (hbf : bf.setWidth 32 = f.setWidth 32 ||| start) :
    b3HashOneLoop t f b3ChunkEnd (n + 1) input cv bf =
      (B3.chunkFrom cv t (f.setWidth 32) start input).cv := by
  induction n generalizing input cv bf start with
  | zero =>
    rw [b3HashOneLoop, b3HashOneLoop, if_pos rfl, chunkFrom_short (by omega), pad64_full (by omega),
      List.take_of_length_le (by omega), b3InPlace_eq hcv (by omega), BitVec.setWidth_or, hbf]
    unfold B3.Node.cv
    simp only
    rw [show input.length = 64 by omega]
    rfl
  | succ n ih =>
    rw [b3HashOneLoop, if_neg (by omega), chunkFrom_long (by omega)]
    rw [ih f 0 (b3InPlace_length _ _ _ _ _) (by rw [List.length_drop]; omega)
      (BitVec.or_zero (x := f.setWidth 32)).symm, b3InPlace_eq hcv (by rw [List.length_take]; omega), hbf]
    rfl

theorem b3HashOne_chunk {key : List W32} (hk : key.length = 8) (t : Nat) (f : BitVec 8)
    {input : Bytes} (hl : input.length = 1024) :
    b3HashOne input 16 key (BitVec.ofNat 64 t) f b3ChunkStart b3ChunkEnd =
      B3.ofWords (B3.chunkNode key (f.setWidth 32) t input).cv := by
  unfold b3HashOne
  rw [b3HashOneLoop_eq _ _ _ B3.CHUNK_START 15 hk hl (by rw [BitVec.setWidth_or]; rfl),
    b3StoreCv_eq (cv_length _)]
  rfl

theorem b3HashOne_parent {key : List W32} (hk : key.length = 8) (f : BitVec 8) (l r : List W32)
    (hl : l.length = 8) (hr : r.length = 8) :
    b3HashOne (B3.ofWords l ++ B3.ofWords r) 1 key 0 (f ||| b3Parent) 0 0 =
      B3.ofWords (B3.parentNode key (f.setWidth 32) l r).cv := by
  have h64 : (B3.ofWords l ++ B3.ofWords r).length = 64 := by
    rw [List.length_append, ofWords_length, ofWords_length, hl, hr]
  unfold b3HashOne
  rw [b3HashOneLoop, b3HashOneLoop, if_pos rfl, List.take_of_length_le (by omega),
    b3InPlace_eq hk h64, ← ofWords_append, toWords_ofWords, b3StoreCv_eq (by simp [compress_length])]
  rw [show (f ||| b3Parent ||| 0 ||| 0) = f ||| b3Parent from
    (BitVec.or_zero (x := _ ||| 0#8)).trans (BitVec.or_zero (x := f ||| b3Parent)),
    BitVec.setWidth_or]
  unfold B3.Node.cv B3.parentNode
  simp only
  rfl

end Verif
