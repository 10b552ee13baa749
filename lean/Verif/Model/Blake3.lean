import Verif.Model.Hash
/-
BLAKE3: src/blake3.c, src/blake3_portable.c, src/blake3_impl.h, src/blake3_dispatch.c,
src/stubs-blake3.c and class `Hash.blake3`. src/dune:7-9 compiles with every SIMD version
disabled, so that src/blake3_dispatch.c always selects the portable functions and a SIMD degree
of 1. Pointers into the input are modelled by the list of the bytes that follow. Not modelled:
the key derivation mode (src/blake3.c:378-392) and `blake3_hasher_reset` (613-616), which
src/stubs-blake3.c does not use.
-/
namespace Verif

/-- `IV`, src/blake3_impl.h:72-74. -/
def b3Iv : List W32 :=
  [0x6A09E667, 0xBB67AE85, 0x3C6EF372, 0xA54FF53A, 0x510E527F, 0x9B05688C, 0x1F83D9AB, 0x5BE0CD19]

/-- `MSG_SCHEDULE`, src/blake3_impl.h:76-84. -/
def b3Schedule : List (List Nat) :=
  [[0, 1, 2, 3, 4, 5, 6, 7, 8, 9, 10, 11, 12, 13, 14, 15],
   [2, 6, 3, 10, 7, 0, 4, 13, 1, 11, 12, 5, 9, 14, 15, 8],
   [3, 4, 10, 12, 13, 2, 7, 14, 6, 5, 9, 0, 11, 15, 8, 1],
   [10, 7, 12, 9, 14, 3, 13, 15, 4, 0, 11, 2, 5, 8, 1, 6],
   [12, 13, 9, 11, 15, 10, 14, 8, 7, 2, 5, 3, 0, 1, 6, 4],
   [9, 14, 11, 5, 8, 12, 15, 1, 13, 3, 0, 10, 2, 6, 4, 7],
   [11, 15, 5, 0, 1, 9, 8, 6, 14, 10, 2, 12, 3, 4, 7, 13]]

/-- `enum blake3_flags`, src/blake3_impl.h:13-21. -/
def b3ChunkStart : BitVec 8 := 1
/-- `CHUNK_END`, src/blake3_impl.h:15. -/
def b3ChunkEnd : BitVec 8 := 2
/-- `PARENT`, src/blake3_impl.h:16. -/
def b3Parent : BitVec 8 := 4
/-- `ROOT`, src/blake3_impl.h:17. -/
def b3Root : BitVec 8 := 8
/-- `KEYED_HASH`, src/blake3_impl.h:18. -/
def b3KeyedHash : BitVec 8 := 16

/-- `blake3_simd_degree()`, src/blake3_dispatch.c:247-276, with the flags of src/dune:7-9. -/
def b3SimdDegree : Nat := 1

/-- `g`, src/blake3_portable.c:8-18. -/
def b3G (v : List W32) (a b c d : Nat) (x y : W32) : List W32 :=
  let v := v.set a (v.getD a 0 + v.getD b 0 + x)
  let v := v.set d (ror32 (v.getD d 0 ^^^ v.getD a 0) 16)
  let v := v.set c (v.getD c 0 + v.getD d 0)
  let v := v.set b (ror32 (v.getD b 0 ^^^ v.getD c 0) 12)
  let v := v.set a (v.getD a 0 + v.getD b 0 + y)
  let v := v.set d (ror32 (v.getD d 0 ^^^ v.getD a 0) 8)
  let v := v.set c (v.getD c 0 + v.getD d 0)
  v.set b (ror32 (v.getD b 0 ^^^ v.getD c 0) 7)

/-- `round_fn`, src/blake3_portable.c:20-35. -/
def b3Round (msg v : List W32) (round : Nat) : List W32 :=
  let schedule := b3Schedule.getD round []
  let ms := fun j => msg.getD (schedule.getD j 0) 0
  let v := b3G v 0 4 8 12 (ms 0) (ms 1)
  let v := b3G v 1 5 9 13 (ms 2) (ms 3)
  let v := b3G v 2 6 10 14 (ms 4) (ms 5)
  let v := b3G v 3 7 11 15 (ms 6) (ms 7)
  let v := b3G v 0 5 10 15 (ms 8) (ms 9)
  let v := b3G v 1 6 11 12 (ms 10) (ms 11)
  let v := b3G v 2 7 8 13 (ms 12) (ms 13)
  b3G v 3 4 9 14 (ms 14) (ms 15)

/-- `compress_pre`, src/blake3_portable.c:37-82. -/
def b3CompressPre (cv : List W32) (block : Bytes) (blockLen : Nat) (counter : W64)
    (flags : BitVec 8) : List W32 :=
  let words := (List.range 16).map fun i => le32or (block.drop (4 * i))
  let c := fun i => cv.getD i 0
  let v := [c 0, c 1, c 2, c 3, c 4, c 5, c 6, c 7, b3Iv.getD 0 0, b3Iv.getD 1 0, b3Iv.getD 2 0,
    b3Iv.getD 3 0, counter.setWidth 32, (counter >>> 32).setWidth 32, BitVec.ofNat 32 blockLen,
    flags.setWidth 32]
  let v := b3Round words v 0
  let v := b3Round words v 1
  let v := b3Round words v 2
  let v := b3Round words v 3
  let v := b3Round words v 4
  let v := b3Round words v 5
  b3Round words v 6

/-- `blake3_compress_in_place_portable`, src/blake3_portable.c:84-98: the new `cv`. -/
def b3CompressInPlace (cv : List W32) (block : Bytes) (blockLen : Nat) (counter : W64)
    (flags : BitVec 8) : List W32 :=
  let s := b3CompressPre cv block blockLen counter flags
  (List.range 8).map fun i => s.getD i 0 ^^^ s.getD (i + 8) 0

/-- `blake3_compress_xof_portable`, src/blake3_portable.c:100-123: the 64 bytes of `out`. -/
def b3CompressXof (cv : List W32) (block : Bytes) (blockLen : Nat) (counter : W64)
    (flags : BitVec 8) : Bytes :=
  let s := b3CompressPre cv block blockLen counter flags
  ((List.range 8).map fun i => toLE32 (s.getD i 0 ^^^ s.getD (i + 8) 0)).flatten ++
    ((List.range 8).map fun i => toLE32 (s.getD (i + 8) 0 ^^^ cv.getD i 0)).flatten

/-- `store_cv_words`, src/blake3_impl.h:169-179. -/
def b3StoreCv (cv : List W32) : Bytes := ((List.range 8).map fun i => toLE32 (cv.getD i 0)).flatten

/-- `load_key_words`, src/blake3_impl.h:149-159. -/
def b3LoadKey (key : Bytes) : List W32 := (List.range 8).map fun i => le32or (key.drop (4 * i))

/-- The loop of `hash_one_portable`, src/blake3_portable.c:132-141. -/
def b3HashOneLoop (counter : W64) (flags flagsEnd : BitVec 8) :
    Nat → Bytes → List W32 → BitVec 8 → List W32
  | 0, _, cv, _ => cv
  | blocks + 1, input, cv, blockFlags =>
    let blockFlags := if blocks + 1 = 1 then blockFlags ||| flagsEnd else blockFlags
    b3HashOneLoop counter flags flagsEnd blocks (input.drop 64)
      (b3CompressInPlace cv (input.take 64) 64 counter blockFlags) flags

/-- `hash_one_portable`, src/blake3_portable.c:125-143. -/
def b3HashOne (input : Bytes) (blocks : Nat) (key : List W32) (counter : W64)
    (flags flagsStart flagsEnd : BitVec 8) : Bytes :=
  b3StoreCv (b3HashOneLoop counter flags flagsEnd blocks input key (flags ||| flagsStart))

/-- `blake3_hash_many_portable`, src/blake3_portable.c:145-160: the bytes written at `out`. -/
def b3HashMany (inputs : List Bytes) (blocks : Nat) (key : List W32) (counter : W64)
    (incr : Bool) (flags flagsStart flagsEnd : BitVec 8) : Bytes :=
  match inputs with
  | [] => []
  | input :: inputs =>
    b3HashOne input blocks key counter flags flagsStart flagsEnd ++
      b3HashMany inputs blocks key (if incr then counter + 1 else counter) incr flags flagsStart
        flagsEnd

/-- `blake3_chunk_state`, src/blake3.h:20-27. `buf_len` and `blocks_compressed`, of type
`uint8_t`, are numbers: they never exceed 64 and 16. -/
structure B3Chunk where
  cv : List W32
  counter : W64
  buf : Bytes
  bufLen : Nat
  blocks : Nat
  flags : BitVec 8
  deriving DecidableEq

/-- `chunk_state_init`, src/blake3.c:10-18. -/
def b3ChunkInit (key : List W32) (flags : BitVec 8) : B3Chunk :=
  ⟨key, 0, List.replicate 64 0, 0, 0, flags⟩

/-- `chunk_state_reset`, src/blake3.c:20-27. -/
def b3ChunkReset (c : B3Chunk) (key : List W32) (counter : W64) : B3Chunk :=
  { c with cv := key, counter := counter, blocks := 0, buf := List.replicate 64 0, bufLen := 0 }

/-- `chunk_state_len`, src/blake3.c:29-32. -/
def b3ChunkLen (c : B3Chunk) : Nat := 64 * c.blocks + c.bufLen

/-- `chunk_state_fill_buf`, src/blake3.c:34-44: the new state and the bytes taken. -/
def b3FillBuf (c : B3Chunk) (input : Bytes) : Option (B3Chunk × Nat) :=
  let take := 64 - c.bufLen
  let take := if take > input.length then input.length else take
  (cWrite c.buf c.bufLen (input.take take)).map fun b =>
    ({ c with buf := b, bufLen := c.bufLen + take }, take)

/-- `chunk_state_maybe_start_flag`, src/blake3.c:46-52. -/
def b3StartFlag (c : B3Chunk) : BitVec 8 := if c.blocks = 0 then b3ChunkStart else 0

/-- `output_t`, src/blake3.c:54-60, and `make_output`, 62-73. -/
structure B3Output where
  inputCv : List W32
  counter : W64
  block : Bytes
  blockLen : Nat
  flags : BitVec 8

/-- `output_chaining_value`, src/blake3.c:81-87. -/
def b3OutputCv (o : B3Output) : Bytes :=
  b3StoreCv (b3CompressInPlace o.inputCv o.block o.blockLen o.counter o.flags)

/-- The loop of `output_root_bytes`, src/blake3.c:94-109, with `outLen` bytes still to produce. -/
def b3RootLoop (o : B3Output) (outLen : Nat) (counter : W64) (ofs : Nat) : Bytes :=
  if _h : outLen > 0 ∧ ofs < 64 then
    let wide := b3CompressXof o.inputCv o.block o.blockLen counter (o.flags ||| b3Root)
    let avail := 64 - ofs
    let n := if outLen > avail then avail else outLen
    slice wide ofs n ++ b3RootLoop o (outLen - n) (counter + 1) 0
  else []
termination_by outLen
decreasing_by split <;> omega

/-- `output_root_bytes`, src/blake3.c:89-110. -/
def b3RootBytes (o : B3Output) (seek outLen : Nat) : Bytes :=
  b3RootLoop o outLen (BitVec.ofNat 64 (seek / 64)) (seek % 64)

/-- The loop of `chunk_state_update`, src/blake3.c:128-135: the state and the input left. -/
def b3ChunkLoop (c : B3Chunk) (input : Bytes) : B3Chunk × Bytes :=
  if input.length > 64 then
    b3ChunkLoop { c with
      cv := b3CompressInPlace c.cv (input.take 64) 64 c.counter (c.flags ||| b3StartFlag c),
      blocks := c.blocks + 1 } (input.drop 64)
  else (c, input)
termination_by input.length
decreasing_by rw [List.length_drop]; omega

/-- `chunk_state_update` after the first test, src/blake3.c:128-139. -/
def b3ChunkTail (c : B3Chunk) (input : Bytes) : Option B3Chunk :=
  let (c, input) := b3ChunkLoop c input
  (b3FillBuf c input).map (·.1)

/-- `chunk_state_update`, src/blake3.c:112-140. -/
def b3ChunkUpdate (c : B3Chunk) (input : Bytes) : Option B3Chunk :=
  if c.bufLen > 0 then
    match b3FillBuf c input with
    | none => none
    | some (c, take) =>
      let input := input.drop take
      if input.length > 0 then
        b3ChunkTail { c with
          cv := b3CompressInPlace c.cv c.buf 64 c.counter (c.flags ||| b3StartFlag c),
          blocks := c.blocks + 1, bufLen := 0, buf := List.replicate 64 0 } input
      else b3ChunkTail c input
  else b3ChunkTail c input

/-- `chunk_state_output`, src/blake3.c:142-147. -/
def b3ChunkOutput (c : B3Chunk) : B3Output :=
  ⟨c.cv, c.counter, c.buf, c.bufLen, c.flags ||| b3StartFlag c ||| b3ChunkEnd⟩

/-- `parent_output`, src/blake3.c:149-152. -/
def b3ParentOutput (block : Bytes) (key : List W32) (flags : BitVec 8) : B3Output :=
  ⟨key, 0, block, 64, flags ||| b3Parent⟩

/-- `round_down_to_power_of_2`, src/blake3_impl.h:131-135, on a number less than 2^64.
`highest_one` (86-115) is the index of the highest bit set. -/
def b3RoundDown (x : Nat) : Nat := 1 <<< Nat.log2 (x ||| 1)

/-- `popcnt`, src/blake3_impl.h:117-129. -/
def b3Popcnt (x : W64) : Nat := ((List.range 64).filter fun i => x.getLsbD i).length

/-- `left_len`, src/blake3.c:154-162. -/
def b3LeftLen (contentLen : Nat) : Nat := b3RoundDown ((contentLen - 1) / 1024) * 1024

/-- What the model needs to know of the platform: `MAX_SIMD_DEGREE` (src/blake3_impl.h:60-66: 16
on x86, 1 elsewhere) and the contents of uninitialised local arrays. -/
structure B3Env where
  maxSimd : Nat
  junk : Byte

/-- `MAX_SIMD_DEGREE_OR_2`, src/blake3_impl.h:70. -/
def B3Env.or2 (e : B3Env) : Nat := if e.maxSimd > 2 then e.maxSimd else 2

/-- The loop of `compress_chunks_parallel` that cuts full chunks, src/blake3.c:180-184: the chunks
and the rest. -/
def b3CutChunks (input : Bytes) : List Bytes × Bytes :=
  if input.length ≥ 1024 then
    let (cs, r) := b3CutChunks (input.drop 1024)
    (input.take 1024 :: cs, r)
  else ([], input)
termination_by input.length
decreasing_by rw [List.length_drop]; omega

/-- `compress_chunks_parallel`, src/blake3.c:168-205: the bytes written at `out` and the number of
chaining values. -/
def b3ChunksParallel (e : B3Env) (input : Bytes) (key : List W32) (counter : W64)
    (flags : BitVec 8) : Option (Bytes × Nat) :=
  let (cs, rest) := b3CutChunks input
  if cs.length > e.maxSimd then none else
  let out := b3HashMany cs (1024 / 64) key counter true flags b3ChunkStart b3ChunkEnd
  if rest.length > 0 then
    let c := { b3ChunkInit key flags with counter := counter + BitVec.ofNat 64 cs.length }
    (b3ChunkUpdate c rest).map fun c =>
      (out ++ b3OutputCv (b3ChunkOutput c), cs.length + 1)
  else some (out, cs.length)

/-- The value returned by `compress_parents_parallel`, src/blake3.c:224, 238-245. -/
def b3ParentsCount (num : Nat) : Nat := if num > 2 * (num / 2) then num / 2 + 1 else num / 2

/-- The blocks hashed by `compress_parents_parallel`, src/blake3.c:221-227. -/
def b3ParentBlocks (children : Bytes) : Nat → Nat → Option (List Bytes)
  | 0, _ => some []
  | n + 1, i =>
    match cRead children (64 * i) 64, b3ParentBlocks children n (i + 1) with
    | some b, some bs => some (b :: bs)
    | _, _ => none

/-- `compress_parents_parallel`, src/blake3.c:212-246: the bytes written at `out`. -/
def b3ParentsParallel (e : B3Env) (children : Bytes) (num : Nat) (key : List W32)
    (flags : BitVec 8) : Option Bytes :=
  if num / 2 > e.or2 then none else
  match b3ParentBlocks children (num / 2) 0 with
  | none => none
  | some bs =>
    let out := b3HashMany bs 1 key 0 false (flags ||| b3Parent) 0 0
    if num > 2 * (num / 2) then (cRead children (2 * (num / 2) * 32) 32).map (out ++ ·)
    else some out

theorem b3RoundDown_pos (x : Nat) : 0 < b3RoundDown x := by
  unfold b3RoundDown; rw [Nat.one_shiftLeft]; exact Nat.pow_pos (by decide)

theorem log2_or_one {q : Nat} (h : q ≠ 0) : Nat.log2 (q ||| 1) = Nat.log2 q := by
  rw [Nat.log2_def, Nat.log2_def q, Nat.or_div_two]
  by_cases hq : q = 1
  · subst hq; rfl
  · have h1 : 2 ≤ q := by omega
    have h2 : 2 ≤ q ||| 1 := Nat.le_trans h1 Nat.left_le_or
    rw [if_pos h1, if_pos h2]; simp

theorem b3LeftLen_bounds {n : Nat} (h : 1024 < n) : 0 < b3LeftLen n ∧ b3LeftLen n < n := by
  have hq : (n - 1) / 1024 ≠ 0 := by omega
  have := Nat.log2_self_le hq
  refine ⟨Nat.mul_pos (b3RoundDown_pos _) (by decide), ?_⟩
  unfold b3LeftLen b3RoundDown
  rw [Nat.one_shiftLeft, log2_or_one hq]
  omega

/-- `blake3_compress_subtree_wide`, src/blake3.c:264-321: the bytes written at `out` and the
number of chaining values. -/
def b3Wide (e : B3Env) (input : Bytes) (key : List W32) (counter : W64) (flags : BitVec 8) :
    Option (Bytes × Nat) :=
  if h : input.length ≤ b3SimdDegree * 1024 then b3ChunksParallel e input key counter flags
  else
    let leftLen := b3LeftLen input.length
    let degree := if leftLen > 1024 ∧ b3SimdDegree = 1 then 2 else b3SimdDegree
    match b3Wide e (input.take leftLen) key counter flags,
      b3Wide e (input.drop leftLen) key (counter + BitVec.ofNat 64 (leftLen / 1024)) flags with
    | some (leftCvs, leftN), some (rightCvs, rightN) =>
      match cWrite (List.replicate (2 * e.or2 * 32) e.junk) 0 leftCvs with
      | none => none
      | some cvArray =>
        match cWrite cvArray (degree * 32) rightCvs with
        | none => none
        | some cvArray =>
          if leftN = 1 then (cRead cvArray 0 (2 * 32)).map fun x => (x, 2)
          else
            (b3ParentsParallel e cvArray (leftN + rightN) key flags).map fun x =>
              (x, b3ParentsCount (leftN + rightN))
    | _, _ => none
termination_by input.length
decreasing_by
  · have := b3LeftLen_bounds (n := input.length) (by unfold b3SimdDegree at h; omega)
    rw [List.length_take]; omega
  · have := b3LeftLen_bounds (n := input.length) (by unfold b3SimdDegree at h; omega)
    rw [List.length_drop]; omega

/-- The loop of `compress_subtree_to_parent_node`, src/blake3.c:354-358, and its last line. -/
def b3Condense (e : B3Env) (cvArray : Bytes) (num : Nat) (key : List W32) (flags : BitVec 8) :
    Option Bytes :=
  if _h : num > 2 ∧ num ≤ e.or2 then
    match b3ParentsParallel e cvArray num key flags with
    | none => none
    | some out =>
      match cWrite (List.replicate (e.or2 * 32 / 2) e.junk) 0 out with
      | none => none
      | some outArray =>
        match cRead outArray 0 (b3ParentsCount num * 32) with
        | none => none
        | some x =>
          match cWrite cvArray 0 x with
          | none => none
          | some cvArray => b3Condense e cvArray (b3ParentsCount num) key flags
  else cRead cvArray 0 (2 * 32)
termination_by num
decreasing_by unfold b3ParentsCount; split <;> omega

/-- `compress_subtree_to_parent_node`, src/blake3.c:333-360. A failed assertion is `none`. -/
def b3ToParentNode (e : B3Env) (input : Bytes) (key : List W32) (counter : W64)
    (flags : BitVec 8) : Option Bytes :=
  match b3Wide e input key counter flags with
  | none => none
  | some (cvs, num) =>
    match cWrite (List.replicate (e.or2 * 32) e.junk) 0 cvs with
    | none => none
    | some cvArray => if num ≤ e.or2 then b3Condense e cvArray num key flags else none

/-- `blake3_hasher`, src/blake3.h:29-39. `cv_stack_len`, of type `uint8_t`, is a number; a value
above 55 is reached only after a write outside of `cv_stack`. -/
structure B3Hasher where
  key : List W32
  chunk : B3Chunk
  stackLen : Nat
  stack : Bytes
  deriving DecidableEq

/-- `hasher_init_base`, src/blake3.c:362-367; `stack0` is the initial contents of the stack. -/
def b3InitBase (key : List W32) (flags : BitVec 8) (stack0 : Bytes) : B3Hasher :=
  ⟨key, b3ChunkInit key flags, 0, stack0⟩

/-- The loop of `hasher_merge_cv_stack`, src/blake3.c:406-412, down to `post` values. -/
def b3MergeLoop (h : B3Hasher) (post : Nat) : Option B3Hasher :=
  if _hs : h.stackLen > post then
    match cRead h.stack (((h.stackLen : Int) - 2) * 32) 64 with
    | none => none
    | some parentNode =>
      let o := b3ParentOutput parentNode h.key h.chunk.flags
      match cWrite h.stack (((h.stackLen : Int) - 2) * 32) (b3OutputCv o) with
      | none => none
      | some stack => b3MergeLoop { h with stack := stack, stackLen := h.stackLen - 1 } post
  else some h
termination_by h.stackLen
decreasing_by show h.stackLen - 1 < h.stackLen; omega

/-- `hasher_merge_cv_stack`, src/blake3.c:404-413. -/
def b3Merge (h : B3Hasher) (total : W64) : Option B3Hasher := b3MergeLoop h (b3Popcnt total)

/-- `hasher_push_cv`, src/blake3.c:447-453. -/
def b3Push (h : B3Hasher) (newCv : Bytes) (counter : W64) : Option B3Hasher :=
  match b3Merge h counter with
  | none => none
  | some h =>
    (cWrite h.stack (h.stackLen * 32) newCv).map fun stack =>
      { h with stack := stack, stackLen := h.stackLen + 1 }

/-- The loop that shrinks `subtree_len`, src/blake3.c:521-523. -/
def b3Shrink (subtreeLen : Nat) (countSoFar : W64) : Nat :=
  if _h : (subtreeLen - 1) &&& countSoFar.toNat ≠ 0 then b3Shrink (subtreeLen / 2) countSoFar
  else subtreeLen
termination_by subtreeLen
decreasing_by
  refine Nat.div_lt_self ?_ (by decide)
  rcases Nat.eq_zero_or_pos subtreeLen with h0 | h0
  · subst h0; simp at _h
  · exact h0

theorem b3Shrink_pos {s : Nat} (hs : 0 < s) (c : W64) : 0 < b3Shrink s c := by
  induction s using Nat.strongRecOn with
  | _ s ih =>
    rw [b3Shrink]
    split
    · next h =>
      by_cases h1 : s = 1
      · subst h1; simp at h
      · exact ih (s / 2) (by omega) (by omega)
    · exact hs

/-- Hashing and pushing of a subtree of `sub.length` bytes, src/blake3.c:526-546. -/
def b3PushSubtree (e : B3Env) (h : B3Hasher) (sub : Bytes) (subtreeLen : Nat) : Option B3Hasher :=
  let subtreeChunks := subtreeLen / 1024
  if subtreeLen ≤ 1024 then
    let c := { b3ChunkInit h.key h.chunk.flags with counter := h.chunk.counter }
    match b3ChunkUpdate c sub with
    | none => none
    | some c => b3Push h (b3OutputCv (b3ChunkOutput c)) c.counter
  else
    match b3ToParentNode e sub h.key h.chunk.counter h.chunk.flags with
    | none => none
    | some pair =>
      match b3Push h (pair.take 32) h.chunk.counter with
      | none => none
      | some h =>
        b3Push h (slice pair 32 32) (h.chunk.counter + BitVec.ofNat 64 (subtreeChunks / 2))

/-- The loop of `blake3_hasher_update`, src/blake3.c:503-550: the state and the input left. -/
def b3UpdateLoop (e : B3Env) (h : B3Hasher) (input : Bytes) : Option (B3Hasher × Bytes) :=
  if input.length > 1024 then
    let countSoFar := h.chunk.counter * 1024
    let subtreeLen := b3Shrink (b3RoundDown input.length) countSoFar
    let subtreeChunks := subtreeLen / 1024
    match b3PushSubtree e h (input.take subtreeLen) subtreeLen with
    | none => none
    | some h' =>
      b3UpdateLoop e { h' with chunk := { h'.chunk with
        counter := h'.chunk.counter + BitVec.ofNat 64 subtreeChunks } } (input.drop subtreeLen)
  else some (h, input)
termination_by input.length
decreasing_by
  have := b3Shrink_pos (b3RoundDown_pos input.length) (h.chunk.counter * 1024)
  rw [List.length_drop]; omega

/-- `blake3_hasher_update` once the current chunk is empty, src/blake3.c:503-562. -/
def b3UpdateTail (e : B3Env) (h : B3Hasher) (input : Bytes) : Option B3Hasher :=
  match b3UpdateLoop e h input with
  | none => none
  | some (h, input) =>
    if input.length > 0 then
      match b3ChunkUpdate h.chunk input with
      | none => none
      | some c => b3Merge { h with chunk := c } c.counter
    else some h

/-- `blake3_hasher_update`, src/blake3.c:455-562. -/
def b3Update (e : B3Env) (h : B3Hasher) (input : Bytes) : Option B3Hasher :=
  if input.length = 0 then some h
  else if b3ChunkLen h.chunk > 0 then
    let take := 1024 - b3ChunkLen h.chunk
    let take := if take > input.length then input.length else take
    match b3ChunkUpdate h.chunk (input.take take) with
    | none => none
    | some c =>
      let h := { h with chunk := c }
      let input := input.drop take
      if input.length > 0 then
        match b3Push h (b3OutputCv (b3ChunkOutput h.chunk)) h.chunk.counter with
        | none => none
        | some h =>
          b3UpdateTail e { h with chunk := b3ChunkReset h.chunk h.key (h.chunk.counter + 1) } input
      else some h
  else b3UpdateTail e h input

/-- The loop of `blake3_hasher_finalize_seek`, src/blake3.c:602-609. -/
def b3FinalLoop (h : B3Hasher) : Nat → B3Output → Option B3Output
  | 0, o => some o
  | n + 1, o =>
    match cRead h.stack (n * 32) 32 with
    | none => none
    | some l => b3FinalLoop h n (b3ParentOutput (l ++ b3OutputCv o) h.key h.chunk.flags)

/-- `blake3_hasher_finalize_seek`, src/blake3.c:569-611, with `seek = 0` as in
`blake3_hasher_finalize`, 564-567. -/
def b3Finalize (h : B3Hasher) (outLen : Nat) : Option Bytes :=
  if outLen = 0 then some []
  else if h.stackLen = 0 then some (b3RootBytes (b3ChunkOutput h.chunk) 0 outLen)
  else
    let start :=
      if b3ChunkLen h.chunk > 0 then some (h.stackLen, b3ChunkOutput h.chunk)
      else
        (cRead h.stack (((h.stackLen : Int) - 2) * 32) 64).map fun b =>
          (h.stackLen - 2, b3ParentOutput b h.key h.chunk.flags)
    match start with
    | none => none
    | some (n, o) => (b3FinalLoop h n o).map fun o => b3RootBytes o 0 outLen

/-- `caml_blake3_init`, src/stubs-blake3.c:44-59, with `blake3_hasher_init` and
`blake3_hasher_init_keyed`, src/blake3.c:369-376. -/
def b3Init (key stack0 : Bytes) : B3Hasher :=
  if key.length = 32 then b3InitBase (b3LoadKey key) b3KeyedHash stack0
  else b3InitBase b3Iv 0 stack0

/-- Class `blake3 key sz`, src/cryptokit.ml:1314-1334, and src/stubs-blake3.c:61-86. The context
is freed by `wipe` (`none`); using it afterwards dereferences a null pointer. `Out_of_memory`, for
results of more than 2^57-9 bytes, is not modelled. -/
def b3Class (e : B3Env) (sz : Int) : HashObj (Option B3Hasher) :=
  stubHash (sz / 8).toNat
    (fun c d => c.bind fun c => (b3Update e c d).map some)
    (fun c => c.bind fun c => (b3Finalize c (sz / 8).toNat).map fun r => (r, some c))
    (fun _ => none)

/-- `new blake3 key sz`, src/cryptokit.ml:1316-1320 (`MAC.blake3` is the same class, lines
1469-1470): the initial context. -/
def b3New (key : Bytes) (sz : Int) (stack0 : Bytes) : Except Exn (Option B3Hasher) :=
  if sz > 0 ∧ sz.tmod 8 = 0 ∧ (key.length = 0 ∨ key.length = 32) then .ok (some (b3Init key stack0))
  else .error (.error .wrongKeySize)

end Verif
