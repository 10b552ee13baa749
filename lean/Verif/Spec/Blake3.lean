import Verif.Spec.Blake2
/-
BLAKE3, after "BLAKE3: one function, fast everywhere" (O'Connor, Aumasson, Neves,
Wilcox-O'Hearn), sections 2.1 to 2.6: hash mode and keyed hash mode, any output length.
-/
namespace Verif.Spec.B3

/-- Section 2.1: the IV is that of BLAKE2s (and SHA-256). -/
def IV : List (BitVec 32) := blake2s.IV

/-- Table 2: the permutation of the message words between rounds. -/
def perm : List Nat := [2, 6, 3, 10, 7, 0, 4, 13, 1, 11, 12, 5, 9, 14, 15, 8]

def permute (m : List (BitVec 32)) : List (BitVec 32) := perm.map fun i => m.getD i 0

/-- Section 2.2: `G` is that of BLAKE2s. -/
def G (v : List (BitVec 32)) (a b c d : Nat) (x y : BitVec 32) : List (BitVec 32) :=
  blake2s.G v a b c d x y

/-- Section 2.2: a round: columns, then diagonals. -/
def round (m v : List (BitVec 32)) : List (BitVec 32) :=
  let s := fun j => m.getD j 0
  let v := G v 0 4 8 12 (s 0) (s 1)
  let v := G v 1 5 9 13 (s 2) (s 3)
  let v := G v 2 6 10 14 (s 4) (s 5)
  let v := G v 3 7 11 15 (s 6) (s 7)
  let v := G v 0 5 10 15 (s 8) (s 9)
  let v := G v 1 6 11 12 (s 10) (s 11)
  let v := G v 2 7 8 13 (s 12) (s 13)
  G v 3 4 9 14 (s 14) (s 15)

/-- `n` rounds, the message words being permuted after each. -/
def rounds : Nat → List (BitVec 32) → List (BitVec 32) → List (BitVec 32)
  | 0, _, v => v
  | n + 1, m, v => rounds n (permute m) (round m v)

/-- Section 2.2: the compression function, from a chaining value `h` (8 words), a block `m`
(16 words), a counter `t`, a number `b` of bytes in the block, and flags `d`, to 16 words. -/
def compress (h m : List (BitVec 32)) (t : BitVec 64) (b d : BitVec 32) : List (BitVec 32) :=
  let v := h ++ IV.take 4 ++ [t.setWidth 32, (t >>> 32).setWidth 32, b, d]
  let v := rounds 7 m v
  (List.range 8).map (fun i => v.getD i 0 ^^^ v.getD (i + 8) 0) ++
    (List.range 8).map (fun i => v.getD (i + 8) 0 ^^^ h.getD i 0)

/-- Table 3: the flags. -/
def CHUNK_START : BitVec 32 := 1
def CHUNK_END : BitVec 32 := 2
def PARENT : BitVec 32 := 4
def ROOT : BitVec 32 := 8
def KEYED_HASH : BitVec 32 := 16

/-- Bytes to little-endian words and back. -/
def toWords (b : Bytes) : List (BitVec 32) := (chunks 4 b).map fun c => BitVec.ofNat 32 (leNat c)
def ofWords (ws : List (BitVec 32)) : Bytes := (ws.map fun x => natToLE 4 x.toNat).flatten

/-- A node of the tree, up to its last compression, whose inputs these are. -/
structure Node where
  h : List (BitVec 32)
  m : List (BitVec 32)
  t : BitVec 64
  b : BitVec 32
  d : BitVec 32

/-- The chaining value of a node that is not the root: the first 8 words. -/
def Node.cv (n : Node) : List (BitVec 32) := (compress n.h n.m n.t n.b n.d).take 8

/-- Section 2.6: block `i` of the output of the root. -/
def Node.rootBlock (n : Node) (i : Nat) : Bytes :=
  ofWords (compress n.h n.m (BitVec.ofNat 64 i) n.b (n.d ||| ROOT))

/-- The first `len` bytes of the output of the root. -/
def Node.output (n : Node) (len : Nat) : Bytes :=
  (((List.range ((len + 63) / 64)).map n.rootBlock).flatten).take len

/-- The last block of a chunk, padded with zeroes. -/
def pad64 (b : Bytes) : Bytes := b ++ List.replicate (64 - b.length) 0

/-- Section 2.4: a chunk (at most 1024 bytes), from chaining value `h` on. `t` is the number of
the chunk, `d` the mode flag, `start` the flag of the first block. -/
def chunkFrom (h : List (BitVec 32)) (t : BitVec 64) (d start : BitVec 32) (c : Bytes) : Node :=
  if c.length ≤ 64 then
    ⟨h, toWords (pad64 c), t, BitVec.ofNat 32 c.length, d ||| start ||| CHUNK_END⟩
  else
    chunkFrom ((compress h (toWords (c.take 64)) t 64 (d ||| start)).take 8) t d 0 (c.drop 64)
termination_by c.length
decreasing_by rw [List.length_drop]; omega

def chunkNode (key : List (BitVec 32)) (d : BitVec 32) (t : Nat) (c : Bytes) : Node :=
  chunkFrom key (BitVec.ofNat 64 t) d CHUNK_START c

/-- Section 2.5: a parent node. -/
def parentNode (key : List (BitVec 32)) (d : BitVec 32) (l r : List (BitVec 32)) : Node :=
  ⟨key, l ++ r, 0, 64, d ||| PARENT⟩

/-- Section 2.1: the number of bytes in the left subtree of a message of `n > 1024` bytes: the
largest power of two of chunks that leaves at least one byte to the right. -/
def leftLen (n : Nat) : Nat := 1024 * 2 ^ Nat.log2 ((n - 1) / 1024)

theorem leftLen_bounds {n : Nat} (h : 1024 < n) : 0 < leftLen n ∧ leftLen n < n := by
  have hq : (n - 1) / 1024 ≠ 0 := by omega
  have := Nat.log2_self_le hq
  refine ⟨Nat.mul_pos (by decide) (Nat.pow_pos (by decide)), ?_⟩
  unfold leftLen
  omega

/-- Section 2.1: the tree of the message `m`, whose first chunk has number `t`. -/
def tree (key : List (BitVec 32)) (d : BitVec 32) (t : Nat) (m : Bytes) : Node :=
  if h : m.length ≤ 1024 then chunkNode key d t m
  else
    let l := leftLen m.length
    parentNode key d (tree key d t (m.take l)).cv (tree key d (t + l / 1024) (m.drop l)).cv
termination_by m.length
decreasing_by
  · have := leftLen_bounds (n := m.length) (by omega)
    rw [List.length_take]; omega
  · have := leftLen_bounds (n := m.length) (by omega)
    rw [List.length_drop]; omega

/-- Section 2.3: the key words and mode flag. The hash mode has no key. -/
def keyWords (key : Bytes) : List (BitVec 32) := if key = [] then IV else toWords key
def modeFlag (key : Bytes) : BitVec 32 := if key = [] then 0 else KEYED_HASH

end B3

/-- BLAKE3 of `m` with an output of `n` bytes: hash mode if `key` is empty, keyed hash mode if it
has 32 bytes. -/
def BLAKE3 (n : Nat) (key m : Bytes) : Bytes :=
  (B3.tree (B3.keyWords key) (B3.modeFlag key) 0 m).output n

end Verif.Spec
