import Verif.Model.Hash
/-
BLAKE2b and BLAKE2s: src/blake2.c, src/stubs-blake2.c, classes `Hash.blake2b` and `Hash.blake2s`.
The two halves of src/blake2.c are the same code up to the parameters gathered in `Blake2Code`.
-/
namespace Verif

/-- `BLAKE2_sigma`, src/blake2.c:21-34. -/
def blake2Sigma : List (List Nat) :=
  [[ 0,  1,  2,  3,  4,  5,  6,  7,  8,  9, 10, 11, 12, 13, 14, 15],
   [14, 10,  4,  8,  9, 15, 13,  6,  1, 12,  0,  2, 11,  7,  5,  3],
   [11,  8, 12,  0,  5,  2, 15, 13, 10, 14,  3,  6,  7,  1,  9,  4],
   [ 7,  9,  3,  1, 13, 12, 11, 14,  2,  6,  5, 10,  4,  0, 15,  8],
   [ 9,  0,  5,  7,  2,  4, 10, 15, 14,  1, 11, 12,  6,  8,  3, 13],
   [ 2, 12,  6, 10,  0, 11,  8,  3,  4, 13,  7,  5, 15, 14,  1,  9],
   [12,  5,  1, 15, 14, 13,  4, 10,  0,  7,  6,  3,  9,  2,  8, 11],
   [13, 11,  7, 14, 12,  1,  3,  9,  5,  0, 15,  4,  8,  6,  2, 10],
   [ 6, 15, 14,  9, 11,  3,  0,  8, 12,  2, 13,  7,  1,  4, 10,  5],
   [10,  2,  8,  4,  7,  6,  1,  5, 15, 11,  9, 14,  3, 12, 13,  0],
   [ 0,  1,  2,  3,  4,  5,  6,  7,  8,  9, 10, 11, 12, 13, 14, 15],
   [14, 10,  4,  8,  9, 15, 13,  6,  1, 12,  0,  2, 11,  7,  5,  3]]

/-- What distinguishes BLAKE2b from BLAKE2s in the C code: bytes per word, word load, rotation,
rotation amounts of `MIX2B` / `MIX2S`, number of rounds, initial values.
src/blake2.c:20-160 and 161-300. -/
structure Blake2Code (w : Nat) where
  k : Nat
  load : Bytes → BitVec w
  rotr : BitVec w → Nat → BitVec w
  r1 : Nat
  r2 : Nat
  r3 : Nat
  r4 : Nat
  rounds : Nat
  iv : List (BitVec w)

/-- src/blake2.c:36-72 (word load, rotation, `blake2b_iv`, `MIX2B`) and line 101. -/
def blake2bCode : Blake2Code 64 where
  k := 8
  load := le64or
  rotr := ror64
  r1 := 32
  r2 := 24
  r3 := 16
  r4 := 63
  rounds := 12
  iv := [0x6a09e667f3bcc908, 0xbb67ae8584caa73b, 0x3c6ef372fe94f82b, 0xa54ff53a5f1d36f1,
    0x510e527fade682d1, 0x9b05688c2b3e6c1f, 0x1f83d9abfb41bd6b, 0x5be0cd19137e2179]

/-- src/blake2.c:177-211 and line 240. -/
def blake2sCode : Blake2Code 32 where
  k := 4
  load := le32or
  rotr := ror32
  r1 := 16
  r2 := 12
  r3 := 8
  r4 := 7
  rounds := 10
  iv := [0x6A09E667, 0xBB67AE85, 0x3C6EF372, 0xA54FF53A, 0x510E527F, 0x9B05688C, 0x1F83D9AB,
    0x5BE0CD19]

/-- `MIX2B` (src/blake2.c:62-72) and `MIX2S` (src/blake2.c:201-211) on the variables numbered
`a`, `b`, `c`, `d`. -/
def blake2Mix (p : Blake2Code w) (v : List (BitVec w)) (a b c d : Nat) (x y : BitVec w) :
    List (BitVec w) :=
  let v := v.set a (v.getD a 0 + (v.getD b 0 + x))
  let v := v.set d (p.rotr (v.getD d 0 ^^^ v.getD a 0) p.r1)
  let v := v.set c (v.getD c 0 + v.getD d 0)
  let v := v.set b (p.rotr (v.getD b 0 ^^^ v.getD c 0) p.r2)
  let v := v.set a (v.getD a 0 + (v.getD b 0 + y))
  let v := v.set d (p.rotr (v.getD d 0 ^^^ v.getD a 0) p.r3)
  let v := v.set c (v.getD c 0 + v.getD d 0)
  v.set b (p.rotr (v.getD b 0 ^^^ v.getD c 0) p.r4)

/-- One round, src/blake2.c:102-110 and 241-249. -/
def blake2Round (p : Blake2Code w) (m : List (BitVec w)) (v : List (BitVec w)) (i : Nat) :
    List (BitVec w) :=
  let sigma := blake2Sigma.getD i []
  let ms := fun j => m.getD (sigma.getD j 0) 0
  let v := blake2Mix p v 0 4 8 12 (ms 0) (ms 1)
  let v := blake2Mix p v 1 5 9 13 (ms 2) (ms 3)
  let v := blake2Mix p v 2 6 10 14 (ms 4) (ms 5)
  let v := blake2Mix p v 3 7 11 15 (ms 6) (ms 7)
  let v := blake2Mix p v 0 5 10 15 (ms 8) (ms 9)
  let v := blake2Mix p v 1 6 11 12 (ms 10) (ms 11)
  let v := blake2Mix p v 2 7 8 13 (ms 12) (ms 13)
  blake2Mix p v 3 4 9 14 (ms 14) (ms 15)

/-- Fields `h` and `len` of `struct blake2b`, `struct blake2s` (src/blake2.h).
src/blake2.h:18-20, 34-36. -/
structure Blake2State (w : Nat) where
  h : List (BitVec w)
  len0 : BitVec w
  len1 : BitVec w
  deriving DecidableEq

/-- `blake2b_compress`, src/blake2.c:74-117; `blake2s_compress`, src/blake2.c:213-256. -/
def blake2Compress (p : Blake2Code w) (s : Blake2State w) (data : Bytes) (numbytes : Nat)
    (isLast : Bool) : Blake2State w :=
  let n := BitVec.ofNat w numbytes
  let len0 := s.len0 + n
  let len1 := if len0 < n then s.len1 + 1 else s.len1
  let iv := fun i => p.iv.getD i 0
  let h := fun i => s.h.getD i 0
  let v := [h 0, h 1, h 2, h 3, h 4, h 5, h 6, h 7, iv 0, iv 1, iv 2, iv 3,
    iv 4 ^^^ len0, iv 5 ^^^ len1, if isLast then ~~~ iv 6 else iv 6, iv 7]
  let m := (List.range 16).map fun i => p.load (data.drop (i * p.k))
  let v := (List.range p.rounds).foldl (blake2Round p m) v
  ⟨(List.range 8).map fun i => h i ^^^ (v.getD i 0 ^^^ v.getD (i + 8) 0), len0, len1⟩

/-- Compression of a full block that is not the last, src/blake2.c:151, 156, 290, 295. -/
def blake2Block (p : Blake2Code w) (s : Blake2State w) (data : Bytes) : Blake2State w :=
  blake2Compress p s data (16 * p.k) false

/-- The loop and the saving of remaining data, src/blake2.c:155-161 and 294-300. -/
def lazyTail (n : Nat) (tr : γ → Bytes → γ) (c : MDBuf γ) (data : Bytes) : Option (MDBuf γ) :=
  if _h : 0 < n ∧ n < data.length then
    lazyTail n tr { c with h := tr c.h (data.take n) } (data.drop n)
  else
    match cWrite c.buffer 0 data with
    | none => none
    | some b => some { c with buffer := b, numbytes := data.length }
termination_by data.length
decreasing_by rw [List.length_drop]; omega

/-- `blake2b_add_data`, src/blake2.c:137-162; `blake2s_add_data`, src/blake2.c:276-301. -/
def lazyAdd (n : Nat) (tr : γ → Bytes → γ) (c : MDBuf γ) (data : Bytes) : Option (MDBuf γ) :=
  if c.numbytes > 0 then
    let t := n - c.numbytes
    if data.length ≤ t then
      match cWrite c.buffer c.numbytes data with
      | none => none
      | some b => some { c with buffer := b, numbytes := c.numbytes + data.length }
    else
      match cWrite c.buffer c.numbytes (data.take t) with
      | none => none
      | some b => lazyTail n tr { c with buffer := b, h := tr c.h b } (data.drop t)
  else lazyTail n tr c data

/-- `struct blake2b`, src/blake2.h:18-23; `struct blake2s`, 34-39. -/
abbrev Blake2Ctx (w : Nat) := MDBuf (Blake2State w)

/-- `blake2b_init`, src/blake2.c:119-135; `blake2s_init`, src/blake2.c:258-274. `buf0` is the
initial contents of the buffer. -/
def blake2Init (p : Blake2Code w) (hashlen : Nat) (key buf0 : Bytes) : Option (Blake2Ctx w) :=
  let h0 := p.iv.getD 0 0 ^^^ BitVec.ofNat w (0x01010000 ||| (key.length <<< 8) ||| hashlen)
  let s : Blake2State w := ⟨p.iv.set 0 h0, 0, 0⟩
  if key.length > 0 then do
    let b ← cWrite buf0 0 (List.replicate (16 * p.k) 0)
    let b ← cWrite b 0 key
    pure ⟨s, 16 * p.k, b⟩
  else pure ⟨s, 0, buf0⟩

/-- `blake2b_add_data`, `blake2s_add_data`. src/blake2.c:137-159, 276-298. -/
def blake2Add (p : Blake2Code w) (c : Blake2Ctx w) (data : Bytes) : Option (Blake2Ctx w) :=
  lazyAdd (16 * p.k) (blake2Block p) c data

/-- `blake2b_final`, src/blake2.c:164-175; `blake2s_final`, src/blake2.c:303-314. -/
def blake2Final (p : Blake2Code w) (hashlen : Nat) (c : Blake2Ctx w) :
    Option (Bytes × Blake2Ctx w) := do
  let b ← cWrite c.buffer c.numbytes (List.replicate (16 * p.k - c.numbytes) 0)
  let s := blake2Compress p c.h b c.numbytes true
  let hash := (List.range hashlen).map fun i =>
    ((s.h.getD (i / p.k) 0) >>> (8 * (i % p.k))).setWidth 8
  pure (hash, { c with h := s, buffer := b })

/-- `wipe_bytes` of the context. src/cryptokit.ml:1283, 1308. -/
def blake2Wipe (c : Blake2Ctx w) : Blake2Ctx w :=
  ⟨⟨List.replicate 8 0, 0, 0⟩, 0, wipeBytes c.buffer⟩

/-- Class `blake2b`, src/cryptokit.ml:1264-1284 (`p := blake2bCode`), class `blake2s`,
src/cryptokit.ml:1289-1309 (`p := blake2sCode`). -/
def blake2Class (p : Blake2Code w) (sz : Int) : HashObj (Blake2Ctx w) :=
  stubHash (sz / 8).toNat (blake2Add p) (blake2Final p (sz / 8).toNat) blake2Wipe

/-- `new blake2b sz key`, src/cryptokit.ml:1266-1269. -/
def blake2bNew (sz : Int) (key buf0 : Bytes) : Except Exn (Option (Blake2Ctx 64)) :=
  if sz ≥ 8 ∧ sz ≤ 512 ∧ sz % 8 = 0 ∧ key.length ≤ 64 then
    .ok (blake2Init blake2bCode (sz / 8).toNat key buf0)
  else .error (.error .wrongKeySize)

/-- `new blake2s sz key`, src/cryptokit.ml:1291-1294. -/
def blake2sNew (sz : Int) (key buf0 : Bytes) : Except Exn (Option (Blake2Ctx 32)) :=
  if sz ≥ 8 ∧ sz ≤ 256 ∧ sz % 8 = 0 ∧ key.length ≤ 32 then
    .ok (blake2Init blake2sCode (sz / 8).toNat key buf0)
  else .error (.error .wrongKeySize)

end Verif
