import Verif.Model.Transform
import Verif.Model.Words
import Verif.Spec.Common
/-
Hash and MAC objects (class type `hash`), and the block-buffering code shared, up to names, by
the C implementations of SHA-1, SHA-2, SHA-3, RIPEMD-160.
-/
namespace Verif

/-- Class type `hash`, src/cryptokit.ml:230-239. -/
structure HashObj (τ : Type) where
  hashSize : Nat
  addSubstring : Bytes → Int → Int → M τ Unit
  addString : Bytes → M τ Unit
  addChar : Byte → M τ Unit
  addByte : Int → M τ Unit
  result : M τ Bytes
  wipe : M τ Unit

/-- The shape of every class of module `Hash` (and of `MAC.siphash`), src/cryptokit.ml:1076-1094
(sha1), 1098-1116 (sha224), 1120-1138 (sha256), 1142-1160 (sha384), 1164-1182 (sha512),
1194-1214 (sha3), 1220-1238 (ripemd160), 1242-1260 (md5), 1264-1284 (blake2b), 1289-1309 (blake2s),
1314-1334 (blake3), 1505-1525 (siphash): a context handled by C functions `update` (which gets the
designated part of the source), `final` and `wipe`; `none` is undefined behaviour. -/
def stubHash (hashSize : Nat) (update : τ → Bytes → Option τ) (final : τ → Option (Bytes × τ))
    (wipe : τ → τ) : HashObj τ where
  hashSize := hashSize
  addSubstring src ofs len := do
    if ofs < 0 ∨ len < 0 ∨ ofs > (src.length : Int) - len then M.raise .invalidArg
    let c ← M.get
    let c' ← M.orUB (update c (slice src ofs.toNat len.toNat))
    M.modify fun _ => c'
  addString src := do
    let c ← M.get
    let c' ← M.orUB (update c src)
    M.modify fun _ => c'
  addChar ch := do
    let c ← M.get
    let c' ← M.orUB (update c [ch])
    M.modify fun _ => c'
  addByte b := do
    let c ← M.get
    let c' ← M.orUB (update c [BitVec.ofInt 8 b])
    M.modify fun _ => c'
  result := do
    let c ← M.get
    let (r, c') ← M.orUB (final c)
    M.modify fun _ => c'
    pure r
  wipe := M.modify wipe

/-- `hash_string hash s`, src/cryptokit.ml:241-245. -/
def hashString (h : HashObj τ) (s : Bytes) : M τ Bytes := do
  h.addString s
  let r ← h.result
  h.wipe
  pure r

/-! ### Buffering -/

/-- The fields `state`, `numbytes` and `buffer` of the contexts of src/sha1.h, src/sha256.h,
src/sha512.h, src/ripemd160.h, src/keccak.h.
src/sha1.h:20-25, src/sha256.h:25-30, src/sha512.h:26-31, src/ripemd160.h:20-25. -/
structure MDBuf (γ : Type) where
  h : γ
  numbytes : Nat
  buffer : Bytes
  deriving DecidableEq

/-- The loop over full blocks and the saving of the remaining data: src/sha1.c:137-146,
src/sha256.c:188-197, src/sha512.c:258-267, src/ripemd160.c:357-366 (`viaBuffer`: each block is
first copied to the buffer), src/keccak.c:145-153 (blocks are processed where they are).
`n` is the block size, `tr` the processing of one block. -/
def mdTail (n : Nat) (viaBuffer : Bool) (tr : γ → Bytes → γ) (c : MDBuf γ) (data : Bytes) :
    Option (MDBuf γ) :=
  if _h : 0 < n ∧ n ≤ data.length then
    if viaBuffer then
      match cWrite c.buffer 0 (data.take n) with
      | none => none
      | some b => mdTail n viaBuffer tr { c with buffer := b, h := tr c.h b } (data.drop n)
    else mdTail n viaBuffer tr { c with h := tr c.h (data.take n) } (data.drop n)
  else
    match cWrite c.buffer 0 data with
    | none => none
    | some b => some { c with buffer := b, numbytes := data.length }
termination_by data.length
decreasing_by all_goals (rw [List.length_drop]; omega)

/-- Adding data: src/sha1.c:124-146, src/sha256.c:175-197, src/sha512.c:245-267,
src/ripemd160.c:344-366, src/keccak.c:132-153. -/
def mdAdd (n : Nat) (viaBuffer : Bool) (tr : γ → Bytes → γ) (c : MDBuf γ) (data : Bytes) :
    Option (MDBuf γ) :=
  if c.numbytes ≠ 0 then
    let t := n - c.numbytes
    if data.length < t then
      match cWrite c.buffer c.numbytes data with
      | none => none
      | some b => some { c with buffer := b, numbytes := c.numbytes + data.length }
    else
      match cWrite c.buffer c.numbytes (data.take t) with
      | none => none
      | some b => mdTail n viaBuffer tr { c with buffer := b, h := tr c.h b } (data.drop t)
  else mdTail n viaBuffer tr c data

/-- Final padding and length: src/sha1.c:151-167, src/sha256.c:203-219, src/sha512.c:273-289,
src/ripemd160.c:371-387. `l` is the number of bytes of the length field, `len` its contents. -/
def mdFinish (n l : Nat) (tr : γ → Bytes → γ) (c : MDBuf γ) (len : Bytes) : Option (MDBuf γ) := do
  let b ← cWrite c.buffer c.numbytes [0x80]
  let i := c.numbytes + 1
  let (h, b, i) ←
    if i > n - l then do
      let b ← cWrite b i (List.replicate (n - i) 0)
      pure (tr c.h b, b, 0)
    else pure (c.h, b, i)
  let b ← cWrite b i (List.replicate (n - l - i) 0)
  let b ← cWrite b (n - l : Nat) len
  pure { h := tr h b, numbytes := c.numbytes, buffer := b }

/-- Update of the message length in bits, kept in two words: src/sha1.c:118-122,
src/sha256.c:169-173, src/ripemd160.c:338-342 (32-bit words), src/sha512.c:239-243 (64-bit
words). The result is (high word, low word). `len` is an `unsigned long` (64 bits). -/
def lenAdd (w : Nat) (hi lo : BitVec w) (len : Nat) : BitVec w × BitVec w :=
  let len : W64 := BitVec.ofNat 64 len
  let lo' := lo + (len <<< 3).setWidth w
  let hi := if lo' < lo then hi + 1 else hi
  (hi + (len >>> (w - 3)).setWidth w, lo')

/-- The memory image of an array of words of `k` bytes, on a little-endian machine.
For `SHA1_copy_and_swap`, src/sha1.c:26-42. -/
def memOfWords (k : Nat) (ws : List (BitVec w)) : Bytes :=
  (ws.map fun x => natToLE k x.toNat).flatten

/-- The array of `w`-bit words, `k` bytes each, whose memory image is `b`.
For `SHA1_copy_and_swap`, src/sha1.c:26-42. -/
def wordsOfMem (k w : Nat) (b : Bytes) : List (BitVec w) :=
  (chunks k b).map fun c => BitVec.ofNat w (leNat c)

/-- `SHA1_copy_and_swap`, src/sha1.c:26-42; `SHA256_copy_and_swap`, src/sha256.c:31-47;
`SHA512_copy_and_swap`, src/sha512.c:32-54 (little-endian machine): reverse the bytes of each
word of `k` bytes. -/
def copyAndSwap (k : Nat) (b : Bytes) : Bytes := ((chunks k b).map List.reverse).flatten

end Verif
