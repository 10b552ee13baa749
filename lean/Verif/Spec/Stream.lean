import Verif.Spec.Common
/-
Stream ciphers: xor with a keystream; RC4; ChaCha20 (RFC 8439 and the original variant).
-/
namespace Verif.Spec

/-- Message `m` xored with the keystream `ks` from position `p` on. -/
def xorKeystream (ks : Nat → Byte) (p : Nat) (m : Bytes) : Bytes :=
  m.mapIdx fun i x => x ^^^ ks (p + i)

/-! ### RC4 -/
namespace RC4

/-- Exchange the values of `S` at `i` and `j`. -/
def swap (S : Byte → Byte) (i j : Byte) : Byte → Byte :=
  fun k => if k = i then S j else if k = j then S i else S k

/-- Key scheduling: for i = 0 .. 255, j := j + S[i] + key[i mod keylength]; swap S[i], S[j].
`ksa key n` is the pair (S, j) after `n` iterations. -/
def ksa (key : Bytes) : Nat → (Byte → Byte) × Byte
  | 0 => (fun k => k, 0)
  | n + 1 =>
    let (S, j) := ksa key n
    let i : Byte := BitVec.ofNat 8 n
    let j := j + S i + key.getD (n % key.length) 0
    (swap S i j, j)

/-- Generation: i := i + 1; j := j + S[i]; swap S[i], S[j]; output S[S[i] + S[j]].
`prga key n` is the triple (S, i, j) after `n` steps. -/
def prga (key : Bytes) : Nat → (Byte → Byte) × Byte × Byte
  | 0 => ((ksa key 256).1, 0, 0)
  | n + 1 =>
    let (S, i, j) := prga key n
    let i := i + 1
    let j := j + S i
    (swap S i j, i, j)

/-- Keystream byte `n` (from 0). -/
def keystream (key : Bytes) (n : Nat) : Byte :=
  let (S, i, j) := prga key (n + 1)
  S (S i + S j)

end RC4

/-! ### ChaCha20 -/
namespace ChaCha20

abbrev Word := BitVec 32

/-- RFC 8439 section 2.1: the quarter round on words a, b, c, d. -/
def quarter (a b c d : Word) : Word × Word × Word × Word :=
  let a := a + b
  let d := (d ^^^ a).rotateLeft 16
  let c := c + d
  let b := (b ^^^ c).rotateLeft 12
  let a := a + b
  let d := (d ^^^ a).rotateLeft 8
  let c := c + d
  let b := (b ^^^ c).rotateLeft 7
  (a, b, c, d)

/-- RFC 8439 section 2.2: QUARTERROUND(i,j,k,l) on the 16-word state. -/
def quarterAt (i j k l : Nat) (s : List Word) : List Word :=
  let (a, b, c, d) := quarter (s.getD i 0) (s.getD j 0) (s.getD k 0) (s.getD l 0)
  (((s.set i a).set j b).set k c).set l d

/-- RFC 8439 section 2.3: four column rounds, four diagonal rounds. -/
def innerBlock (s : List Word) : List Word :=
  [(0, 4, 8, 12), (1, 5, 9, 13), (2, 6, 10, 14), (3, 7, 11, 15),
   (0, 5, 10, 15), (1, 6, 11, 12), (2, 7, 8, 13), (3, 4, 9, 14)].foldl
    (fun s q => quarterAt q.1 q.2.1 q.2.2.1 q.2.2.2 s) s

/-- Twenty rounds, added to the input state, serialized in little-endian order. -/
def block (s : List Word) : Bytes :=
  let w := Nat.repeat innerBlock 10 s
  ((List.zipWith (· + ·) w s).map fun x => natToLE 4 x.toNat).flatten

/-- Little-endian words of a byte sequence. -/
def words (b : Bytes) : List Word := (chunks 4 b).map fun c => BitVec.ofNat 32 (leNat c)

/-- ASCII bytes. -/
def text (s : String) : Bytes := s.toList.map fun c => BitVec.ofNat 8 c.toNat

/-- The first 12 words: constants and key. A 16-byte key is used twice, with the constants
"expand 16-byte k". -/
def keyWords (key : Bytes) : List Word :=
  if key.length = 32 then words (text "expand 32-byte k") ++ words key
  else words (text "expand 16-byte k") ++ words key ++ words key

/-- The state of block number `n`. With a 12-byte nonce: a 32-bit block counter and the nonce
(RFC 8439 section 2.3). With an 8-byte nonce: a 64-bit counter, low word first, and the
nonce (original ChaCha20). -/
def state (key iv : Bytes) (n : Nat) : List Word :=
  keyWords key ++
    (if iv.length = 8 then [BitVec.ofNat 32 n, BitVec.ofNat 32 (n / 2 ^ 32)]
     else [BitVec.ofNat 32 n]) ++ words iv

/-- Keystream byte `i`, for the initial counter `ctr`. -/
def keystream (key iv : Bytes) (ctr : Nat) (i : Nat) : Byte :=
  (block (state key iv (ctr + i / 64))).getD (i % 64) 0

end ChaCha20
end Verif.Spec
