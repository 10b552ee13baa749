import Mathlib.Analysis.Real.Pi.Bounds
import Mathlib.Algebra.Order.Floor.Semiring
import Verif.Spec.Common
/-
Blowfish as published: B. Schneier, "Description of a New Variable-Length Key, 64-Bit Block Cipher
(Blowfish)", Fast Software Encryption 1993. The 18 entries of the P-array and the 4 x 256 entries of
the S-boxes are kept in one list of 1042 words, in the order in which the key schedule fills them.
-/
namespace Verif.Spec.Blowfish

/-- Bits `32 i` to `32 i + 31` of the fractional part of the number pi. -/
noncomputable def piWord (i : Nat) : BitVec 32 := BitVec.ofNat 32 ⌊Real.pi * 2 ^ (32 * (i + 1))⌋₊

/-- Word `i` of the key, cycled as often as needed. -/
def keyWord (key : Bytes) (i : Nat) : BitVec 32 :=
  BitVec.ofNat 32 (beNat ((List.range 4).map fun k => key.getD ((4 * i + k) % key.length) 0))

/-- The P-array. -/
def parray (sub : List (BitVec 32)) : List (BitVec 32) := sub.take 18
/-- Entry `j` of S-box `i`. -/
def sbox (sub : List (BitVec 32)) (i j : Nat) : BitVec 32 := sub.getD (18 + 256 * i + j) 0

/-- The function F: the four bytes of `x`, most significant first, select entries of the four boxes. -/
def F (sub : List (BitVec 32)) (x : BitVec 32) : BitVec 32 :=
  let a := x.toNat / 2 ^ 24
  let b := x.toNat / 2 ^ 16 % 256
  let c := x.toNat / 2 ^ 8 % 256
  let d := x.toNat % 256
  ((sbox sub 0 a + sbox sub 1 b) ^^^ sbox sub 2 c) + sbox sub 3 d

/-- For each P: xL = xL xor P; xR = F(xL) xor xR; swap xL and xR. -/
def rounds (f : BitVec 32 → BitVec 32) : List (BitVec 32) → BitVec 32 × BitVec 32 → BitVec 32 × BitVec 32
  | [], x => x
  | p :: ps, (l, r) =>
    let l := l ^^^ p
    let r := f l ^^^ r
    rounds f ps (r, l)

/-- Sixteen rounds, undo the last swap, then xor the last two P. -/
def crypt (f : BitVec 32 → BitVec 32) (P : List (BitVec 32)) (x : BitVec 32 × BitVec 32) :
    BitVec 32 × BitVec 32 :=
  let (l, r) := rounds f (P.take 16) x
  let (l, r) := (r, l)
  let r := r ^^^ P.getD 16 0
  let l := l ^^^ P.getD 17 0
  (l, r)

/-- The subkeys before the schedule: digits of pi, with the P-array xored with the key. -/
noncomputable def initial (key : Bytes) : List (BitVec 32) :=
  (List.range 1042).map fun i => if i < 18 then piWord i ^^^ keyWord key i else piWord i

/-- Step `n` of the schedule: encrypt the previous output with the current subkeys, replace subkeys
`2 n` and `2 n + 1` with the result. -/
def step (s : List (BitVec 32) × (BitVec 32 × BitVec 32)) (n : Nat) :
    List (BitVec 32) × (BitVec 32 × BitVec 32) :=
  let y := crypt (F s.1) (parray s.1) s.2
  ((s.1.set (2 * n) y.1).set (2 * n + 1) y.2, y)

/-- The 521 steps, starting from the all-zero block. -/
def expand (sub : List (BitVec 32)) : List (BitVec 32) :=
  ((List.range 521).foldl step (sub, (0, 0))).1

/-- The subkeys. -/
noncomputable def schedule (key : Bytes) : List (BitVec 32) := expand (initial key)

/-- A block as two words, and back. -/
def split (b : Bytes) : BitVec 32 × BitVec 32 :=
  (BitVec.ofNat 32 (beNat (b.take 4)), BitVec.ofNat 32 (beNat (b.drop 4)))
def join (x : BitVec 32 × BitVec 32) : Bytes := natToBE 4 x.1.toNat ++ natToBE 4 x.2.toNat

/-- Encryption of a block. -/
noncomputable def encrypt (key b : Bytes) : Bytes :=
  join (crypt (F (schedule key)) (parray (schedule key)) (split b))
/-- Decryption: the same with the P-array in reverse order. -/
noncomputable def decrypt (key b : Bytes) : Bytes :=
  join (crypt (F (schedule key)) (parray (schedule key)).reverse (split b))

end Verif.Spec.Blowfish
