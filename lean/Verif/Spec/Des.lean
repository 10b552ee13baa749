import Verif.Spec.Common
/-
The Data Encryption Standard and the Triple Data Encryption Algorithm, FIPS 46-3. As in the
standard, the bits of a block are numbered from the left, starting with 1.
-/
namespace Verif.Spec.Des

/-- The bit vector whose bit number `j + 1` from the left is `p j`. -/
def ofBits (n : Nat) (p : Nat → Bool) : BitVec n :=
  (List.range n).foldl (fun w j => if p j then w ||| BitVec.twoPow n (n - 1 - j) else w) 0#n

/-- The bit vector whose bits, from the left, are the bits of `x` with the numbers listed in `t`. -/
def permute (n : Nat) (t : List Nat) (x : BitVec m) : BitVec n :=
  ofBits n fun j => x.getMsbD (t.getD j 0 - 1)

def IP : List Nat :=
  [58, 50, 42, 34, 26, 18, 10, 2,
   60, 52, 44, 36, 28, 20, 12, 4,
   62, 54, 46, 38, 30, 22, 14, 6,
   64, 56, 48, 40, 32, 24, 16, 8,
   57, 49, 41, 33, 25, 17, 9, 1,
   59, 51, 43, 35, 27, 19, 11, 3,
   61, 53, 45, 37, 29, 21, 13, 5,
   63, 55, 47, 39, 31, 23, 15, 7]

def FP : List Nat :=
  [40, 8, 48, 16, 56, 24, 64, 32,
   39, 7, 47, 15, 55, 23, 63, 31,
   38, 6, 46, 14, 54, 22, 62, 30,
   37, 5, 45, 13, 53, 21, 61, 29,
   36, 4, 44, 12, 52, 20, 60, 28,
   35, 3, 43, 11, 51, 19, 59, 27,
   34, 2, 42, 10, 50, 18, 58, 26,
   33, 1, 41, 9, 49, 17, 57, 25]

def E : List Nat :=
  [32, 1, 2, 3, 4, 5,
   4, 5, 6, 7, 8, 9,
   8, 9, 10, 11, 12, 13,
   12, 13, 14, 15, 16, 17,
   16, 17, 18, 19, 20, 21,
   20, 21, 22, 23, 24, 25,
   24, 25, 26, 27, 28, 29,
   28, 29, 30, 31, 32, 1]

def P : List Nat :=
  [16, 7, 20, 21, 29, 12, 28, 17,
   1, 15, 23, 26, 5, 18, 31, 10,
   2, 8, 24, 14, 32, 27, 3, 9,
   19, 13, 30, 6, 22, 11, 4, 25]

def S1 : List Nat :=
  [14, 4, 13, 1, 2, 15, 11, 8, 3, 10, 6, 12, 5, 9, 0, 7,
   0, 15, 7, 4, 14, 2, 13, 1, 10, 6, 12, 11, 9, 5, 3, 8,
   4, 1, 14, 8, 13, 6, 2, 11, 15, 12, 9, 7, 3, 10, 5, 0,
   15, 12, 8, 2, 4, 9, 1, 7, 5, 11, 3, 14, 10, 0, 6, 13]
def S2 : List Nat :=
  [15, 1, 8, 14, 6, 11, 3, 4, 9, 7, 2, 13, 12, 0, 5, 10,
   3, 13, 4, 7, 15, 2, 8, 14, 12, 0, 1, 10, 6, 9, 11, 5,
   0, 14, 7, 11, 10, 4, 13, 1, 5, 8, 12, 6, 9, 3, 2, 15,
   13, 8, 10, 1, 3, 15, 4, 2, 11, 6, 7, 12, 0, 5, 14, 9]
def S3 : List Nat :=
  [10, 0, 9, 14, 6, 3, 15, 5, 1, 13, 12, 7, 11, 4, 2, 8,
   13, 7, 0, 9, 3, 4, 6, 10, 2, 8, 5, 14, 12, 11, 15, 1,
   13, 6, 4, 9, 8, 15, 3, 0, 11, 1, 2, 12, 5, 10, 14, 7,
   1, 10, 13, 0, 6, 9, 8, 7, 4, 15, 14, 3, 11, 5, 2, 12]
def S4 : List Nat :=
  [7, 13, 14, 3, 0, 6, 9, 10, 1, 2, 8, 5, 11, 12, 4, 15,
   13, 8, 11, 5, 6, 15, 0, 3, 4, 7, 2, 12, 1, 10, 14, 9,
   10, 6, 9, 0, 12, 11, 7, 13, 15, 1, 3, 14, 5, 2, 8, 4,
   3, 15, 0, 6, 10, 1, 13, 8, 9, 4, 5, 11, 12, 7, 2, 14]
def S5 : List Nat :=
  [2, 12, 4, 1, 7, 10, 11, 6, 8, 5, 3, 15, 13, 0, 14, 9,
   14, 11, 2, 12, 4, 7, 13, 1, 5, 0, 15, 10, 3, 9, 8, 6,
   4, 2, 1, 11, 10, 13, 7, 8, 15, 9, 12, 5, 6, 3, 0, 14,
   11, 8, 12, 7, 1, 14, 2, 13, 6, 15, 0, 9, 10, 4, 5, 3]
def S6 : List Nat :=
  [12, 1, 10, 15, 9, 2, 6, 8, 0, 13, 3, 4, 14, 7, 5, 11,
   10, 15, 4, 2, 7, 12, 9, 5, 6, 1, 13, 14, 0, 11, 3, 8,
   9, 14, 15, 5, 2, 8, 12, 3, 7, 0, 4, 10, 1, 13, 11, 6,
   4, 3, 2, 12, 9, 5, 15, 10, 11, 14, 1, 7, 6, 0, 8, 13]
def S7 : List Nat :=
  [4, 11, 2, 14, 15, 0, 8, 13, 3, 12, 9, 7, 5, 10, 6, 1,
   13, 0, 11, 7, 4, 9, 1, 10, 14, 3, 5, 12, 2, 15, 8, 6,
   1, 4, 11, 13, 12, 3, 7, 14, 10, 15, 6, 8, 0, 5, 9, 2,
   6, 11, 13, 8, 1, 4, 10, 7, 9, 5, 0, 15, 14, 2, 3, 12]
def S8 : List Nat :=
  [13, 2, 8, 4, 6, 15, 11, 1, 10, 9, 3, 14, 5, 0, 12, 7,
   1, 15, 13, 8, 10, 3, 7, 4, 12, 5, 6, 11, 0, 14, 9, 2,
   7, 11, 4, 1, 9, 12, 14, 2, 0, 6, 10, 13, 15, 3, 5, 8,
   2, 1, 14, 7, 4, 10, 8, 13, 15, 12, 9, 0, 3, 5, 6, 11]

/-- A selection function on 6 bits: the first and the last bit select the row, the four others the
column. -/
def select (t : List Nat) (x : BitVec 6) : BitVec 4 :=
  let row := 2 * (x.getMsbD 0).toNat + (x.getMsbD 5).toNat
  let col := (x.extractLsb' 1 4).toNat
  BitVec.ofNat 4 (t.getD (16 * row + col) 0)

/-- The eight selection functions on the successive groups of 6 bits. -/
def S (x : BitVec 48) : BitVec 32 :=
  select S1 (x.extractLsb' 42 6) ++ select S2 (x.extractLsb' 36 6)
    ++ select S3 (x.extractLsb' 30 6) ++ select S4 (x.extractLsb' 24 6)
    ++ select S5 (x.extractLsb' 18 6) ++ select S6 (x.extractLsb' 12 6)
    ++ select S7 (x.extractLsb' 6 6) ++ select S8 (x.extractLsb' 0 6)

/-- The cipher function. -/
def f (R : BitVec 32) (K : BitVec 48) : BitVec 32 :=
  permute 32 P (S (permute 48 E R ^^^ K))

def PC1 : List Nat :=
  [57, 49, 41, 33, 25, 17, 9,
   1, 58, 50, 42, 34, 26, 18,
   10, 2, 59, 51, 43, 35, 27,
   19, 11, 3, 60, 52, 44, 36,
   63, 55, 47, 39, 31, 23, 15,
   7, 62, 54, 46, 38, 30, 22,
   14, 6, 61, 53, 45, 37, 29,
   21, 13, 5, 28, 20, 12, 4]

def PC2 : List Nat :=
  [14, 17, 11, 24, 1, 5,
   3, 28, 15, 6, 21, 10,
   23, 19, 12, 4, 26, 8,
   16, 7, 27, 20, 13, 2,
   41, 52, 31, 37, 47, 55,
   30, 40, 51, 45, 33, 48,
   44, 49, 39, 56, 34, 53,
   46, 42, 50, 36, 29, 32]

/-- Number of left shifts at each iteration. -/
def shifts : List Nat := [1, 1, 2, 2, 2, 2, 2, 2, 1, 2, 2, 2, 2, 2, 2, 1]

/-- The blocks `C` and `D` after `n` iterations. -/
def CD (key : BitVec 64) : Nat → BitVec 28 × BitVec 28
  | 0 =>
    let x := permute 56 PC1 key
    (x.extractLsb' 28 28, x.extractLsb' 0 28)
  | n + 1 =>
    let (c, d) := CD key n
    (c.rotateLeft (shifts.getD n 0), d.rotateLeft (shifts.getD n 0))

/-- The key of iteration `n + 1`. -/
def roundKey (key : BitVec 64) (n : Nat) : BitVec 48 :=
  let (c, d) := CD key (n + 1)
  permute 48 PC2 (c ++ d)

def roundKeys (key : BitVec 64) : List (BitVec 48) := (List.range 16).map (roundKey key)

/-- One iteration. -/
def round (s : BitVec 32 × BitVec 32) (K : BitVec 48) : BitVec 32 × BitVec 32 :=
  (s.2, s.1 ^^^ f s.2 K)

/-- Initial permutation, iterations with the given keys, exchange of the halves, inverse initial
permutation. -/
def crypt (Ks : List (BitVec 48)) (x : BitVec 64) : BitVec 64 :=
  let y := permute 64 IP x
  let s := Ks.foldl round (y.extractLsb' 32 32, y.extractLsb' 0 32)
  permute 64 FP (s.2 ++ s.1)

/-- 8 bytes as a block of 64 bits. -/
def ofBytes (b : Bytes) : BitVec 64 := BitVec.ofNat 64 (beNat b)

def encrypt (key b : Bytes) : Bytes :=
  natToBE 8 (crypt (roundKeys (ofBytes key)) (ofBytes b)).toNat
/-- The same computation with the keys in the reverse order. -/
def decrypt (key b : Bytes) : Bytes :=
  natToBE 8 (crypt (roundKeys (ofBytes key)).reverse (ofBytes b)).toNat

/-- The three keys of TDEA in a bundle of 24 bytes, or of 16 bytes if the third is the first. -/
def bundle (key : Bytes) : Bytes × Bytes × Bytes :=
  (key.take 8, (key.drop 8).take 8, if key.length = 24 then key.drop 16 else key.take 8)

def encrypt3 (key b : Bytes) : Bytes :=
  let (k1, k2, k3) := bundle key
  encrypt k3 (decrypt k2 (encrypt k1 b))

def decrypt3 (key b : Bytes) : Bytes :=
  let (k1, k2, k3) := bundle key
  decrypt k1 (encrypt k2 (decrypt k3 b))

end Verif.Spec.Des
