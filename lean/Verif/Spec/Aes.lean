import Verif.Spec.Common
import Mathlib.Logic.Function.Iterate
/-
The Advanced Encryption Standard, FIPS 197.
-/
namespace Verif.Spec.Aes

/-! ### The field GF(2^8), FIPS 197 section 4 -/

/-- Multiplication by `x` modulo `x^8 + x^4 + x^3 + x + 1`. -/
def xtime (b : Byte) : Byte := (b <<< 1) ^^^ (if b.msb then 0x1b else 0)

/-- Multiplication in the field. -/
def mul (a b : Byte) : Byte :=
  (List.range 8).foldl (fun acc i => if a.getLsbD i then acc ^^^ xtime^[i] b else acc) 0

/-- The multiplicative inverse, with 0 mapped to itself: `b ^ 254`, the product of
`b ^ 2, b ^ 4, ..., b ^ 128`. -/
def inv (b : Byte) : Byte :=
  let b2 := mul b b
  let b4 := mul b2 b2
  let b8 := mul b4 b4
  let b16 := mul b8 b8
  let b32 := mul b16 b16
  let b64 := mul b32 b32
  let b128 := mul b64 b64
  mul b2 (mul b4 (mul b8 (mul b16 (mul b32 (mul b64 b128)))))

/-! ### Transformations, FIPS 197 sections 5.1 and 5.3. The state is a list of 16 bytes,
column by column: byte `r + 4 c` is at row `r` and column `c`. -/

/-- SubBytes on one byte: inverse, then affine transformation. -/
def sbox (b : Byte) : Byte :=
  let x := inv b
  x ^^^ x.rotateLeft 1 ^^^ x.rotateLeft 2 ^^^ x.rotateLeft 3 ^^^ x.rotateLeft 4 ^^^ 0x63

/-- InvSubBytes on one byte: inverse affine transformation, then inverse. -/
def invSbox (b : Byte) : Byte :=
  inv (b.rotateLeft 1 ^^^ b.rotateLeft 3 ^^^ b.rotateLeft 6 ^^^ 0x05)

def subBytes (s : Bytes) : Bytes := s.map sbox
def invSubBytes (s : Bytes) : Bytes := s.map invSbox

/-- Row `r` is rotated left by `r` columns. -/
def shiftRows (s : Bytes) : Bytes := (List.range 16).map fun i => s.getD ((i + 4 * (i % 4)) % 16) 0
/-- Row `r` is rotated right by `r` columns. -/
def invShiftRows (s : Bytes) : Bytes :=
  (List.range 16).map fun i => s.getD ((i + 16 - 4 * (i % 4)) % 16) 0

/-- Multiplication of a column by the circulant matrix of first row `m0 m1 m2 m3`. -/
def mulColumn (m0 m1 m2 m3 : Byte) : Bytes → Bytes
  | [a0, a1, a2, a3] =>
    [mul m0 a0 ^^^ mul m1 a1 ^^^ mul m2 a2 ^^^ mul m3 a3,
     mul m3 a0 ^^^ mul m0 a1 ^^^ mul m1 a2 ^^^ mul m2 a3,
     mul m2 a0 ^^^ mul m3 a1 ^^^ mul m0 a2 ^^^ mul m1 a3,
     mul m1 a0 ^^^ mul m2 a1 ^^^ mul m3 a2 ^^^ mul m0 a3]
  | _ => []

def mixColumns (s : Bytes) : Bytes := (chunks 4 s).flatMap (mulColumn 2 3 1 1)
def invMixColumns (s : Bytes) : Bytes := (chunks 4 s).flatMap (mulColumn 0x0e 0x0b 0x0d 0x09)

/-! ### Key expansion, FIPS 197 section 5.2. Words are lists of 4 bytes. -/

def rotWord (w : Bytes) : Bytes := w.drop 1 ++ w.take 1
def subWord (w : Bytes) : Bytes := w.map sbox
/-- `[x ^ (i - 1), 0, 0, 0]` -/
def rcon (i : Nat) : Bytes := [xtime^[i - 1] 1, 0, 0, 0]

/-- The word that follows `w`, where `w` has `i` words. -/
def nextWord (nk : Nat) (w : List Bytes) : Bytes :=
  let i := w.length
  let temp := w.getD (i - 1) []
  let temp :=
    if i % nk = 0 then xorb (subWord (rotWord temp)) (rcon (i / nk))
    else if nk > 6 ∧ i % nk = 4 then subWord temp
    else temp
  xorb (w.getD (i - nk) []) temp

/-- `n` words are added to `w`. -/
def expand (nk : Nat) : Nat → List Bytes → List Bytes
  | 0, w => w
  | n + 1, w => expand nk n (w ++ [nextWord nk w])

/-- Number of rounds for a key of `nk` words. -/
def rounds (nk : Nat) : Nat := nk + 6

/-- The `4 (Nr + 1)` words of the key schedule. -/
def keyExpansion (key : Bytes) : List Bytes :=
  let nk := key.length / 4
  expand nk (4 * (rounds nk + 1) - nk) (chunks 4 key)

/-- The key of round `r`. -/
def roundKey (w : List Bytes) (r : Nat) : Bytes := ((w.drop (4 * r)).take 4).flatten

/-! ### Cipher and inverse cipher, FIPS 197 sections 5.1 and 5.3 -/

def encRound (s k : Bytes) : Bytes := xorb (mixColumns (shiftRows (subBytes s))) k
def encLast (s k : Bytes) : Bytes := xorb (shiftRows (subBytes s)) k
def decRound (s k : Bytes) : Bytes := invMixColumns (xorb (invSubBytes (invShiftRows s)) k)
def decLast (s k : Bytes) : Bytes := xorb (invSubBytes (invShiftRows s)) k

def encrypt (key block : Bytes) : Bytes :=
  let w := keyExpansion key
  let nr := rounds (key.length / 4)
  let s := xorb block (roundKey w 0)
  let s := (List.range (nr - 1)).foldl (fun s i => encRound s (roundKey w (i + 1))) s
  encLast s (roundKey w nr)

def decrypt (key block : Bytes) : Bytes :=
  let w := keyExpansion key
  let nr := rounds (key.length / 4)
  let s := xorb block (roundKey w nr)
  let s := (List.range (nr - 1)).foldl (fun s i => decRound s (roundKey w (nr - 1 - i))) s
  decLast s (roundKey w 0)

end Verif.Spec.Aes
