import Verif.Spec.MD
/-
FIPS 180-4: SHA-1, SHA-224, SHA-256, SHA-384, SHA-512, for messages made of bytes. The constants
are defined as in the standard, from square and cube roots of primes.
-/
namespace Verif.Spec

/-- Bits `b-1 ... 0` of the `k`-th root of `n`, added to `r`, most significant first. -/
def rootBits (k n : Nat) : Nat → Nat → Nat
  | 0, r => r
  | b + 1, r => if (r + 2 ^ b) ^ k ≤ n then rootBits k n b (r + 2 ^ b) else rootBits k n b r

/-- The integer part of the `k`-th root of `n`, when it is less than `2^80`. -/
def iroot (k n : Nat) : Nat := rootBits k n 80 0

/-- The first `w` bits of the fractional part of the `k`-th root of `p`. -/
def rootFrac (w k p : Nat) : BitVec w := BitVec.ofNat w (iroot k (p * 2 ^ (k * w)))

/-- Trial division. -/
def isPrime (n : Nat) : Bool := 2 ≤ n && (List.range n).all fun d => d < 2 || n % d ≠ 0

/-- The primes up to 409, that is, the first eighty. -/
def primes : List Nat := (List.range 410).filter isPrime

/-- Section 4.2.2. -/
def K256 : List (BitVec 32) := (primes.take 64).map (rootFrac 32 3)
/-- Section 4.2.3. -/
def K512 : List (BitVec 64) := primes.map (rootFrac 64 3)

/-- Section 4.1. -/
def Ch (x y z : BitVec w) : BitVec w := (x &&& y) ^^^ (~~~x &&& z)
def Maj (x y z : BitVec w) : BitVec w := (x &&& y) ^^^ (x &&& z) ^^^ (y &&& z)
def Parity (x y z : BitVec w) : BitVec w := x ^^^ y ^^^ z

/-- Block parsing, section 5.2: word `t` (big-endian, `k` bytes) of a block. -/
def wordBE (k w : Nat) (block : Bytes) (t : Nat) : BitVec w :=
  BitVec.ofNat w (beNat ((block.drop (k * t)).take k))

/-- The digest: the words in big-endian order. -/
def digestBE (k : Nat) (ws : List (BitVec w)) : Bytes := (ws.map fun x => natToBE k x.toNat).flatten

/-! #### SHA-1, section 6.1 -/

/-- Message schedule. -/
def sha1W (m : Nat → BitVec 32) (t : Nat) : BitVec 32 :=
  if t < 16 then m t
  else (sha1W m (t - 3) ^^^ sha1W m (t - 8) ^^^ sha1W m (t - 14) ^^^ sha1W m (t - 16)).rotateLeft 1
termination_by t

/-- Section 4.1.1. -/
def sha1f (t : Nat) (x y z : BitVec 32) : BitVec 32 :=
  if t < 20 then Ch x y z else if t < 40 then Parity x y z
  else if t < 60 then Maj x y z else Parity x y z

/-- Section 4.2.1. -/
def sha1K (t : Nat) : BitVec 32 :=
  if t < 20 then 0x5a827999 else if t < 40 then 0x6ed9eba1
  else if t < 60 then 0x8f1bbcdc else 0xca62c1d6

structure H5 where
  (a b c d e : BitVec 32)

/-- Section 6.1.2, step 3. -/
def sha1Step (m : Nat → BitVec 32) (s : H5) (t : Nat) : H5 :=
  let T := s.a.rotateLeft 5 + sha1f t s.b s.c s.d + s.e + sha1K t + sha1W m t
  { a := T, b := s.a, c := s.b.rotateLeft 30, d := s.c, e := s.d }

/-- Section 6.1.2. -/
def sha1Compress (h : H5) (block : Bytes) : H5 :=
  let s := (List.range 80).foldl (sha1Step (wordBE 4 32 block)) h
  ⟨s.a + h.a, s.b + h.b, s.c + h.c, s.d + h.d, s.e + h.e⟩

/-- Section 5.3.1. -/
def sha1IV : H5 := ⟨0x67452301, 0xefcdab89, 0x98badcfe, 0x10325476, 0xc3d2e1f0⟩

def SHA1 (m : Bytes) : Bytes :=
  let h := merkleDamgard 64 sha1Compress sha1IV (mdPad 64 m (natToBE 8 (8 * m.length)))
  digestBE 4 [h.a, h.b, h.c, h.d, h.e]

/-! #### SHA-2, sections 6.2-6.5 -/

/-- Sections 4.1.2, 4.1.3 (functions), 4.2.2, 4.2.3 (constants). -/
structure Sha2Params (w : Nat) where
  bigSigma0 : BitVec w → BitVec w
  bigSigma1 : BitVec w → BitVec w
  smallSigma0 : BitVec w → BitVec w
  smallSigma1 : BitVec w → BitVec w
  rounds : Nat
  K : List (BitVec w)

def params256 : Sha2Params 32 where
  bigSigma0 x := x.rotateRight 2 ^^^ x.rotateRight 13 ^^^ x.rotateRight 22
  bigSigma1 x := x.rotateRight 6 ^^^ x.rotateRight 11 ^^^ x.rotateRight 25
  smallSigma0 x := x.rotateRight 7 ^^^ x.rotateRight 18 ^^^ x >>> 3
  smallSigma1 x := x.rotateRight 17 ^^^ x.rotateRight 19 ^^^ x >>> 10
  rounds := 64
  K := K256

def params512 : Sha2Params 64 where
  bigSigma0 x := x.rotateRight 28 ^^^ x.rotateRight 34 ^^^ x.rotateRight 39
  bigSigma1 x := x.rotateRight 14 ^^^ x.rotateRight 18 ^^^ x.rotateRight 41
  smallSigma0 x := x.rotateRight 1 ^^^ x.rotateRight 8 ^^^ x >>> 7
  smallSigma1 x := x.rotateRight 19 ^^^ x.rotateRight 61 ^^^ x >>> 6
  rounds := 80
  K := K512

/-- Message schedule. -/
def sha2W (p : Sha2Params w) (m : Nat → BitVec w) (t : Nat) : BitVec w :=
  if t < 16 then m t
  else p.smallSigma1 (sha2W p m (t - 2)) + sha2W p m (t - 7) + p.smallSigma0 (sha2W p m (t - 15))
    + sha2W p m (t - 16)
termination_by t

structure H8 (w : Nat) where
  (a b c d e f g h : BitVec w)
  deriving DecidableEq

/-- Sections 6.2.2, 6.4.2, step 3. -/
def sha2Step (p : Sha2Params w) (m : Nat → BitVec w) (s : H8 w) (t : Nat) : H8 w :=
  let T1 := s.h + p.bigSigma1 s.e + Ch s.e s.f s.g + p.K.getD t 0 + sha2W p m t
  let T2 := p.bigSigma0 s.a + Maj s.a s.b s.c
  ⟨T1 + T2, s.a, s.b, s.c, s.d + T1, s.e, s.f, s.g⟩

/-- Sections 6.2.2, 6.4.2. -/
def sha2Compress (p : Sha2Params w) (k : Nat) (h : H8 w) (block : Bytes) : H8 w :=
  let s := (List.range p.rounds).foldl (sha2Step p (wordBE k w block)) h
  ⟨s.a + h.a, s.b + h.b, s.c + h.c, s.d + h.d, s.e + h.e, s.f + h.f, s.g + h.g, s.h + h.h⟩

/-- Initial values, section 5.3: square roots of eight primes. -/
def sha2IV (l : List (BitVec w)) : H8 w :=
  ⟨l.getD 0 0, l.getD 1 0, l.getD 2 0, l.getD 3 0, l.getD 4 0, l.getD 5 0, l.getD 6 0, l.getD 7 0⟩
/-- Section 5.3.3: first 32 bits of the fractional parts of the square roots of the first eight
primes. -/
def IV256 : H8 32 := sha2IV ((primes.take 8).map (rootFrac 32 2))
/-- Section 5.3.5: first 64 bits, same primes. -/
def IV512 : H8 64 := sha2IV ((primes.take 8).map (rootFrac 64 2))
/-- Section 5.3.4: first 64 bits, ninth through sixteenth primes. -/
def IV384 : H8 64 := sha2IV (((primes.drop 8).take 8).map (rootFrac 64 2))
/-- Section 5.3.2: second 32 bits of the fractional parts, ninth through sixteenth primes. -/
def IV224 : H8 32 := sha2IV (((primes.drop 8).take 8).map fun p => (rootFrac 64 2 p).setWidth 32)

def sha2Words (p : Sha2Params w) (k : Nat) (iv : H8 w) (m : Bytes) : List (BitVec w) :=
  let h := merkleDamgard (16 * k) (sha2Compress p k) iv
    (mdPad (16 * k) m (natToBE (2 * k) (8 * m.length)))
  [h.a, h.b, h.c, h.d, h.e, h.f, h.g, h.h]

def SHA224 (m : Bytes) : Bytes := digestBE 4 ((sha2Words params256 4 IV224 m).take 7)
def SHA256 (m : Bytes) : Bytes := digestBE 4 (sha2Words params256 4 IV256 m)
def SHA384 (m : Bytes) : Bytes := digestBE 8 ((sha2Words params512 8 IV384 m).take 6)
def SHA512 (m : Bytes) : Bytes := digestBE 8 (sha2Words params512 8 IV512 m)

end Verif.Spec
