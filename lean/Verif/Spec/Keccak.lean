import Verif.Spec.Common
/-
FIPS 202: the Keccak-f[1600] permutation (section 3), pad10*1 and the sponge construction
(sections 4, 5), SHA3 (section 6.1); and Keccak as submitted to NIST (no suffix bits).
-/
namespace Verif.Spec

namespace Keccak

/-- A state: lanes of 64 bits indexed by x and y modulo 5. -/
abbrev State := Fin 5 → Fin 5 → BitVec 64

/-- Section 3.2.1. -/
def theta (A : State) : State :=
  let C := fun x => A x 0 ^^^ A x 1 ^^^ A x 2 ^^^ A x 3 ^^^ A x 4
  let D := fun x => C (x - 1) ^^^ (C (x + 1)).rotateLeft 1
  fun x y => A x y ^^^ D x

/-- Section 3.2.2: the position visited at step `t`. -/
def rhoPos : Nat → Fin 5 × Fin 5
  | 0 => (1, 0)
  | t + 1 => let p := rhoPos t; (p.2, 2 * p.1 + 3 * p.2)

/-- Section 3.2.2: the offset of lane (x, y), found by following the positions. -/
def rhoOffset (x y : Fin 5) : Nat :=
  match (List.range 24).find? fun t => rhoPos t = (x, y) with
  | some t => (t + 1) * (t + 2) / 2
  | none => 0

def rho (A : State) : State := fun x y => (A x y).rotateLeft (rhoOffset x y % 64)

/-- Section 3.2.3. -/
def pi (A : State) : State := fun x y => A (x + 3 * y) x

/-- Section 3.2.4. -/
def chi (A : State) : State := fun x y => A x y ^^^ (~~~ A (x + 1) y &&& A (x + 2) y)

/-- Algorithm 5, one iteration of the loop: R of 8 bits, R[0] first. -/
def lfsrStep (R : List Bool) : List Bool :=
  let R := false :: R
  let r8 := R.getD 8 false
  let R := R.set 0 (R.getD 0 false ^^ r8)
  let R := R.set 4 (R.getD 4 false ^^ r8)
  let R := R.set 5 (R.getD 5 false ^^ r8)
  let R := R.set 6 (R.getD 6 false ^^ r8)
  R.take 8

/-- Algorithm 5: rc(t). -/
def rc (t : Nat) : Bool :=
  ((List.range (t % 255)).foldl (fun R _ => lfsrStep R)
    [true, false, false, false, false, false, false, false]).getD 0 false

/-- Algorithm 6: the round constant; bit 2^j - 1 is rc(j + 7 ir). -/
def RC (ir : Nat) : BitVec 64 :=
  (List.range 7).foldl
    (fun r j => if rc (j + 7 * ir) then r ||| BitVec.ofNat 64 (2 ^ (2 ^ j - 1)) else r) 0

/-- Section 3.2.5. -/
def iota (A : State) (ir : Nat) : State := fun x y => if x = 0 ∧ y = 0 then A 0 0 ^^^ RC ir else A x y

/-- Section 3.3. -/
def round (A : State) (ir : Nat) : State := iota (chi (pi (rho (theta A)))) ir
def permute (A : State) : State := (List.range 24).foldl round A

/-- Section 3.1.2: from the string of 200 bytes; lane (x, y) is bytes 8(5y+x) to 8(5y+x)+7, least
significant first. -/
def ofBytes (S : Bytes) : State := fun x y =>
  BitVec.ofNat 64 (leNat ((S.drop (8 * (5 * y.val + x.val))).take 8))

/-- Section 3.1.3: to the string of 200 bytes, plane by plane. -/
def toBytes (A : State) : Bytes :=
  (([0, 1, 2, 3, 4] : List (Fin 5)).map fun y =>
    (([0, 1, 2, 3, 4] : List (Fin 5)).map fun x => natToLE 8 (A x y).toNat).flatten).flatten

/-- Keccak-f[1600] on strings. -/
def f (S : Bytes) : Bytes := toBytes (permute (ofBytes S))

end Keccak

/-- Section B.1: the bits of a byte string, least significant bit of each byte first. -/
def bitsOfBytes (m : Bytes) : List Bool :=
  (m.map fun b => (List.range 8).map fun i => b.getLsbD i).flatten

/-- The reverse, for a number of bits multiple of 8. -/
def bytesOfBits (l : List Bool) : Bytes :=
  (chunks 8 l).map fun c =>
    (List.range 8).foldl (fun b i => if c.getD i false then b ||| BitVec.ofNat 8 (2 ^ i) else b) 0

/-- Section 5.1, pad10*1(x, m): `j = (-m - 2) mod x` zeros. -/
def pad101 (x m : Nat) : List Bool :=
  true :: List.replicate ((x - (m + 2) % x) % x) false ++ [true]

/-- The sponge construction (algorithm 8) with a rate of `rate` bytes, on the message bits `N`, for
an output of `d ≤ rate` bytes. -/
def sponge (rate : Nat) (N : List Bool) (d : Nat) : Bytes :=
  let P := bytesOfBits (N ++ pad101 (8 * rate) N.length)
  let S := (chunks rate P).foldl
    (fun S Pi => Keccak.f (xorb S (Pi ++ List.replicate (200 - rate) 0))) (List.replicate 200 0)
  S.take d

/-- Section 6.1: SHA3-d(M) = KECCAK[2d](M || 01, d), `d` in bits. -/
def SHA3 (d : Nat) (M : Bytes) : Bytes :=
  sponge ((1600 - 2 * d) / 8) (bitsOfBytes M ++ [false, true]) (d / 8)

/-- The Keccak submission: no suffix. -/
def Keccak (d : Nat) (M : Bytes) : Bytes :=
  sponge ((1600 - 2 * d) / 8) (bitsOfBytes M) (d / 8)

end Verif.Spec
