import Verif.Spec.SHA
/-
RFC 7693: BLAKE2b and BLAKE2s.
-/
namespace Verif.Spec

/-- Section 2.7: the message schedule. -/
def SIGMA : List (List Nat) :=
  [[ 0,  1,  2,  3,  4,  5,  6,  7,  8,  9, 10, 11, 12, 13, 14, 15],
   [14, 10,  4,  8,  9, 15, 13,  6,  1, 12,  0,  2, 11,  7,  5,  3],
   [11,  8, 12,  0,  5,  2, 15, 13, 10, 14,  3,  6,  7,  1,  9,  4],
   [ 7,  9,  3,  1, 13, 12, 11, 14,  2,  6,  5, 10,  4,  0, 15,  8],
   [ 9,  0,  5,  7,  2,  4, 10, 15, 14,  1, 11, 12,  6,  8,  3, 13],
   [ 2, 12,  6, 10,  0, 11,  8,  3,  4, 13,  7,  5, 15, 14,  1,  9],
   [12,  5,  1, 15, 14, 13,  4, 10,  0,  7,  6,  3,  9,  2,  8, 11],
   [13, 11,  7, 14, 12,  1,  3,  9,  5,  0, 15,  4,  8,  6,  2, 10],
   [ 6, 15, 14,  9, 11,  3,  0,  8, 12,  2, 13,  7,  1,  4, 10,  5],
   [10,  2,  8,  4,  7,  6,  1,  5, 15, 11,  9, 14,  3, 12, 13,  0]]

/-- Section 2.1: bits in a word are `w`; rounds, and the rotation constants. -/
structure Blake2Params where
  w : Nat
  r : Nat
  R1 : Nat
  R2 : Nat
  R3 : Nat
  R4 : Nat

def blake2b : Blake2Params := ⟨64, 12, 32, 24, 16, 63⟩
def blake2s : Blake2Params := ⟨32, 10, 16, 12, 8, 7⟩

namespace Blake2Params
variable (p : Blake2Params)

/-- Block bytes: sixteen words. -/
def bb : Nat := 16 * (p.w / 8)

/-- Section 2.6: IV[i] = floor(2^w * frac(sqrt(prime(i+1)))). -/
def IV : List (BitVec p.w) := (primes.take 8).map (rootFrac p.w 2)

/-- Section 3.1: mixing function G on v[a], v[b], v[c], v[d]. -/
def G (v : List (BitVec p.w)) (a b c d : Nat) (x y : BitVec p.w) : List (BitVec p.w) :=
  let va := v.getD a 0 + v.getD b 0 + x
  let vd := (v.getD d 0 ^^^ va).rotateRight p.R1
  let vc := v.getD c 0 + vd
  let vb := (v.getD b 0 ^^^ vc).rotateRight p.R2
  let va := va + vb + y
  let vd := (vd ^^^ va).rotateRight p.R3
  let vc := vc + vd
  let vb := (vb ^^^ vc).rotateRight p.R4
  (((v.set a va).set b vb).set c vc).set d vd

/-- One round of section 3.2, with schedule row `s`. -/
def round (m : List (BitVec p.w)) (v : List (BitVec p.w)) (i : Nat) : List (BitVec p.w) :=
  let s := fun j => m.getD ((SIGMA.getD (i % 10) []).getD j 0) 0
  let v := p.G v 0 4 8 12 (s 0) (s 1)
  let v := p.G v 1 5 9 13 (s 2) (s 3)
  let v := p.G v 2 6 10 14 (s 4) (s 5)
  let v := p.G v 3 7 11 15 (s 6) (s 7)
  let v := p.G v 0 5 10 15 (s 8) (s 9)
  let v := p.G v 1 6 11 12 (s 10) (s 11)
  let v := p.G v 2 7 8 13 (s 12) (s 13)
  p.G v 3 4 9 14 (s 14) (s 15)

/-- Section 3.2: compression function F, with block `d` (as bytes), offset counter `t`, final
block flag `f`. -/
def F (h : List (BitVec p.w)) (d : Bytes) (t : Nat) (f : Bool) : List (BitVec p.w) :=
  let m := (chunks (p.w / 8) d).map fun c => BitVec.ofNat p.w (leNat c)
  let v := h ++ p.IV
  let v := v.set 12 (v.getD 12 0 ^^^ BitVec.ofNat p.w t)
  let v := v.set 13 (v.getD 13 0 ^^^ BitVec.ofNat p.w (t / 2 ^ p.w))
  let v := if f then v.set 14 (v.getD 14 0 ^^^ BitVec.allOnes p.w) else v
  let v := (List.range p.r).foldl (p.round m) v
  (List.range 8).map fun i => h.getD i 0 ^^^ v.getD i 0 ^^^ v.getD (i + 8) 0

/-- Pad with null bytes to a full block. -/
def padBlock (b : Bytes) : Bytes := b ++ List.replicate (p.bb - b.length) 0

/-- Section 3.3: the data blocks: the key, if any, as a first block, then the message; at least
one block. -/
def blocks (key m : Bytes) : List Bytes :=
  let keyBlock := if key.length > 0 then [p.padBlock key] else []
  let bs := keyBlock ++ (chunks p.bb m).map p.padBlock
  if bs = [] then [p.padBlock []] else bs

/-- All blocks but the last: block `i` is compressed with counter `(i+1) * bb`. -/
def absorb : Nat → List (BitVec p.w) → List Bytes → List (BitVec p.w)
  | _, h, [] => h
  | i, h, d :: ds => absorb (i + 1) (p.F h d ((i + 1) * p.bb) false) ds

/-- Section 3.3: the hash of `m` with `key`, of `nn` bytes. -/
def hash (nn : Nat) (key m : Bytes) : Bytes :=
  let ds := p.blocks key m
  let h := p.IV
  let h := h.set 0 (h.getD 0 0 ^^^ 0x01010000#p.w ^^^ BitVec.ofNat p.w (key.length * 2 ^ 8)
    ^^^ BitVec.ofNat p.w nn)
  let h := p.absorb 0 h ds.dropLast
  let t := if key.length = 0 then m.length else m.length + p.bb
  let h := p.F h (ds.getLastD []) t true
  ((h.map fun x => natToLE (p.w / 8) x.toNat).flatten).take nn

end Blake2Params

/-- BLAKE2b with a digest of `nn` bytes. -/
def BLAKE2b (nn : Nat) (key m : Bytes) : Bytes := blake2b.hash nn key m
/-- BLAKE2s with a digest of `nn` bytes. -/
def BLAKE2s (nn : Nat) (key m : Bytes) : Bytes := blake2s.hash nn key m

end Verif.Spec
