import Verif.Spec.Common
/-
SipHash-2-4 (Aumasson, Bernstein, "SipHash: a fast short-input PRF", section 2), and its 128-bit
variant (reference implementation).
-/
namespace Verif.Spec

structure SipV where
  v0 : BitVec 64
  v1 : BitVec 64
  v2 : BitVec 64
  v3 : BitVec 64

/-- SipRound (figure 2.1): fourteen operations, four at a time. -/
def SipRound (s : SipV) : SipV :=
  let v0 := s.v0 + s.v1
  let v2 := s.v2 + s.v3
  let v1 := s.v1.rotateLeft 13
  let v3 := s.v3.rotateLeft 16
  let v1 := v1 ^^^ v0
  let v3 := v3 ^^^ v2
  let v0 := v0.rotateLeft 32
  let v2 := v2 + v1
  let v0 := v0 + v3
  let v1 := v1.rotateLeft 17
  let v3 := v3.rotateLeft 21
  let v1 := v1 ^^^ v2
  let v3 := v3 ^^^ v0
  let v2 := v2.rotateLeft 32
  ⟨v0, v1, v2, v3⟩

/-- `n` SipRounds. -/
def SipRounds : Nat → SipV → SipV
  | 0, s => s
  | n + 1, s => SipRounds n (SipRound s)

/-- Initialization: the key as two little-endian words. -/
def sipStart (key : Bytes) : SipV :=
  let k0 := BitVec.ofNat 64 (leNat (key.take 8))
  let k1 := BitVec.ofNat 64 (leNat ((key.drop 8).take 8))
  ⟨k0 ^^^ 0x736f6d6570736575, k1 ^^^ 0x646f72616e646f6d, k0 ^^^ 0x6c7967656e657261,
    k1 ^^^ 0x7465646279746573⟩

/-- Compression of one word. -/
def sipCompress (s : SipV) (m : BitVec 64) : SipV :=
  let s := SipRounds 2 { s with v3 := s.v3 ^^^ m }
  { s with v0 := s.v0 ^^^ m }

/-- The message followed by null bytes and, as the last byte, its length modulo 256, the total
being a multiple of 8 bytes; as little-endian words. -/
def sipWords (m : Bytes) : List (BitVec 64) :=
  (chunks 8 (m ++ List.replicate (7 - m.length % 8) 0 ++ [BitVec.ofNat 8 m.length])).map fun b =>
    BitVec.ofNat 64 (leNat b)

/-- SipHash-2-4, 64-bit output. -/
def SipHash64 (key m : Bytes) : Bytes :=
  let s := (sipWords m).foldl sipCompress (sipStart key)
  let s := SipRounds 4 { s with v2 := s.v2 ^^^ 0xff }
  natToLE 8 (s.v0 ^^^ s.v1 ^^^ s.v2 ^^^ s.v3).toNat

/-- SipHash-2-4, 128-bit output. -/
def SipHash128 (key m : Bytes) : Bytes :=
  let s := sipStart key
  let s := (sipWords m).foldl sipCompress { s with v1 := s.v1 ^^^ 0xee }
  let s := SipRounds 4 { s with v2 := s.v2 ^^^ 0xee }
  let t := SipRounds 4 { s with v1 := s.v1 ^^^ 0xdd }
  natToLE 8 (s.v0 ^^^ s.v1 ^^^ s.v2 ^^^ s.v3).toNat
    ++ natToLE 8 (t.v0 ^^^ t.v1 ^^^ t.v2 ^^^ t.v3).toNat

end Verif.Spec
