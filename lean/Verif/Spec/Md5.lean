import Verif.Spec.MD
/-
MD5, RFC 1321.
-/
namespace Verif.Spec.Md5

/-- RFC 1321 section 3.4: the functions F, G, H, I, by round. -/
def F (round : Nat) (x y z : BitVec 32) : BitVec 32 :=
  match round with
  | 0 => (x &&& y) ||| (~~~x &&& z)
  | 1 => (x &&& z) ||| (y &&& ~~~z)
  | 2 => x ^^^ y ^^^ z
  | _ => y ^^^ (x ||| ~~~z)

/-- The table T of RFC 1321 section 3.4: the integer part of 4294967296 times abs(sin(i)). -/
def T : List (BitVec 32) :=
  [0xd76aa478, 0xe8c7b756, 0x242070db, 0xc1bdceee, 0xf57c0faf, 0x4787c62a, 0xa8304613, 0xfd469501,
   0x698098d8, 0x8b44f7af, 0xffff5bb1, 0x895cd7be, 0x6b901122, 0xfd987193, 0xa679438e, 0x49b40821,
   0xf61e2562, 0xc040b340, 0x265e5a51, 0xe9b6c7aa, 0xd62f105d, 0x02441453, 0xd8a1e681, 0xe7d3fbc8,
   0x21e1cde6, 0xc33707d6, 0xf4d50d87, 0x455a14ed, 0xa9e3e905, 0xfcefa3f8, 0x676f02d9, 0x8d2a4c8a,
   0xfffa3942, 0x8771f681, 0x6d9d6122, 0xfde5380c, 0xa4beea44, 0x4bdecfa9, 0xf6bb4b60, 0xbebfbc70,
   0x289b7ec6, 0xeaa127fa, 0xd4ef3085, 0x04881d05, 0xd9d4d039, 0xe6db99e5, 0x1fa27cf8, 0xc4ac5665,
   0xf4292244, 0x432aff97, 0xab9423a7, 0xfc93a039, 0x655b59c3, 0x8f0ccc92, 0xffeff47d, 0x85845dd1,
   0x6fa87e4f, 0xfe2ce6e0, 0xa3014314, 0x4e0811a1, 0xf7537e82, 0xbd3af235, 0x2ad7d2bb, 0xeb86d391]

/-- The message word used by step `i`. -/
def word (i : Nat) : Nat :=
  match i / 16 with
  | 0 => i % 16
  | 1 => (1 + 5 * i) % 16
  | 2 => (5 + 3 * i) % 16
  | _ => (7 * i) % 16

/-- The rotation of step `i`. -/
def shift (i : Nat) : Nat :=
  ([[7, 12, 17, 22], [5, 9, 14, 20], [4, 11, 16, 23], [6, 10, 15, 21]].getD (i / 16) []).getD (i % 4) 0

structure State where
  a : BitVec 32
  b : BitVec 32
  c : BitVec 32
  d : BitVec 32

/-- Step `i`: a = b + ((a + F(b,c,d) + X[k] + T[i]) <<< s), and the registers rotate. -/
def step (X : Nat → BitVec 32) (v : State) (i : Nat) : State :=
  { a := v.d
    b := v.b + (v.a + F (i / 16) v.b v.c v.d + X (word i) + T.getD i 0).rotateLeft (shift i)
    c := v.b
    d := v.c }

def compress (h : State) (block : Bytes) : State :=
  let X i := BitVec.ofNat 32 (leNat ((block.drop (4 * i)).take 4))
  let v := (List.range 64).foldl (step X) h
  { a := h.a + v.a, b := h.b + v.b, c := h.c + v.c, d := h.d + v.d }

end Verif.Spec.Md5

namespace Verif.Spec

/-- RFC 1321. The length field holds the low 64 bits of the length in bits. -/
def MD5 (m : Bytes) : Bytes :=
  let h := merkleDamgard 64 Md5.compress ⟨0x67452301, 0xefcdab89, 0x98badcfe, 0x10325476⟩
    (mdPad 64 m (natToLE 8 (8 * m.length)))
  ([h.a, h.b, h.c, h.d].map fun x => natToLE 4 x.toNat).flatten

end Verif.Spec
