import Verif.Spec.SHA
/-
RIPEMD-160, after H. Dobbertin, A. Bosselaers, B. Preneel, "RIPEMD-160: A Strengthened Version of
RIPEMD" (1996), tables 2 and 3 and appendix A.
-/
namespace Verif.Spec.Ripemd

/-- The basic functions, numbered by round 1 to 5 of the left line. -/
def f (round : Nat) (x y z : BitVec 32) : BitVec 32 :=
  match round with
  | 0 => x ^^^ y ^^^ z
  | 1 => (x &&& y) ||| (~~~x &&& z)
  | 2 => (x ||| ~~~y) ^^^ z
  | 3 => (x &&& z) ||| (y &&& ~~~z)
  | _ => x ^^^ (y ||| ~~~z)

/-- Constants of the left line: 0 and the integer parts of 2^30 times the square roots of
2, 3, 5, 7. -/
def K (round : Nat) : BitVec 32 :=
  ([0, iroot 2 (2 * 2 ^ 60), iroot 2 (3 * 2 ^ 60), iroot 2 (5 * 2 ^ 60), iroot 2 (7 * 2 ^ 60)].map
    (BitVec.ofNat 32)).getD round 0

/-- Constants of the right line: integer parts of 2^30 times the cube roots of 2, 3, 5, 7, and 0. -/
def K' (round : Nat) : BitVec 32 :=
  ([iroot 3 (2 * 2 ^ 90), iroot 3 (3 * 2 ^ 90), iroot 3 (5 * 2 ^ 90), iroot 3 (7 * 2 ^ 90), 0].map
    (BitVec.ofNat 32)).getD round 0

/-- The permutation rho of the sixteen message words. -/
def rho (i : Nat) : Nat := [7, 4, 13, 1, 10, 6, 15, 3, 12, 0, 9, 5, 2, 14, 11, 8].getD i 0
/-- The permutation pi. -/
def pi (i : Nat) : Nat := (9 * i + 5) % 16

/-- `g` applied `k` times. -/
def iter (g : Nat → Nat) : Nat → Nat → Nat
  | 0, x => x
  | k + 1, x => g (iter g k x)

/-- Order of message words: left line id, rho, rho^2, ...; right line pi, rho pi, rho^2 pi, ... -/
def r (j : Nat) : Nat := iter rho (j / 16) (j % 16)
def r' (j : Nat) : Nat := iter rho (j / 16) (pi (j % 16))

/-- Shifts, by round and message word. -/
def shift (round word : Nat) : Nat :=
  ([[11, 14, 15, 12, 5, 8, 7, 9, 11, 13, 14, 15, 6, 7, 9, 8],
    [12, 13, 11, 15, 6, 9, 9, 7, 12, 15, 11, 13, 7, 8, 7, 7],
    [13, 15, 14, 11, 7, 7, 6, 8, 13, 14, 13, 12, 5, 5, 6, 9],
    [14, 11, 12, 14, 8, 6, 5, 5, 15, 12, 15, 14, 9, 9, 8, 6],
    [15, 12, 13, 13, 9, 5, 8, 6, 14, 11, 12, 11, 8, 6, 5, 5]].getD round []).getD word 0

/-- One step, with message word number `w`. -/
def step (X : Nat → BitVec 32) (fn : BitVec 32 → BitVec 32 → BitVec 32 → BitVec 32) (k : BitVec 32)
    (w s : Nat) (v : H5) : H5 :=
  let T := (v.a + fn v.b v.c v.d + X w + k).rotateLeft s + v.e
  { a := v.e, b := T, c := v.b, d := v.c.rotateLeft 10, e := v.d }

def left (X : Nat → BitVec 32) (v : H5) (j : Nat) : H5 :=
  step X (f (j / 16)) (K (j / 16)) (r j) (shift (j / 16) (r j)) v
def right (X : Nat → BitVec 32) (v : H5) (j : Nat) : H5 :=
  step X (f (4 - j / 16)) (K' (j / 16)) (r' j) (shift (j / 16) (r' j)) v

/-- Message word `i` of a block: little-endian. -/
def wordLE (block : Bytes) (i : Nat) : BitVec 32 :=
  BitVec.ofNat 32 (leNat ((block.drop (4 * i)).take 4))

def compress (h : H5) (block : Bytes) : H5 :=
  let l := (List.range 80).foldl (left (wordLE block)) h
  let r := (List.range 80).foldl (right (wordLE block)) h
  { a := h.b + l.c + r.d, b := h.c + l.d + r.e, c := h.d + l.e + r.a, d := h.e + l.a + r.b,
    e := h.a + l.b + r.c }

end Ripemd

/-- RIPEMD-160: the length is encoded little-endian, and so are the words of the digest. -/
def RIPEMD160 (m : Bytes) : Bytes :=
  let h := merkleDamgard 64 Ripemd.compress sha1IV (mdPad 64 m (natToLE 8 (8 * m.length)))
  ([h.a, h.b, h.c, h.d, h.e].map fun x => natToLE 4 x.toNat).flatten

end Verif.Spec
