import Verif.Model.Basic
/-
Vocabulary shared by the specifications.
-/
namespace Verif

/-- Byte-wise exclusive or of two sequences (of equal lengths). -/
abbrev xorb (a b : Bytes) : Bytes := List.zipWith (· ^^^ ·) a b

/-- The number denoted by a byte sequence in big-endian notation. -/
def beNat : Bytes → Nat
  | [] => 0
  | b :: bs => b.toNat * 256 ^ bs.length + beNat bs

/-- The number denoted by a byte sequence in little-endian notation. -/
def leNat : Bytes → Nat
  | [] => 0
  | b :: bs => b.toNat + 256 * leNat bs

/-- The `n` low bytes of `x`, most significant first. -/
def natToBE : Nat → Nat → Bytes
  | 0, _ => []
  | n + 1, x => BitVec.ofNat 8 (x / 256 ^ n) :: natToBE n x

/-- The `n` low bytes of `x`, least significant first. -/
def natToLE : Nat → Nat → Bytes
  | 0, _ => []
  | n + 1, x => BitVec.ofNat 8 x :: natToLE n (x / 256)

/-- Cut a sequence into consecutive blocks of `n` elements; the last one may be
shorter. (`n = 0` yields no block.) -/
def chunks (n : Nat) (l : List α) : List (List α) :=
  if _h : n = 0 ∨ l = [] then [] else l.take n :: chunks n (l.drop n)
termination_by l.length
decreasing_by
  have : l ≠ [] := fun e => _h (.inr e)
  have : 0 < l.length := List.length_pos_iff.2 this
  simp; omega

end Verif
