import Verif.Spec.Common
import Verif.Model.Stream
/-
Base 64 (RFC 4648, section 4) and hexadecimal encodings.
-/
namespace Verif.Spec

/-- Space, tab, newline, carriage return. -/
def blanks : Bytes := [32, 9, 10, 13]

namespace Base64

/-- The 64 digits. -/
def alphabet : Bytes := ascii "ABCDEFGHIJKLMNOPQRSTUVWXYZabcdefghijklmnopqrstuvwxyz0123456789+/"

def digit (v : Nat) : Byte := alphabet.getD v 0

/-- The 2, 3 or 4 digits of a group of 1, 2 or 3 bytes: the group, completed with zero bytes, is
a 24-bit number of which the first digits are kept. -/
def groupDigits (g : Bytes) : List Nat :=
  let n := beNat (g ++ List.replicate (3 - g.length) 0)
  [n / 64 ^ 3 % 64, n / 64 ^ 2 % 64, n / 64 % 64, n % 64].take (g.length + 1)

/-- The encoding of a group, completed with `=` to 4 characters if `pad`. -/
def encodeGroup (pad : Bool) (g : Bytes) : Bytes :=
  (groupDigits g).map digit ++ if pad then List.replicate (3 - g.length) 61 else []

/-- The encoding of a message, with or without padding. -/
def encode (pad : Bool) (m : Bytes) : Bytes := (chunks 3 m).flatMap (encodeGroup pad)

/-- The padded encoding cut in lines of 72 characters, each followed by a newline; except that
the last newline is absent when the last line has only the 1 or 2 last bytes of the message. -/
def encodeLines (m : Bytes) : Bytes :=
  let t := (chunks 72 (encode true m)).flatMap (· ++ [10])
  if m.length % 54 = 1 ∨ m.length % 54 = 2 then t.dropLast else t

/-- The value of a digit. -/
def value? (c : Byte) : Option Nat := alphabet.findIdx? (· == c)

/-- The digits of a text. -/
def digits (t : Bytes) : List Nat := t.filterMap value?

/-- Well-formed texts: only digits, blanks and `=`; no digit after `=`; the last group does not
have just one digit. -/
def WellFormed (t : Bytes) : Prop :=
  (∀ c ∈ t, c ∈ alphabet ∨ c ∈ blanks ∨ c = 61)
  ∧ (∀ u v, t = u ++ (61 : Byte) :: v → ∀ c ∈ v, c ∉ alphabet)
  ∧ (digits t).length % 4 ≠ 1

/-- The bytes denoted by a group of 2, 3 or 4 digits: the first bytes of the 24-bit number
that they are the first digits of. -/
def groupBytes (g : List Nat) : Bytes :=
  (natToBE 3 ((g ++ List.replicate (4 - g.length) 0).foldl (fun n d => 64 * n + d) 0)).take
    (g.length - 1)

/-- The bytes denoted by a text. -/
def decode (t : Bytes) : Bytes := (chunks 4 (digits t)).flatMap groupBytes

end Base64

namespace Hex

def lower : Bytes := ascii "0123456789abcdef"
def upper : Bytes := ascii "0123456789ABCDEF"

/-- Two lowercase digits for each byte. -/
def encode (m : Bytes) : Bytes :=
  m.flatMap fun b => [lower.getD (b.toNat / 16) 0, lower.getD (b.toNat % 16) 0]

/-- The value of a digit. -/
def value? (c : Byte) : Option Nat :=
  (lower.findIdx? (· == c)).or (upper.findIdx? (· == c))

def digits (t : Bytes) : List Nat := t.filterMap value?

/-- Well-formed texts: only digits and blanks; an even number of digits. -/
def WellFormed (t : Bytes) : Prop :=
  (∀ c ∈ t, c ∈ lower ∨ c ∈ upper ∨ c ∈ blanks) ∧ (digits t).length % 2 = 0

/-- The bytes denoted by a text. -/
def decode (t : Bytes) : Bytes :=
  (chunks 2 (digits t)).map fun g => BitVec.ofNat 8 (g.foldl (fun n d => 16 * n + d) 0)

end Hex
end Verif.Spec
