import Verif.Model.Basic
/-
src/stubs-misc.c and the utility functions of src/cryptokit.ml:18-41, 2627-2639.
-/
namespace Verif

/-- `accu lor (c1 lxor c2)` folded over positions `i ..`, src/cryptokit.ml:20-25.
Returns also the list of positions read (in order), to state that the access
pattern is independent of the contents. `none` is `Invalid_argument` from `get`. -/
def seqEqualLoop (s1 s2 : Bytes) (l : Nat) (i : Nat) (accu : Nat) : Option (Bool × List Nat) :=
  if i < l then
    match s1[i]?, s2[i]? with
    | some a, some b =>
      (seqEqualLoop s1 s2 l (i + 1) (accu ||| (a.toNat ^^^ b.toNat))).map
        (fun r => (r.1, i :: r.2))
    | _, _ => none
  else some (accu == 0, [])
termination_by l - i

/-- `seq_equal`, src/cryptokit.ml:18-29 (`string_equal`, `bytes_equal`). -/
def seqEqual (s1 s2 : Bytes) : Option (Bool × List Nat) :=
  let l := s1.length
  if l = s2.length then seqEqualLoop s1 s2 l 0 0 else some (false, [])

/-- `shl1` loop of `shl1_bytes`, src/cryptokit.ml:34-41, on whole sequences
(`soff = doff = 0`, the only use): from position `i - 1` down to 0.
`Char.unsafe_chr x` stores the low 8 bits of `x`. -/
def shl1Loop (src dst : Bytes) (carry : Nat) : Nat → Option Bytes
  | 0 => some dst
  | i + 1 =>
    match src[i]? with
    | none => none
    | some n =>
      if i < dst.length then
        shl1Loop src (dst.set i (BitVec.ofNat 8 ((n.toNat <<< 1) ||| carry))) (n.toNat >>> 7) i
      else none

/-- `shl1_bytes src 0 dst 0 len`, src/cryptokit.ml:34-41; `none` is `Invalid_argument`. -/
def shl1Bytes (src dst : Bytes) (len : Nat) : Option Bytes := shl1Loop src dst 0 len

/-- One byte step `*d ^= *s` of `caml_xor_string`, src/stubs-misc.c:41-46; `none` is an
out-of-bounds access. -/
def xorByteStep (src : Src) (s : Int) (d : Int) (dst : Bytes) : Option Bytes :=
  match cRead (src.read dst) s 1, cRead dst d 1 with
  | some [a], some [b] => cWrite dst d [b ^^^ a]
  | _, _ => none

/-- One word step `*((uintnat *) d) ^= *((uintnat *) s)`, src/stubs-misc.c:34-39
(8-byte words; xor of words is xor of their bytes in either endianness). -/
def xorWordStep (src : Src) (s : Int) (d : Int) (dst : Bytes) : Option Bytes :=
  match cRead (src.read dst) s 8, cRead dst d 8 with
  | some a, some b => cWrite dst d (List.zipWith (· ^^^ ·) b a)
  | _, _ => none

/-- The byte loop `while (l > 0)`, src/stubs-misc.c:41-46. -/
def xorByteLoop (src : Src) (s d : Int) : Nat → Bytes → Option Bytes
  | 0, dst => some dst
  | l + 1, dst =>
    match xorByteStep src s d dst with
    | none => none
    | some dst' => xorByteLoop src (s + 1) (d + 1) l dst'

/-- The alignment loop `while (ALIGNMENT_OF(s) != 0 && l > 0)`, src/stubs-misc.c:28-33;
continues with `k` on exit. OCaml strings start on a word boundary, so the alignment
of `&Byte(b, o)` is `o` modulo 8. -/
def xorAlignLoop (src : Src) (k : Int → Int → Nat → Bytes → Option Bytes)
    (s d : Int) : Nat → Bytes → Option Bytes
  | 0, dst => k s d 0 dst
  | l + 1, dst =>
    if s % 8 ≠ 0 then
      match xorByteStep src s d dst with
      | none => none
      | some dst' => xorAlignLoop src k (s + 1) (d + 1) l dst'
    else k s d (l + 1) dst

/-- The word loop `while (l >= sizeof(uintnat))` followed by the byte loop,
src/stubs-misc.c:34-46. -/
def xorWordLoop (src : Src) (s d : Int) (l : Nat) (dst : Bytes) : Option Bytes :=
  if 8 ≤ l then
    match xorWordStep src s d dst with
    | none => none
    | some dst' => xorWordLoop src (s + 8) (d + 8) (l - 8) dst'
  else xorByteLoop src s d l dst
termination_by l

/-- `caml_xor_string`, src/stubs-misc.c:19-48 (64-bit platform). A negative `len` does
nothing. `none` is an out-of-bounds access. -/
def xorC (src : Src) (so : Int) (dst : Bytes) (dofs : Int) (len : Int) : Option Bytes :=
  if 64 ≤ len ∧ so % 8 = dofs % 8 then
    xorAlignLoop src (xorWordLoop src) so dofs len.toNat dst
  else xorByteLoop src so dofs len.toNat dst

/-- The exported, checked `xor_bytes src sofs dst dofs len`, src/cryptokit.ml:2627-2632:
state is the destination. (`xor_string`, 2634-2639, is the same with an immutable source.) -/
def xorBytes (src : Src) (so dofs len : Int) : M Bytes Unit := fun dst =>
  if len < 0 ∨ so < 0 ∨ so > ((src.read dst).length : Int) - len
      ∨ dofs < 0 ∨ dofs > (dst.length : Int) - len then .exn .invalidArg dst
  else
    match xorC src so dst dofs len with
    | some dst' => .ok () dst'
    | none => .ub

end Verif
