/-
Common vocabulary of the model: bytes, exceptions, outcomes of methods, and the
OCaml `Bytes` primitives with their bounds checks.
-/
namespace Verif

/-- A C `unsigned char` / OCaml `char`. As in src/*.c and src/cryptokit.ml. -/
abbrev Byte := BitVec 8

/-- OCaml `string` and `bytes` values, by their contents. As in src/cryptokit.ml:141-162. -/
abbrev Bytes := List Byte

/-- The `error` type, src/cryptokit.ml:53-69. -/
inductive Err where
  | wrongKeySize | wrongIVSize | wrongDataLength | badPadding
  | outputBufferOverflow | incompatibleBlockSize | numberTooLong
  | seedTooShort | messageTooLong | badEncoding | compressionError
  | noEntropySource | entropySourceClosed | compressionNotSupported
  deriving DecidableEq, Repr

/-- Exceptions that can escape a method: `Error e` (src/cryptokit.ml:71) and the
OCaml predefined exceptions and `Unix.Unix_error` (arguments of `Invalid_argument`, `Failure`,
`Assert_failure` dropped). -/
inductive Exn where
  | error (e : Err)
  | invalidArg
  | endOfFile
  | assertFailure
  | notFound
  | divisionByZero
  | failure
  | unixError
  deriving DecidableEq, Repr

/-- Outcome of running code on a state: normal result, exception (with the state
reached when it escapes), undefined behaviour of C code, or non-termination.
Modelling device: the semantics of the statements of src/cryptokit.ml and src/*.c. -/
inductive Out (σ α : Type) where
  | ok (a : α) (s : σ)
  | exn (e : Exn) (s : σ)
  | ub
  | loop
  deriving DecidableEq, Repr

/-- Code acting on a state of type `σ` and returning an `α`.
Modelling device: the semantics of the statements of src/cryptokit.ml and src/*.c. -/
def M (σ α : Type) := σ → Out σ α

namespace M

/-- Normal return.
Modelling device: the semantics of the statements of src/cryptokit.ml and src/*.c. -/
def pure (a : α) : M σ α := fun s => .ok a s

/-- Sequencing (`;` and `let ... in` of OCaml).
Modelling device: the semantics of the statements of src/cryptokit.ml and src/*.c. -/
def bind (m : M σ α) (k : α → M σ β) : M σ β := fun s =>
  match m s with
  | .ok a s' => k a s'
  | .exn e s' => .exn e s'
  | .ub => .ub
  | .loop => .loop

/-- Modelling device: the semantics of the statements of src/cryptokit.ml and src/*.c. -/
instance : Monad (M σ) where
  pure := M.pure
  bind := M.bind

/-- `raise e`.
Modelling device: the semantics of the statements of src/cryptokit.ml and src/*.c. Exceptions: src/cryptokit.ml:53-71. -/
def raise (e : Exn) : M σ α := fun s => .exn e s
/-- Undefined behaviour.
Modelling device: the semantics of the statements of src/cryptokit.ml and src/*.c. -/
def undef : M σ α := fun _ => .ub
/-- Non-termination.
Modelling device: the semantics of the statements of src/cryptokit.ml and src/*.c. -/
def diverge : M σ α := fun _ => .loop
/-- Read the state.
Modelling device: the semantics of the statements of src/cryptokit.ml and src/*.c. -/
def get : M σ σ := fun s => .ok s s
/-- Update the state.
Modelling device: the semantics of the statements of src/cryptokit.ml and src/*.c. -/
def modify (f : σ → σ) : M σ Unit := fun s => .ok () (f s)
/-- An OCaml primitive that raises `e` when its checks fail.
Modelling device: the semantics of the statements of src/cryptokit.ml and src/*.c. -/
def orRaise (e : Exn) (o : Option α) : M σ α :=
  match o with
  | some a => pure a
  | none => raise e
/-- A C access that is undefined when out of bounds.
Modelling device: the semantics of the statements of src/cryptokit.ml and src/*.c. -/
def orUB (o : Option α) : M σ α :=
  match o with
  | some a => pure a
  | none => undef
/-- Run code on a component of the state.
Modelling device: the semantics of the statements of src/cryptokit.ml and src/*.c. -/
def zoom (get : τ → ρ) (set : ρ → τ → τ) (m : M ρ α) : M τ α := fun t =>
  match m (get t) with
  | .ok a r => .ok a (set r t)
  | .exn e r => .exn e (set r t)
  | .ub => .ub
  | .loop => .loop

end M

/-- `n` bytes of `b` starting at `o`. As in `String.sub`, src/cryptokit.ml:1909. -/
def slice (b : Bytes) (o n : Nat) : Bytes := (b.drop o).take n

/-- `b` with the bytes starting at `o` replaced by `x`. As in `Bytes.blit`, src/cryptokit.ml:659. -/
def splice (b : Bytes) (o : Nat) (x : Bytes) : Bytes :=
  b.take o ++ x ++ b.drop (o + x.length)

/-- The bounds check shared by `Bytes.blit`, `Bytes.sub`, `Bytes.fill`
(OCaml standard library): `len >= 0 && ofs >= 0 && ofs <= length b - len`.
Used at src/cryptokit.ml:344, 357, 659. -/
abbrev InRange (b : Bytes) (ofs len : Int) : Prop :=
  0 ≤ len ∧ 0 ≤ ofs ∧ ofs ≤ (b.length : Int) - len

/-- `Bytes.get` (OCaml standard library); `none` is `Invalid_argument`.
Used at src/cryptokit.ml:456. -/
def bytesGet (b : Bytes) (i : Int) : Option Byte :=
  if 0 ≤ i then b[i.toNat]? else none

/-- `Bytes.set` (OCaml standard library); `none` is `Invalid_argument`.
Used at src/cryptokit.ml:2359. -/
def bytesSet (b : Bytes) (i : Int) (c : Byte) : Option Bytes :=
  if 0 ≤ i ∧ i < b.length then some (b.set i.toNat c) else none

/-- `Bytes.sub` / `Bytes.sub_string`; `none` is `Invalid_argument`. Used at src/cryptokit.ml:357. -/
def bytesSub (b : Bytes) (ofs len : Int) : Option Bytes :=
  if InRange b ofs len then some (slice b ofs.toNat len.toNat) else none

/-- `Bytes.blit src so dst dofs len` (a `memmove`, so also correct when `src` and
`dst` are the same object); `none` is `Invalid_argument`. Used at src/cryptokit.ml:344, 659. -/
def bytesBlit (src : Bytes) (so : Int) (dst : Bytes) (dofs len : Int) : Option Bytes :=
  if InRange src so len ∧ InRange dst dofs len then
    some (splice dst dofs.toNat (slice src so.toNat len.toNat))
  else none

/-- `Bytes.fill b ofs len c`; `none` is `Invalid_argument`. Used at src/cryptokit.ml:31, 453. -/
def bytesFill (b : Bytes) (ofs len : Int) (c : Byte) : Option Bytes :=
  if InRange b ofs len then some (splice b ofs.toNat (List.replicate len.toNat c)) else none

/-- src/cryptokit.ml:31 `wipe_bytes s = Bytes.fill s 0 (Bytes.length s) '\000'`. -/
def wipeBytes (b : Bytes) : Bytes := List.replicate b.length 0

/-- The environment: `Sys.max_string_length` and the (arbitrary) initial contents of
`Bytes.create n`. Used at src/cryptokit.ml:321, 337-343. -/
structure Env where
  maxLen : Nat
  junk : Nat → Nat → Byte

/-- `Bytes.create n`: `n` bytes of unspecified contents. Used at src/cryptokit.ml:321, 343. -/
def Env.create (env : Env) (n : Nat) : Bytes := (List.range n).map (env.junk n)

/-- The source argument of a transform: a byte sequence distinct from the
destination, or the destination itself (every read then sees earlier writes).
For `transform` of src/cryptokit.ml:492-497. -/
inductive Src where
  | other (b : Bytes)
  | self

/-- Current contents of the source, given those of the destination.
For `transform` of src/cryptokit.ml:492-497. -/
def Src.read (src : Src) (dst : Bytes) : Bytes :=
  match src with
  | .other b => b
  | .self => dst

/-- An unchecked C read of `len` bytes at `b + ofs`; `none` is an out-of-bounds read.
As in src/stubs-misc.c:21-49. -/
def cRead (b : Bytes) (ofs : Int) (len : Nat) : Option Bytes :=
  if InRange b ofs len then some (slice b ofs.toNat len) else none

/-- An unchecked C write of the bytes `x` at `b + ofs`; `none` is an out-of-bounds write.
As in src/stubs-misc.c:21-49. -/
def cWrite (b : Bytes) (ofs : Int) (x : Bytes) : Option Bytes :=
  if InRange b ofs x.length then some (splice b ofs.toNat x) else none

end Verif
