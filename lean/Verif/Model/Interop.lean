import Verif.Model.Zlib
import Verif.Model.Aead
/-
Values that cross between OCaml and C: the representation of the exception `Cryptokit.Error`, built by the C
code of src/stubs-zlib.c:31-56, 181-193, the constant constructors that C code receives as integers, and
the version of src/stubs-zlib.c without zlib (179-223).
-/
namespace Verif

/-- A value of OCaml, as C code sees it: an integer `Val_int(n)`, a block with a tag and fields, a string, the
identity of an exception. For src/stubs-zlib.c:46-55. -/
inductive CVal where
  | imm (n : Int)
  | block (tag : Nat) (fields : List CVal)
  | str (s : String)
  | exnSlot (name : String)

/-- A type declaration of OCaml: its constructors, in order, with the number of their arguments.
For src/cryptokit.ml:52-67. -/
abbrev TypeDecl (c : Type) := List (c × Nat)

/-- The representation of constructors (OCaml manual, "Interfacing C with OCaml", section on concrete data
types): constant constructors are numbered from 0 in order, and so are, separately, the tags of the other
ones. `k` and `t` are the first numbers to be used. For src/stubs-zlib.c:49-55, 189-191. -/
def reprFrom [DecidableEq c] (k t : Nat) : TypeDecl c → c → List CVal → Option CVal
  | [], _, _ => none
  | (d, n) :: rest, x, args =>
    if x = d then
      if args.length ≠ n then none else some (if n = 0 then .imm k else .block t args)
    else if n = 0 then reprFrom (k + 1) t rest x args
    else reprFrom k (t + 1) rest x args

/-- The representation of the constructor `x` applied to `args`. For src/stubs-zlib.c:49-55. -/
def reprOf [DecidableEq c] (decl : TypeDecl c) (x : c) (args : List CVal) : Option CVal := reprFrom 0 0 decl x args

/-- The declaration of the type `error`, src/cryptokit.ml:52-67. -/
def errorDecl : TypeDecl Err :=
  [(.wrongKeySize, 0), (.wrongIVSize, 0), (.wrongDataLength, 0), (.badPadding, 0), (.outputBufferOverflow, 0),
   (.incompatibleBlockSize, 0), (.numberTooLong, 0), (.seedTooShort, 0), (.messageTooLong, 0), (.badEncoding, 0),
   (.compressionError, 2), (.noEntropySource, 0), (.entropySourceClosed, 0), (.compressionNotSupported, 0)]

/-- The declaration of the type `flush_command`, src/cryptokit.ml:2495-2499. -/
def flushDecl : TypeDecl ZFlush := [(.noFlush, 0), (.syncFlush, 0), (.fullFlush, 0), (.finish, 0)]

/-- The declaration of the type `dir`, src/cryptokit.ml:75. -/
def dirDecl : TypeDecl Dir := [(.encrypt, 0), (.decrypt, 0)]

/-- The outcome of a C stub. For src/stubs-zlib.c:41-72. -/
inductive CRes (α : Type) where
  | ret (a : α)
  | raised (v : CVal)
  | ub

/-- The names registered by `Callback.register`: none, or the exception of src/cryptokit.ml:71. For
src/stubs-zlib.c:41-45. -/
abbrev Named := String → Option CVal

/-- After src/cryptokit.ml:71: `register_exception` registers the identity of the exception. -/
def namedInit : Named := fun s => if s = "Cryptokit.Error" then some (.exnSlot "Cryptokit.Error") else none

/-- The exception `Error e`, src/cryptokit.ml:69. -/
def exnError (payload : CVal) : CVal := .block 0 [.exnSlot "Cryptokit.Error", payload]

/-- The field `msg` of the `z_stream`: `none` if it has not been initialised, `some none` for `NULL`.
src/stubs-zlib.c:37-38. -/
abbrev ZMsg := Option (Option String)

/-- `caml_zlib_error`, src/stubs-zlib.c:31-56. Reading a pointer that has not been initialised is undefined
behaviour. -/
def zlibErrorStub (named : Named) (fn : String) (msg : ZMsg) : CRes α :=
  match msg with
  | none => .ub
  | some m =>
    let msg := match m with | none => "" | some s => s
    match named "Cryptokit.Error" with
    | none => .raised (.block 0 [.exnSlot "Invalid_argument", .str "Exception Cryptokit.Error not initialized"])
    | some e => .raised (.block 0 [e, .block 0 [.str fn, .str msg]])

/-- `caml_zlib_not_supported`, src/stubs-zlib.c:181-193. -/
def zlibNotSupported (named : Named) : CRes α :=
  match named "Cryptokit.Error" with
  | none => .raised (.block 0 [.exnSlot "Invalid_argument", .str "Exception Cryptokit.Error not initialized"])
  | some e => .raised (.block 0 [e, .imm 12])

/-- What `deflateInit2` and `inflateInit2` do: succeed; fail after having stored a message (or `NULL`) in the
stream; fail because the version of the library is not that of its header file, and then the stream has not
been written at all (zlib's `deflateInit2_` and `inflateInit2_`). For src/stubs-zlib.c:85-91, 137-139. -/
inductive ZInitRes (ζ : Type) where
  | success (z : ζ)
  | failure (msg : Option String)
  | versionError

/-- `Int_val(v)`: the value of an OCaml integer, converted to 32 bits. src/stubs-zlib.c:86, 112, 157. -/
def intVal (n : Int) : Int := (BitVec.ofInt 32 n).toInt

/-- `caml_zlib_deflateInit`, `caml_zlib_inflateInit`, src/stubs-zlib.c:81-93, 133-141, given what zlib does. The
stream is allocated, but `msg` is not among the fields that `caml_zlib_new_stream` (68-79) initialises. -/
def zlibInitStub (named : Named) (fn : String) : ZInitRes ζ → CRes ζ
  | .success z => .ret z
  | .failure msg => zlibErrorStub named fn (some msg)
  | .versionError => zlibErrorStub named fn none

/-- `caml_zlib_deflateInit` with its arguments, src/stubs-zlib.c:81-93. -/
def deflateInitStub (named : Named) (init : Int → Bool → ZInitRes ζ) (level : Int) (header : Bool) : CRes ζ :=
  zlibInitStub named "Zlib.deflateInit" (init (intVal level) header)

/-- The constants of zlib, in the order of `caml_zlib_flush_table`, src/stubs-zlib.c:95-96; `Z_NO_FLUSH` is 0,
`Z_SYNC_FLUSH` 2, `Z_FULL_FLUSH` 3, `Z_FINISH` 4 in zlib.h. -/
def flushTable : List Nat := [0, 2, 3, 4]

/-- `caml_zlib_flush_table[Int_val(vflush)]`, src/stubs-zlib.c:112, 157. -/
def flushArg : CVal → Option Nat
  | .imm n => if 0 ≤ n then flushTable[(intVal n).toNat]? else none
  | _ => none

end Verif
