import Verif.Model.Basic
/-
Padding schemes, module `Padding` of src/cryptokit.ml:440-488.
-/
namespace Verif

/-- Class type `scheme`, src/cryptokit.ml:442-446. `pad buffer used` returns the updated
buffer; `strip buffer` the number of valid bytes. -/
structure PadScheme where
  pad : Bytes → Nat → Except Exn Bytes
  strip : Bytes → Except Exn Nat

namespace Padding

/-- `length#pad`, src/cryptokit.ml:450-453. -/
def lengthPad (buffer : Bytes) (used : Nat) : Except Exn Bytes :=
  let n : Int := (buffer.length : Int) - used
  if n > 0 ∧ n < 256 then
    match bytesFill buffer used n (BitVec.ofInt 8 n) with
    | some b => .ok b
    | none => .error .invalidArg
  else .error .assertFailure

/-- The loop `for i = blocksize - n to blocksize - 2`, src/cryptokit.ml:459-461, from
position `i` with `k` iterations left. -/
def stripLoop (buffer : Bytes) (n : Nat) (i : Int) : Nat → Except Exn Unit
  | 0 => .ok ()
  | k + 1 =>
    match bytesGet buffer i with
    | none => .error .invalidArg
    | some c =>
      if c.toNat ≠ n then .error (.error .badPadding) else stripLoop buffer n (i + 1) k

/-- `length#strip`, src/cryptokit.ml:454-462. -/
def lengthStrip (buffer : Bytes) : Except Exn Nat :=
  let blocksize := buffer.length
  match bytesGet buffer ((blocksize : Int) - 1) with
  | none => .error .invalidArg
  | some c =>
    let n := c.toNat
    if n = 0 ∨ n > blocksize then .error (.error .badPadding)
    else
      match stripLoop buffer n ((blocksize : Int) - n) (n - 1) with
      | .error e => .error e
      | .ok () => .ok (blocksize - n)

/-- `Padding.length`, src/cryptokit.ml:448-465. -/
def length : PadScheme := { pad := lengthPad, strip := lengthStrip }

/-- The loop `for i = used + 1 to Bytes.length buffer - 1` storing `'\000'`,
src/cryptokit.ml:471-473, from position `i` with `k` iterations left. -/
def zeroLoop (buffer : Bytes) (i : Int) : Nat → Except Exn Bytes
  | 0 => .ok buffer
  | k + 1 =>
    match bytesSet buffer i 0 with
    | none => .error .invalidArg
    | some b => zeroLoop b (i + 1) k

/-- `_8000#pad`, src/cryptokit.ml:469-473. -/
def pad8000 (buffer : Bytes) (used : Nat) : Except Exn Bytes :=
  match bytesSet buffer used 0x80 with
  | none => .error .invalidArg
  | some b => zeroLoop b ((used : Int) + 1) (buffer.length - 1 - used)

/-- `strip pos` of `_8000#strip`, src/cryptokit.ml:475-480; the argument is `pos + 1`
(`0` stands for a negative position). -/
def strip8000Loop (buffer : Bytes) : Nat → Except Exn Nat
  | 0 => .error (.error .badPadding)
  | pos + 1 =>
    match bytesGet buffer pos with
    | none => .error .invalidArg
    | some c =>
      if c = 0x80 then .ok pos
      else if c = 0 then strip8000Loop buffer pos
      else .error (.error .badPadding)

/-- `_8000#strip`, src/cryptokit.ml:474-481. -/
def strip8000 (buffer : Bytes) : Except Exn Nat := strip8000Loop buffer buffer.length

/-- `Padding._8000`, src/cryptokit.ml:467-484. -/
def _8000 : PadScheme := { pad := pad8000, strip := strip8000 }

end Padding
end Verif
