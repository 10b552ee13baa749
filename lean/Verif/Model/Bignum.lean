import Verif.Spec.Common
import Mathlib.Data.Int.GCD
/-
Big integers: src/cryptokitBignum.ml over the Zarith library.

Zarith is not part of the repository; its functions are modelled after its documentation
(module `Z`). A number is an `Int`. `Bn.wipe`, which overwrites a number in place, is modelled
here only for the secrets of `DH`; Model/NumHeap.lean has all erasures, and C77 shows that they do
not change results. Strings longer than
`Sys.max_string_length` are not modelled.
-/
namespace Verif

/-- What the model needs to know about Zarith: the size in bytes of a digit (`mp_limb_t`: 8 or 4)
and the function `Z.nextprime`. For src/cryptokitBignum.ml:16-120. -/
structure BnEnv where
  limb : Nat
  nextprime : Int → Int

/-- `Z.numbits`: the number of bits of the absolute value, 0 for 0.
Used at src/cryptokitBignum.ml:85, 110, 120. -/
def zNumbits (n : Int) : Nat := if n = 0 then 0 else Nat.log2 n.natAbs + 1

/-- `Z.to_bits`: the digits of the absolute value, little endian, each written with `limb` bytes.
Used at src/cryptokitBignum.ml:81. -/
def zToBits (e : BnEnv) (n : Int) : Bytes :=
  natToLE (e.limb * ((zNumbits n + (8 * e.limb - 1)) / (8 * e.limb))) n.natAbs

/-- `Z.of_bits`. Used at src/cryptokitBignum.ml:76, 108. -/
def zOfBits (s : Bytes) : Int := leNat s

/-- `Z.div`: truncates towards 0. src/cryptokitBignum.ml:31. -/
def zDiv (a b : Int) : Except Exn Int := if b = 0 then .error .divisionByZero else .ok (a.tdiv b)

/-- `Z.rem`: has the sign of the first argument. src/cryptokitBignum.ml:32. -/
def zRem (a b : Int) : Except Exn Int := if b = 0 then .error .divisionByZero else .ok (a.tmod b)

/-- `Z.powm_sec`: "The exponent must be positive, and the modulus must be odd. Otherwise,
`Invalid_arg` is raised.". src/cryptokitBignum.ml:39. -/
def zPowmSec (a x m : Int) : Except Exn Int :=
  if x ≤ 0 then .error .invalidArg
  else if m % 2 = 0 then .error .invalidArg
  else .ok (((a % m).toNat ^ x.toNat % m.natAbs : Nat) : Int)

/-- `Z.invert`: raises `Division_by_zero` if there is no inverse; the inverse is between 0 and
the absolute value of the modulus. src/cryptokitBignum.ml:68. -/
def zInvert (a m : Int) : Except Exn Int :=
  if m = 0 ∨ Int.gcd a m ≠ 1 then .error .divisionByZero else .ok (Int.gcdA a m % m)

/-! ### src/cryptokitBignum.ml -/

/-- `relative_prime`, src/cryptokitBignum.ml:36-37. -/
def bnRelativePrime (a b : Int) : Bool := Int.gcd a b == 1

/-- `mod_power`, src/cryptokitBignum.ml:39. -/
def bnModPower (a x m : Int) : Except Exn Int := zPowmSec a x m

/-- `sub_mod`, src/cryptokitBignum.ml:41-43. -/
def bnSubMod (a b p : Int) : Int := if a - b < 0 then a - b + p else a - b

/-- `mod_power_CRT`, src/cryptokitBignum.ml:55-66. -/
def bnModPowerCRT (a p q dp dq qinv : Int) : Except Exn Int := do
  let amodp ← zRem a p
  let amodq ← zRem a q
  let mp ← bnModPower amodp dp p
  let mq ← bnModPower amodq dq q
  let r ← zRem (bnSubMod mp mq p * qinv) p
  pure (q * r + mq)

/-- `of_bytes`, src/cryptokitBignum.ml:72-78. -/
def bnOfBytes (s : Bytes) : Int :=
  zOfBits ((List.range s.length).map fun i => s.getD (s.length - 1 - i) 0)

/-- The loop of `to_bytes`, src/cryptokitBignum.ml:87-89, from index `i`. -/
def bnToBytesLoop (l : Int) : Nat → Bytes → Bytes → Except Exn Bytes
  | _, [], t => .ok t
  | i, c :: s, t =>
    match bytesSet t (l - 1 - i) c with
    | none => .error .invalidArg
    | some t => bnToBytesLoop l (i + 1) s t

/-- The length `l` computed by `to_bytes`, src/cryptokitBignum.ml:82-85. -/
def bnToBytesLength (numbits : Option Int) (n : Int) (s : Bytes) : Except Exn Int :=
  match numbits with
  | none => .ok s.length
  | some nb => if (zNumbits n : Int) ≤ nb then .ok ((nb + 7).tdiv 8) else .error .assertFailure

/-- `to_bytes`, src/cryptokitBignum.ml:80-91. -/
def bnToBytes (e : BnEnv) (numbits : Option Int) (n : Int) : Except Exn Bytes :=
  match bnToBytesLength numbits n (zToBits e n) with
  | .error x => .error x
  | .ok l =>
    if l < 0 then .error .invalidArg
    else bnToBytesLoop l 0 (zToBits e n) (List.replicate l.toNat 0)

/-- `change_byte`, src/cryptokitBignum.ml:93-94. -/
def bnChangeByte (s : Bytes) (i : Int) (f : Nat → Nat) : Option Bytes := do
  let b ← bytesGet s i
  bytesSet s i (BitVec.ofNat 8 (f b.toNat))

/-- A random generator: `rng#random_bytes buf 0 n` with `Bytes.length buf = n`, returning the
contents of `buf`. Used at src/cryptokitBignum.ml:99. -/
abbrev RandomBytes (σ : Type) := Nat → M σ Bytes

/-- `random`, src/cryptokitBignum.ml:96-112. -/
def bnRandom (rng : RandomBytes σ) (odd : Bool) (numbits : Int) : M σ Int := do
  let numbytes := (numbits + 7).tdiv 8
  if numbytes < 0 then M.raise .invalidArg
  else
    let buf ← rng numbytes.toNat
    let buf ← M.orRaise .invalidArg (if odd then bnChangeByte buf 0 (fun b => b ||| 1) else some buf)
    let mask := 1 <<< ((numbits - 1) % 8).toNat
    let buf ← M.orRaise .invalidArg (bnChangeByte buf (numbytes - 1) fun b => (b &&& (mask - 1)) ||| mask)
    let n := zOfBits buf
    if (zNumbits n : Int) ≠ numbits then M.raise .assertFailure
    else if odd ∧ n % 2 = 0 then M.raise .assertFailure
    else pure n

/-- Repeat `body` until it succeeds, at most `fuel` times; `Out.loop` if that is not enough. It
models the recursive functions that try again with new random numbers.
src/cryptokitBignum.ml:114-120. -/
def retry : Nat → M σ (Option α) → M σ α
  | 0, _ => M.diverge
  | fuel + 1, body => do
    match ← body with
    | some a => pure a
    | none => retry fuel body

/-- `random_prime`, src/cryptokitBignum.ml:114-120. -/
def bnRandomPrime (e : BnEnv) (rng : RandomBytes σ) (fuel : Nat) (numbits : Int) : M σ Int :=
  retry fuel do
    let n ← bnRandom rng true numbits
    let p := e.nextprime n
    pure (if (zNumbits p : Int) = numbits then some p else none)

/-! ### src/cryptokit.ml -/

/-- `mod_power`, src/cryptokit.ml:43-45. -/
def modPower (e : BnEnv) (a b c : Bytes) : Except Exn Bytes := do
  bnToBytes e (some (c.length * 8)) (← bnModPower (bnOfBytes a) (bnOfBytes b) (bnOfBytes c))

/-- `mod_mult`, src/cryptokit.ml:46-49. -/
def modMult (e : BnEnv) (a b c : Bytes) : Except Exn Bytes := do
  bnToBytes e (some (c.length * 8)) (← zRem (bnOfBytes a * bnOfBytes b) (bnOfBytes c))

end Verif
