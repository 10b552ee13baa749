import Verif.Spec.Safety
/-
What the machine's integers are, and what it means for an object computing with them to behave as
the same object computing with mathematical integers.
-/
namespace Verif.Spec

open Verif

/-- The integers of `w` bits: from `min_int` to `max_int`. -/
def IsInt (w : Nat) (x : Int) : Prop := -2 ^ (w - 1) ≤ x ∧ x < 2 ^ (w - 1)

/-- The integers which are at most a quarter of `max_int`, in absolute value. (No string is longer than
`Sys.max_string_length`, which is at most `max_int / 32`.) -/
def Moderate (w : Nat) (x : Int) : Prop := -2 ^ (w - 3) ≤ x ∧ x ≤ 2 ^ (w - 3)

/-- A platform with `w`-bit integers: `Sys.max_string_length` is at least the size of the library's
initial buffers, and at most a quarter of `max_int`. (`w = 63`, `2 ^ 57 - 9`; or `w = 31`,
`2 ^ 24 - 5`.) -/
def Platform (w : Nat) (env : Env) : Prop := 3 ≤ w ∧ 256 ≤ env.maxLen ∧ (env.maxLen : Int) ≤ 2 ^ (w - 3)

/-- Calls whose integer arguments are OCaml integers, and whose strings are not longer than the
longest string. -/
def machineT (w : Nat) (env : Env) : TCall → Prop
  | .buf (.putSubstring b ofs len) => b.length ≤ env.maxLen ∧ IsInt w ofs ∧ IsInt w len
  | .buf (.putString s) => s.length ≤ env.maxLen
  | _ => True

/-- The same, the offset and the length being moderate. -/
def moderateT (w : Nat) (env : Env) : TCall → Prop
  | .buf (.putSubstring b ofs len) => b.length ≤ env.maxLen ∧ Moderate w ofs ∧ Moderate w len
  | .buf (.putString s) => s.length ≤ env.maxLen
  | _ => True

def machineH (w : Nat) (env : Env) : HCall → Prop
  | .addSubstring b ofs len => b.length ≤ env.maxLen ∧ IsInt w ofs ∧ IsInt w len
  | .addString s => s.length ≤ env.maxLen
  | _ => True

/-- Whatever the calls made before, a call has the same effect in both objects. -/
def Agree (run run' : μ → M τ Unit) (allowed : μ → Prop) (t0 : τ) : Prop :=
  ∀ t, Reachable run allowed t0 t → ∀ c, allowed c → run c t = run' c t

/-- Whatever the calls made before, a call has the same effect in both objects, except that a call
to `put` (a call `isPut b ofs len`) on an illegal range may raise `Invalid_argument`, with no other
effect. -/
def AgreeOrReject (run run' : μ → M τ Unit) (isPut : μ → Bytes → Int → Int → Prop)
    (allowed : μ → Prop) (t0 : τ) : Prop :=
  ∀ t, Reachable run allowed t0 t → ∀ c, allowed c →
    run c t = run' c t ∨
      ((∃ b ofs len, isPut c b ofs len ∧ ¬ InRange b ofs len) ∧ run c t = .exn .invalidArg t)

def isPutSubstring (c : TCall) (b : Bytes) (ofs len : Int) : Prop := c = .buf (.putSubstring b ofs len)
def isAddSubstring (c : HCall) (b : Bytes) (ofs len : Int) : Prop := c = .addSubstring b ofs len

/-- The sequence of values of `newlen` in `newlen := !newlen * 2`, with `w`-bit integers. -/
def doubled (w : Nat) (x : Int) : Nat → Int
  | 0 => x
  | k + 1 => (doubled w x k * 2 + 2 ^ (w - 1)) % 2 ^ w - 2 ^ (w - 1)

/-- `machineT`, `machineH` without `wipe`. -/
def machineNoWipeT (w : Nat) (env : Env) (c : TCall) : Prop := machineT w env c ∧ c ≠ .buf .wipe
def machineNoWipeH (w : Nat) (env : Env) (c : HCall) : Prop := machineH w env c ∧ c ≠ .wipe

/-- The calls to authenticated transforms. -/
def machineA (w : Nat) (env : Env) : ACall → Prop
  | .buf c => machineT w env (.buf c)
  | .finishAndGetTag => True
def moderateA (w : Nat) (env : Env) : ACall → Prop
  | .buf c => moderateT w env (.buf c)
  | .finishAndGetTag => True
def machineNoWipeA (w : Nat) (env : Env) (c : ACall) : Prop := machineA w env c ∧ c ≠ .buf .wipe
def isPutSubstringA (c : ACall) (b : Bytes) (ofs len : Int) : Prop := c = .buf (.putSubstring b ofs len)

/-- The method `strip` of a padding scheme returns a number of characters of its argument. -/
def PadStrips (p : PadScheme) : Prop := ∀ b n, p.strip b = .ok n → n ≤ b.length

end Verif.Spec
