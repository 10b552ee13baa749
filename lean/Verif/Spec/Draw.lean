import Verif.Model.Pubkey
import Verif.Spec.Common
/-
Secrets drawn from a generator of random bytes. `draw s a s'` reads: from the state `s`, the generator
gives the strings from which `a` is made, and is left in the state `s'`.
-/
namespace Verif.Spec

/-- A generator that never gives a string of the wrong length. -/
def ExactLength (rng : RandomBytes σ) : Prop := ∀ n s b s', rng n s = .ok b s' → b.length = n

/-- The number of exactly `n` bits made of the string `b`: the lowest `n - 1` bits of `b`, its first
byte being the least significant, below a bit 1. -/
def numberFrom (n : Nat) (b : Bytes) : Nat := 2 ^ (n - 1) + leNat b % 2 ^ (n - 1)

/-- One number of `n` bits, from one string of as many bytes as needed. -/
def number (rng : RandomBytes σ) (n : Nat) (s : σ) (v : Nat) (s' : σ) : Prop :=
  ∃ b, rng ((n + 7) / 8) s = .ok b s' ∧ v = numberFrom n b

/-- One odd number of `n` bits: the lowest bit is set. -/
def oddNumber (rng : RandomBytes σ) (n : Nat) (s : σ) (v : Nat) (s' : σ) : Prop :=
  ∃ m, number rng n s m s' ∧ v = m - m % 2 + 1

/-- The first suitable one of successive draws; the others are thrown away. -/
inductive FirstOf (draw : σ → α → σ → Prop) (suitable : α → Prop) : σ → α → σ → Prop
  | found {s a s'} : draw s a s' → suitable a → FirstOf draw suitable s a s'
  | again {s a s1 b s'} : draw s a s1 → ¬ suitable a → FirstOf draw suitable s1 b s' →
      FirstOf draw suitable s b s'

/-- Two draws, one after the other. -/
def Both (draw : σ → α → σ → Prop) (s : σ) (p : α × α) (s' : σ) : Prop :=
  ∃ s1, draw s p.1 s1 ∧ draw s1 p.2 s'

/-- A prime of `n` bits: that which follows an odd random number, according to the library of big
integers, provided that it has no more than `n` bits. -/
def prime (e : BnEnv) (rng : RandomBytes σ) (n : Nat) : σ → Nat → σ → Prop :=
  FirstOf (fun s p s' => ∃ m, oddNumber rng n s m s' ∧ (p : Int) = e.nextprime m) (· < 2 ^ n)

/-- A factor of the modulus of RSA: if the exponent is fixed, `p - 1` has no common factor with it. -/
def rsaFactor (e : BnEnv) (rng : RandomBytes σ) (x : Option Int) (n : Nat) : σ → Nat → σ → Prop :=
  FirstOf (prime e rng n) fun p => ∀ v, x = some v → Nat.Coprime (p - 1) v.natAbs

/-- The factors of the modulus of RSA: different. -/
def rsaFactors (e : BnEnv) (rng : RandomBytes σ) (x : Option Int) (n : Nat) : σ → Nat × Nat → σ → Prop :=
  FirstOf (Both (rsaFactor e rng x n)) fun p => p.1 ≠ p.2

/-- The exponent of RSA, if not fixed: a number of `n` bits with no common factor with `p - 1` and
`q - 1`. -/
def rsaExponent (rng : RandomBytes σ) (n p q : Nat) : σ → Nat → σ → Prop :=
  FirstOf (number rng n) fun x => Nat.Coprime x (p - 1) ∧ Nat.Coprime x (q - 1)

/-- The factors of the modulus of Paillier: different, and such that `p q` has no common factor with
`(p - 1) (q - 1)`. -/
def paillierFactors (e : BnEnv) (rng : RandomBytes σ) (n : Nat) : σ → Nat × Nat → σ → Prop :=
  FirstOf (Both (prime e rng n)) fun p => p.1 ≠ p.2 ∧ Nat.Coprime (p.1 * p.2) ((p.1 - 1) * (p.2 - 1))

/-- The random number that blinds a message of Paillier: smaller than the modulus and without common
factor with it. -/
def paillierBlind (rng : RandomBytes σ) (n modulus : Nat) : σ → Nat → σ → Prop :=
  FirstOf (number rng n) fun r => Nat.Coprime r modulus ∧ r < modulus

end Verif.Spec
