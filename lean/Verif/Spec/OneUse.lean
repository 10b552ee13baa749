import Verif.Model.SecretUse
import Verif.Spec.Common
/-
Private secrets that can be used once: what a program observes.
-/
namespace Verif.Spec

/-- The secret that a call is about. -/
def secretOf : DhCall → Nat
  | .message i => i
  | .sharedSecret i _ => i

/-- Whether a call is `shared_secret` with secret number `i`. -/
def consumes (i : Nat) : DhCall → Bool
  | .message _ => false
  | .sharedSecret j _ => i == j

/-- The number raised to the power of the secret: the generator, or the message of the other party. -/
def dhBase (g : Bytes) : DhCall → Nat
  | .message _ => beNat g
  | .sharedSecret _ m => beNat m

/-- The outcome of the call `c` after the calls `before`, on the secrets `xs`: a power modulo `p`, over as
many bytes as `p`; but `Invalid_argument` if the secret has been destroyed, which happens to the
secrets for which `destroyed` holds, when they are used for `shared_secret`. -/
def dhOutcome (p g : Bytes) (destroyed : Nat → Bool) (xs : List Nat)
    (before : List DhCall) (c : DhCall) : Except Exn Bytes :=
  match xs[secretOf c]? with
  | none => .ok []
  | some x =>
    if destroyed x && before.any (consumes (secretOf c)) then .error .invalidArg
    else .ok (natToBE p.length (dhBase g c ^ x % beNat p))

/-- The outcomes of all the calls of a history. -/
def dhOutcomes (p g : Bytes) (destroyed : Nat → Bool) (xs : List Nat)
    (calls : List DhCall) : List (Except Exn Bytes) :=
  calls.mapIdx fun k c => dhOutcome p g destroyed xs (calls.take k) c

end Verif.Spec
