import Verif.Model.Basic
/-
Specification of output buffering: a FIFO queue of bytes of bounded length.
-/
namespace Verif.Spec

/-- What a user (or the inheriting class, for `produce`) can do with the pending output. -/
inductive QOp where
  | produce (x : Bytes)
  | getString
  | getSubstring
  | getChar
  | getByte
  | available

/-- What is observed. -/
inductive QObs where
  | done
  | data (x : Bytes)
  | char (c : Byte)
  | num (n : Int)
  | raised (e : Exn)
  deriving DecidableEq

/-- One operation on the queue `q`, whose length may not exceed `max`. -/
def qstep (max : Nat) (q : Bytes) : QOp → QObs × Bytes
  | .produce x =>
    if q.length + x.length ≤ max then (.done, q ++ x)
    else (.raised (.error .outputBufferOverflow), q)
  | .getString => (.data q, [])
  | .getSubstring => (.data q, [])
  | .getChar =>
    match q with
    | [] => (.raised .endOfFile, [])
    | c :: q' => (.char c, q')
  | .getByte =>
    match q with
    | [] => (.raised .endOfFile, [])
    | c :: q' => (.num c.toNat, q')
  | .available => (.num q.length, q)

/-- A history of operations: the observations, in order, and the final queue. -/
def qrun (max : Nat) (q : Bytes) : List QOp → List QObs × Bytes
  | [] => ([], q)
  | op :: ops =>
    let r := qstep max q op
    let rest := qrun max r.2 ops
    (r.1 :: rest.1, rest.2)

/-- Bytes accepted by the queue during a history. -/
def accepted : List QOp → List QObs → Bytes
  | .produce x :: ops, .done :: obs => x ++ accepted ops obs
  | _ :: ops, _ :: obs => accepted ops obs
  | _, _ => []

/-- Bytes handed out during a history. -/
def handedOut : List QOp → List QObs → Bytes
  | .getString :: ops, .data x :: obs => x ++ handedOut ops obs
  | .getSubstring :: ops, .data x :: obs => x ++ handedOut ops obs
  | .getChar :: ops, .char c :: obs => c :: handedOut ops obs
  | .getByte :: ops, .num n :: obs => BitVec.ofInt 8 n :: handedOut ops obs
  | _ :: ops, _ :: obs => handedOut ops obs
  | _, _ => []

end Verif.Spec
