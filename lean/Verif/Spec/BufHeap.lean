import Verif.Model.BufHeap
import Verif.Spec.Queue
/-
Histories of calls on an output buffer, and what its user sees, when `get_substring` returns a
reference to the buffer.
-/
namespace Verif.Spec

/-- What can happen to an output buffer: an operation of the queue, or the user's modifying a byte
array that `get_substring` returned. -/
inductive BOp where
  | queue (op : QOp)
  | modify (r : Nat) (ofs : Int) (x : Bytes)

/-- Perform one operation: what is observed (for `get_substring`, the contents of the substring at
the time of the call) and the new state. `none`: undefined behaviour or non-termination. -/
def bstep (env : Env) (s : BufHeap) : BOp → Option (QObs × BufHeap)
  | .queue (.produce x) =>
    match BufHeap.append env x s with
    | .ok () s' => some (.done, s')
    | .exn e s' => some (.raised e, s')
    | _ => none
  | .queue .getString =>
    match BufHeap.getString s with
    | .ok r s' => some (.data r, s')
    | .exn e s' => some (.raised e, s')
    | _ => none
  | .queue .getSubstring =>
    match BufHeap.getSubstring s with
    | .ok (r, ofs, len) s' =>
      match bytesSub (s'.contents r) ofs len with
      | some d => some (.data d, s')
      | none => some (.raised .invalidArg, s')
    | .exn e s' => some (.raised e, s')
    | _ => none
  | .queue .getChar =>
    match BufHeap.getChar s with
    | .ok r s' => some (.char r, s')
    | .exn e s' => some (.raised e, s')
    | _ => none
  | .queue .getByte =>
    match BufHeap.getByte s with
    | .ok r s' => some (.num r, s')
    | .exn e s' => some (.raised e, s')
    | _ => none
  | .queue .available =>
    match BufHeap.availableOutput s with
    | .ok r s' => some (.num r, s')
    | .exn e s' => some (.raised e, s')
    | _ => none
  | .modify r ofs x =>
    match BufHeap.callerBlit r ofs x s with
    | .ok () s' => some (.done, s')
    | .exn e s' => some (.raised e, s')
    | _ => none

def brun (env : Env) (s : BufHeap) : List BOp → Option (List QObs × BufHeap)
  | [] => some ([], s)
  | op :: ops =>
    match bstep env s op with
    | none => none
    | some (ob, s') =>
      match brun env s' ops with
      | none => none
      | some (obs, s'') => some (ob :: obs, s'')

/-- The operations of a history that concern the queue. -/
def queueOps : List BOp → List QOp
  | [] => []
  | .queue op :: ops => op :: queueOps ops
  | .modify .. :: ops => queueOps ops

/-- What is observed of them. -/
def queueObs : List BOp → List QObs → List QObs
  | .queue _ :: ops, o :: obs => o :: queueObs ops obs
  | .modify .. :: ops, _ :: obs => queueObs ops obs
  | _, _ => []

/-- The user modifies byte arrays only when no output is available, the queue being `q` at first. -/
def Polite (max : Nat) : Bytes → List BOp → Prop
  | _, [] => True
  | q, .queue op :: ops => Polite max (qstep max q op).2 ops
  | q, .modify .. :: ops => q = [] ∧ Polite max q ops

/-- Operations that consume or count output. -/
def QOp.Consumes : QOp → Prop
  | .produce _ => False
  | _ => True

/-- Whenever output is produced, it fits, with the output already there, in less than `n` bytes. -/
def Below (n : Nat) (max : Nat) : Bytes → List QOp → Prop
  | _, [] => True
  | q, op :: ops =>
    (match op with | .produce x => q.length + x.length < n | _ => True)
      ∧ Below n max (qstep max q op).2 ops

end Verif.Spec
