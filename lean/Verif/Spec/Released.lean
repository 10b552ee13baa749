import Verif.Spec.Inert
/-
The output a sequence of calls releases, when the caller catches the exceptions and goes on.
-/
namespace Verif.Spec

/-- The bytes obtained by the calls of a trace. -/
def released : List (Option (Except Exn Bytes)) → Bytes
  | [] => []
  | some (.ok x) :: rs => x ++ released rs
  | _ :: rs => released rs

/-- The number of bytes a call is given: the length of the string, even if the range is only part of it
or is not valid. -/
def Call.given : Call → Nat
  | .op (.putSubstring b _ _) => b.length
  | .op (.putString s) => s.length
  | .op (.putChar _) => 1
  | .op (.putByte _) => 1
  | _ => 0

/-- The number of bytes a sequence of calls is given. -/
def given (cs : List Call) : Nat := (cs.map Call.given).sum

end Verif.Spec
