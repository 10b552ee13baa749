import Verif.Model.Pubkey
/-
Programs that keep private secrets of `DH` in variables: `shared_secret` erases the number in place,
src/cryptokit.ml:2216-2220, so that a later call with the same secret sees what remains of it.
-/
namespace Verif

/-- The calls of a program on its private secrets, numbered from 0: `DH.message params secret` and
`DH.shared_secret params secret othermsg`. src/cryptokit.ml:2212-2220. -/
inductive DhCall where
  | message (i : Nat)
  | sharedSecret (i : Nat) (othermsg : Bytes)

/-- One call; the state is the values of the secrets. A call on a secret that does not exist does
nothing. If `shared_secret` raises an exception, `Bn.wipe privsec` is not reached.
src/cryptokit.ml:2212-2220. -/
def DhCall.run (e : BnEnv) (params : DhParams) : DhCall → M (List Int) Bytes
  | .message i => fun secrets =>
    match secrets[i]? with
    | none => .ok [] secrets
    | some a =>
      match dhMessage e params a with
      | .ok m => .ok m secrets
      | .error x => .exn x secrets
  | .sharedSecret i othermsg => fun secrets =>
    match secrets[i]? with
    | none => .ok [] secrets
    | some a =>
      match dhSharedSecret e params a othermsg with
      | .ok (s, a') => .ok s (secrets.set i a')
      | .error x => .exn x secrets

/-- A sequence of calls, where the program catches the exceptions: the outcome of each call.
src/cryptokit.ml:2212-2220. -/
def DhCall.runAll (e : BnEnv) (params : DhParams) : List DhCall → M (List Int) (List (Except Exn Bytes))
  | [] => fun secrets => .ok [] secrets
  | c :: cs => fun secrets =>
    match c.run e params secrets with
    | .ok b secrets =>
      match DhCall.runAll e params cs secrets with
      | .ok bs secrets => .ok (.ok b :: bs) secrets
      | .exn x secrets => .exn x secrets
      | .ub => .ub
      | .loop => .loop
    | .exn x secrets =>
      match DhCall.runAll e params cs secrets with
      | .ok bs secrets => .ok (.error x :: bs) secrets
      | .exn x secrets => .exn x secrets
      | .ub => .ub
      | .loop => .loop
    | .ub => .ub
    | .loop => .loop

end Verif
