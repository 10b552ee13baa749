import Verif.Model.NumHeap
/-
What it means that a run on numbers in memory gives the result of a computation.
-/
namespace Verif.Spec

/-- The numbers and strings that existed in `h0` are the same in `h`. -/
def Untouched (h0 h : NumHeap) : Prop := h0.nums <+: h.nums ∧ h0.strs <+: h.strs

/-- A run in memory that started in `h0` agrees with a computation: both raise the same exception,
or both return, with results related by `Q`; nothing that existed before has changed. -/
def Agrees (h0 : NumHeap) (Q : α → β → NumHeap → Prop) (o : Out NumHeap α) (r : Except Exn β) : Prop :=
  match o, r with
  | .ok a h, .ok x => Untouched h0 h ∧ Q a x h
  | .exn e h, .error e' => e = e' ∧ Untouched h0 h
  | _, _ => False

/-- The result is a new string with the expected contents. -/
def NewString (h0 : NumHeap) (y : Nat) (s : Bytes) (h : NumHeap) : Prop :=
  h0.strs.length ≤ y ∧ h.strs[y]? = some s

/-- The references held by a private RSA key. -/
def rsaPrivateRefs (k : RsaPrivateH) : List Nat := [k.n, k.d, k.p, k.q, k.dp, k.dq, k.qinv]

/-- The contents of a private RSA key are `v`. -/
def RsaPrivateIs (h : NumHeap) (k : RsaPrivateH) (v : RsaPrivate) : Prop :=
  k.size = v.size ∧ (rsaPrivateRefs k).map (h.strs[·]?)
    = [v.n, v.d, v.p, v.q, v.dp, v.dq, v.qinv].map some

/-- The contents of a public RSA key are `v`. -/
def RsaPublicIs (h : NumHeap) (k : RsaPublicH) (v : RsaPublic) : Prop :=
  k.size = v.size ∧ [k.n, k.e].map (h.strs[·]?) = [v.n, v.e].map some

/-- The references held by a private Paillier key. -/
def paillierPrivateRefs (k : PaillierPrivateH) : List Nat := [k.n, k.n2, k.p, k.q, k.lambda, k.mu]

/-- The contents of a private Paillier key are `v`. -/
def PaillierPrivateIs (h : NumHeap) (k : PaillierPrivateH) (v : PaillierPrivate) : Prop :=
  k.size = v.size ∧ (paillierPrivateRefs k).map (h.strs[·]?)
    = [v.n, v.n2, v.p, v.q, v.lambda, v.mu].map some

/-- The contents of a public Paillier key are `v`. -/
def PaillierPublicIs (h : NumHeap) (k : PaillierPublicH) (v : PaillierPublic) : Prop :=
  k.size = v.size ∧ [k.n, k.n2, k.g].map (h.strs[·]?) = [v.n, v.n2, v.g].map some

/-- Every string of the list contains only zeros. -/
def StringsErased (h : NumHeap) (refs : List Nat) : Prop :=
  ∀ r ∈ refs, ∃ n, h.strs[r]? = some (List.replicate n 0)

end Verif.Spec
