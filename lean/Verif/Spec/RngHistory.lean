import Verif.Spec.Random
/-
Random number generators: the bytes a caller has got from a history of requests.
-/
namespace Verif.Spec

/-- The number of bytes asked for by a history of requests. -/
def asked (rs : List RngRequest) : Nat := (rs.map fun r => r.len.toNat).sum

/-- The bytes obtained by a history of requests, from the buffers after each of them: the requested
ranges, one after the other. -/
def obtained : List RngRequest → List Bytes → Bytes
  | r :: rs, b :: bs => slice b r.ofs.toNat r.len.toNat ++ obtained rs bs
  | _, _ => []

end Verif.Spec
