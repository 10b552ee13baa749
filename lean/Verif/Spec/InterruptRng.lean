import Verif.Spec.Random
/-
Histories of interrupted requests to a random number generator.
-/
namespace Verif.Spec

open Verif

/-- A history of calls `random_bytes buf ofs len`, with any buffers and legal ranges. A call either
returned, and then the bytes it has put in the range are recorded, or raised an exception, and then that
was `tolerated` in the state of the generator and for the length of the request.
`RngCalls g tolerated s out`: from state `s`, the calls that returned gave the strings `out`. -/
inductive RngCalls (g : Rng ρ) (tolerated : ρ → Nat → Prop) : ρ → List Bytes → Prop
  | none (s : ρ) : RngCalls g tolerated s []
  | returned {s s' : ρ} {ofs len : Nat} {buf buf' : Bytes} {out : List Bytes}
      (hr : ofs + len ≤ buf.length) (h : g.randomBytes ofs len (s, buf) = .ok () (s', buf'))
      (rest : RngCalls g tolerated s' out) : RngCalls g tolerated s (slice buf' ofs len :: out)
  | raised {s s' : ρ} {ofs len : Nat} {buf buf' : Bytes} {e : Exn} {out : List Bytes}
      (hr : ofs + len ≤ buf.length) (ht : tolerated s len)
      (h : g.randomBytes ofs len (s, buf) = .exn e (s', buf'))
      (rest : RngCalls g tolerated s' out) : RngCalls g tolerated s out

/-- The strings are parts of the stream `ks`, in order and disjoint, none before position `p`: bytes of the
stream may be skipped, but none is given twice. -/
def Parts (ks : Nat → Byte) : Nat → List Bytes → Prop
  | _, [] => True
  | p, b :: bs => ∃ q, p ≤ q ∧ b = streamBytes ks q b.length ∧ Parts ks (q + b.length) bs

end Verif.Spec
