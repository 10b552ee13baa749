import Verif.Model.Zlib
import Verif.Spec.History
import Verif.Spec.Safety
/-
What the `Zlib` transforms may expect from the library zlib.
-/
namespace Verif.Spec

/-- zlib's functions use at most the input and the room that they are given. -/
structure ZBounded (fn : ZCall ζ) : Prop where
  usedIn : ∀ f i n z, (fn f i n z).usedIn ≤ i.length
  out : ∀ f i n z, (fn f i n z).out.length ≤ n

/-- The documented behaviour of `deflate`. `Valid p c` says that `p` is a complete compressed form of `c`.
`Live z c p`: the input `c` has been used and the output `p` produced. `Finishing z c p`: the same, after
a call with `Z_FINISH`. `Clean z`: everything has been flushed and no input was used since. -/
structure DeflateContract (L : ZLib ζ) (z0 : ζ) (Valid : Bytes → Bytes → Prop) where
  Live : ζ → Bytes → Bytes → Prop
  Finishing : ζ → Bytes → Bytes → Prop
  Clean : ζ → Prop
  bounded : ZBounded L.deflate
  start : Live z0 [] [] ∧ ¬ Clean z0
  /-- "deflate compresses as much data as possible, and stops when the input buffer becomes empty or the
  output buffer becomes full." -/
  put : ∀ {z c p i n}, Live z c p → i ≠ [] → 0 < n →
    let r := L.deflate .noFlush i n z
    r.code = .ok ∧ Live r.st (c ++ i.take r.usedIn) (p ++ r.out) ∧
      (r.usedIn = i.length ∨ r.out.length = n) ∧ (0 < r.usedIn → ¬ Clean r.st)
  /-- "If deflate returns with avail_out == 0, this function must be called again with the same value of
  the flush parameter and more output space until the flush is complete; make sure that avail_out is
  greater than six." -/
  flush : ∀ {z c p n}, Live z c p → ¬ Clean z → 6 < n →
    let r := L.deflate .syncFlush [] n z
    r.code = .ok ∧ Live r.st c (p ++ r.out) ∧ (r.out.length = n → ¬ Clean r.st)
  /-- "If the parameter flush is set to Z_FINISH, pending input is processed, pending output is flushed
  and deflate returns with Z_STREAM_END if there was enough output space. If deflate returns with Z_OK,
  this function must be called again with Z_FINISH and more output space." -/
  finish : ∀ {z c p n}, Live z c p ∨ Finishing z c p → 0 < n →
    let r := L.deflate .finish [] n z
    (r.code = .streamEnd ∧ Valid (p ++ r.out) c ∧ (L.deflateEnd r.st).1 = true) ∨
    (r.code = .ok ∧ Finishing r.st c (p ++ r.out) ∧ r.out.length = n)

/-- What `deflate` also does: once a flush is complete, another one without input in between is an error
(`Z_BUF_ERROR`, no progress is possible). -/
structure DeflateContract.Strict (D : DeflateContract L z0 Valid) : Prop where
  flushed : ∀ {z c p n}, D.Live z c p → ¬ D.Clean z → 6 < n →
    let r := L.deflate .syncFlush [] n z
    r.out.length ≠ n → D.Clean r.st
  clean : ∀ {z c p n}, D.Live z c p → D.Clean z → (L.deflate .syncFlush [] n z).code = .error

/-- Where a decompressor stands after some input. -/
inductive ZStatus where
  | more | done | bad
  deriving DecidableEq

/-- A compressed format: what is known after reading some input, namely whether the stream is complete, and
the data decompressed so far. -/
structure ZFormat where
  status : Bytes → ZStatus
  out : Bytes → Bytes

/-- `z` is a complete stream, no more and no less. -/
def ZFormat.Stream (F : ZFormat) (z : Bytes) : Prop :=
  F.status z = .done ∧ ∀ a, a <+: z → a ≠ z → F.status a = .more

/-- The documented behaviour of `inflate`. `Live z c d`: the input `c` has been used and the data `d`
delivered. -/
structure InflateContract (L : ZLib ζ) (z0 : ζ) (F : ZFormat) where
  Live : ζ → Bytes → Bytes → Prop
  bounded : ZBounded L.inflate
  start : Live z0 [] []
  /-- No input is used after the end of the stream or after an error; only decompressed data is
  delivered. -/
  live : ∀ {z c d}, Live z c d →
    d <+: F.out c ∧ F.status c ≠ .bad ∧ (∀ a, a <+: c → a ≠ c → F.status a = .more)
  /-- "inflate decompresses as much data as possible, and stops when the input buffer becomes empty or the
  output buffer becomes full." "Z_STREAM_END if the end of the compressed data has been reached and all
  uncompressed output has been produced"; an error for malformed data, or if no progress was
  possible. -/
  call : ∀ {z c d i n}, Live z c d → 0 < n →
    let r := L.inflate .syncFlush i n z
    let c' := c ++ i.take r.usedIn
    let d' := d ++ r.out
    match r.code with
    | .ok => Live r.st c' d' ∧ (0 < r.usedIn ∨ 0 < r.out.length) ∧
        (r.out.length = n ∨ (r.usedIn = i.length ∧ d' = F.out c' ∧ F.status c' = .more))
    | .streamEnd => Live r.st c' d' ∧ F.status c' = .done ∧ d' = F.out c'
    | _ => (∃ a, a <+: i ∧ F.status (c ++ a) = .bad ∧ ∀ b, b <+: a → b ≠ a → F.status (c ++ b) = .more) ∨
        (i = [] ∧ d = F.out c ∧ F.status c = .more)
  stop : ∀ {z c d}, Live z c d → (L.inflateEnd z).1 = true

/-- Every flush of the history comes after at least one byte of input since the previous flush. `fresh`: no
flush yet, or input since the last one. -/
def FlushesFresh (fresh : Bool) : List FOp → Prop
  | [] => True
  | .call op :: ops => FlushesFresh (fresh || !op.input.isEmpty) ops
  | .flush :: ops => fresh = true ∧ FlushesFresh false ops

/-- The input of each call has less than `2^32` bytes. -/
def FOp.Short : FOp → Prop
  | .call op => op.input.length < 2 ^ 32
  | .flush => True

/-- `put_byte` gets a byte. -/
def FOp.ByteOk : FOp → Prop
  | .call op => op.ByteOk
  | .flush => True

/-- The call takes all the output that is waiting. -/
def TOp.Drains (op : TOp) : Prop := op = .getString ∨ op = .getSubstring

/-- At most `K` bytes are put between two calls that take all the waiting output, and at most `K - n` before the
first one. -/
inductive DrainedEvery (K : Nat) : Nat → List FOp → Prop
  | nil {n} : DrainedEvery K n []
  | flush {n ops} : DrainedEvery K n ops → DrainedEvery K n (.flush :: ops)
  | call {n op ops} : n + op.input.length ≤ K → DrainedEvery K (n + op.input.length) ops →
      DrainedEvery K n (.call op :: ops)
  | drain {n op ops} : TOp.Drains op → DrainedEvery K 0 ops → DrainedEvery K n (.call op :: ops)

/-- For `K` bytes of input, `deflate` produces at most `P` bytes of output, at any time. -/
def DeflateContract.Paced (D : DeflateContract L z0 Valid) (K P : Nat) : Prop :=
  ∀ {z c p z' c' p'}, D.Live z c p → D.Live z' c' p' ∨ D.Finishing z' c' p' → c <+: c' → p <+: p' →
    c'.length ≤ c.length + K → p'.length ≤ p.length + P

/-- For `K` bytes of input, `inflate` produces at most `P` bytes of output, at any time. -/
def InflateContract.Paced (I : InflateContract L z0 F) (K P : Nat) : Prop :=
  ∀ {z c d z' c' d'}, I.Live z c d → I.Live z' c' d' → c <+: c' → d <+: d' →
    c'.length ≤ c.length + K → d'.length ≤ d.length + P

/-- Whatever the object has been through, a call among those in `allowed` does not access memory out of bounds. It
may return, raise an exception, or, the library zlib being arbitrary, go on forever. -/
def NoUndefined (run : μ → M τ Unit) (allowed : μ → Prop) (t0 : τ) : Prop :=
  ∀ t, Reachable run allowed t0 t → ∀ c, allowed c → run c t ≠ .ub

end Verif.Spec
