import Verif.Spec.Stream
import Verif.Spec.Aes
import Verif.Model.Random
/-
Random number generators: what a history of requests gives.
-/
namespace Verif

/-- A call `random_bytes buf ofs len`. -/
structure RngRequest where
  buf : Bytes
  ofs : Int
  len : Int

/-- The range is within the buffer. -/
def RngRequest.Legal (r : RngRequest) : Prop := InRange r.buf r.ofs r.len

/-- Perform a sequence of requests; the result is the list of the buffers after each request. -/
def Rng.run (g : Rng ρ) : List RngRequest → ρ → Out ρ (List Bytes)
  | [], s => .ok [] s
  | r :: rs, s =>
    match g.randomBytes r.ofs r.len (s, r.buf) with
    | .ok () (s', b) =>
      match g.run rs s' with
      | .ok bs s'' => .ok (b :: bs) s''
      | .exn e s'' => .exn e s''
      | .ub => .ub
      | .loop => .loop
    | .exn e (s', _) => .exn e s'
    | .ub => .ub
    | .loop => .loop

namespace Spec

/-- Bytes `p`, `p + 1`, ... `p + n - 1` of the stream `ks`. -/
def streamBytes (ks : Nat → Byte) (p n : Nat) : Bytes := (List.range n).map fun i => ks (p + i)

/-- The buffers after a sequence of requests that receive successive bytes of the stream `ks`, from
position `p` on; the rest of each buffer is unchanged. -/
def fillRequests (ks : Nat → Byte) : Nat → List RngRequest → List Bytes
  | _, [] => []
  | p, r :: rs =>
    splice r.buf r.ofs.toNat (streamBytes ks p r.len.toNat) :: fillRequests ks (p + r.len.toNat) rs

/-- The ChaCha20 key of `pseudo_rng`: the first 32 bytes of the seed, if it has that many; the seed
itself if it has 16 bytes; otherwise the seed completed with zeroes. -/
def seedKey (seed : Bytes) : Bytes :=
  if seed.length = 16 then seed else (seed ++ List.replicate 32 0).take 32

/-- The stream of `pseudo_rng_aes_ctr`: the encryptions of the counters 0, 1, 2, ... (128 bits, big
endian) with the first 16 bytes of the seed as key. -/
def aesCtrStream (seed : Bytes) (i : Nat) : Byte :=
  (Aes.encrypt (seed.take 16) (natToBE 16 (i / 16))).getD (i % 16) 0

/-- The bytes obtained by executions `i`, `i + 1`, ... `i + n - 1` of the instruction `rdrand`: those
that succeed give eight bytes, little endian. -/
def rdrandBytes (rdrand : Nat → Option (BitVec 64)) (i n : Nat) : Bytes :=
  ((List.range' i n).filterMap rdrand).flatMap fun v => natToLE 8 v.toNat

end Spec
end Verif
