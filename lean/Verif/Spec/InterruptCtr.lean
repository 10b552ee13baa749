import Verif.Spec.Interrupt
/-
Histories of interrupted calls on a block cipher in counter mode.
-/
namespace Verif.Spec

open Verif

/-- A history of calls to the method `transform` of a `block_cipher` object, each with any input and
output buffers that hold a block. A call either returned, and then the block read and the block written
are recorded, or raised an exception, and then the object was in a state where that is `tolerated`.
`Calls c tolerated s blocks n`: from state `s`, `n` calls, of which those that returned read and wrote
`blocks`. -/
inductive Calls (c : BlockCipher σ) (tolerated : σ → Prop) : σ → List (Bytes × Bytes) → Nat → Prop
  | none (s : σ) : Calls c tolerated s [] 0
  | returned {s s' : σ} {src : Src} {so dofs : Nat} {dst dst' : Bytes} {blocks : List (Bytes × Bytes)}
      {n : Nat} (hs : so + c.blocksize ≤ (src.read dst).length) (hd : dofs + c.blocksize ≤ dst.length)
      (h : c.transform src so dofs (s, dst) = .ok () (s', dst')) (rest : Calls c tolerated s' blocks n) :
      Calls c tolerated s
        ((slice (src.read dst) so c.blocksize, slice dst' dofs c.blocksize) :: blocks) (n + 1)
  | raised {s s' : σ} {src : Src} {so dofs : Nat} {dst dst' : Bytes} {e : Exn}
      {blocks : List (Bytes × Bytes)} {n : Nat}
      (hs : so + c.blocksize ≤ (src.read dst).length) (hd : dofs + c.blocksize ≤ dst.length)
      (ht : tolerated s)
      (h : c.transform src so dofs (s, dst) = .exn e (s', dst')) (rest : Calls c tolerated s' blocks n) :
      Calls c tolerated s blocks (n + 1)

/-- No two of the blocks written are masked with the encryption, by the block function `E`, of the same
block of `n` bytes: there are distinct blocks, one for each pair of a block read and the block written. -/
def DistinctMasks (E : Bytes → Bytes) (n : Nat) (blocks : List (Bytes × Bytes)) : Prop :=
  ∃ counters : List Bytes, counters.Nodup ∧ counters.length = blocks.length ∧
    ∀ p x, (p, x) ∈ blocks.zip counters → x.length = n ∧ p.2 = xorb p.1 (E x)

end Verif.Spec
