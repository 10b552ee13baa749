import Verif.Model.Block
/-
What it means for a block-cipher object to compute a function on blocks.
-/
namespace Verif

/-- Effect of one block transform on the object: block written to the destination, new
state, exception raised (after the write) if any. -/
structure BRes (σ : Type) where
  out : Bytes
  st : σ
  exn : Option Exn

def BRes.toOut (r : BRes σ) (dst : Bytes) (dofs : Nat) : Out (σ × Bytes) Unit :=
  match r.exn with
  | none => .ok () (r.st, splice dst dofs r.out)
  | some e => .exn e (r.st, splice dst dofs r.out)

/-- In every state satisfying `inv`, on all legal arguments, `c#transform` computes the
block function `f`. -/
structure Implements (c : BlockCipher σ) (inv : σ → Prop) (f : σ → Bytes → BRes σ) : Prop where
  pos : 0 < c.blocksize
  out_len : ∀ {s blk}, inv s → blk.length = c.blocksize → (f s blk).out.length = c.blocksize
  inv_step : ∀ {s blk}, inv s → blk.length = c.blocksize → inv (f s blk).st
  run : ∀ {s} {src : Src} {so dofs : Nat} {dst : Bytes}, inv s →
    so + c.blocksize ≤ (src.read dst).length → dofs + c.blocksize ≤ dst.length →
    c.transform src so dofs (s, dst)
      = (f s (slice (src.read dst) so c.blocksize)).toOut dst dofs

/-- A stateless block cipher: in state `k` it computes the block function `E`. -/
abbrev PureCipher (c : BlockCipher σ) (k : σ) (E : Bytes → Bytes) : Prop :=
  Implements c (· = k) (fun s b => ⟨E b, s, none⟩)

/-- A block function applied to successive blocks, threading its state. -/
def blockwise (f : σ → Bytes → BRes σ) (s : σ) : List Bytes → List Bytes
  | [] => []
  | b :: bs => (f s b).out :: blockwise f (f s b).st bs

/-- The block function never raises. -/
def Total (f : σ → Bytes → BRes σ) : Prop := ∀ s b, (f s b).exn = none

end Verif
