import Verif.Spec.SHA
import Verif.Spec.Ripemd
/-
Collisions of compression functions. (That collisions exist is no news: a compression function has
more arguments than results. What matters is that one occurs in a given computation.)
-/
namespace Verif.Spec

/-- While `x` and `y`, cut into blocks of `n` bytes, are hashed, the compression function is applied
to two different arguments, a chaining value and a block, with the same result: after the blocks
`p` to the block `b` of `x`, and after the blocks `p'` to the block `b'` of `y`. -/
def CompressionCollision (n : Nat) (compress : γ → Bytes → γ) (iv : γ) (x y : Bytes) : Prop :=
  ∃ p b q p' b' q' : Bytes, x = p ++ b ++ q ∧ y = p' ++ b' ++ q'
    ∧ n ∣ p.length ∧ b.length = n ∧ n ∣ p'.length ∧ b'.length = n
    ∧ (merkleDamgard n compress iv p, b) ≠ (merkleDamgard n compress iv p', b')
    ∧ compress (merkleDamgard n compress iv p) b = compress (merkleDamgard n compress iv p') b'

end Verif.Spec
