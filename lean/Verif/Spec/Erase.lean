import Verif.Model.Cipher
import Verif.Model.SHA
import Verif.Model.SipHash
import Verif.Model.Blake2
import Verif.Model.Poly1305
/-
What it means that the memory of an object contains only zeroes.
-/
namespace Verif.Spec

open Verif

/-- Every element of a piece of memory is zero. -/
def Zeroed [OfNat α 0] (b : List α) : Prop := ∀ x ∈ b, x = 0

/-- The context of ChaCha20: the 16 words of input (key, counter, nonce), the block of key stream. -/
def ZeroChaCha (c : ChaCha) : Prop :=
  Zeroed [c.input.x0, c.input.x1, c.input.x2, c.input.x3, c.input.x4, c.input.x5, c.input.x6, c.input.x7,
    c.input.x8, c.input.x9, c.input.x10, c.input.x11, c.input.x12, c.input.x13, c.input.x14, c.input.x15]
  ∧ Zeroed c.output ∧ c.next = 0 ∧ c.ivLength = 0

/-- The context of Poly1305: the key `r`, the accumulator, the pad, pending data. -/
def ZeroPoly (c : PolyCtx) : Prop :=
  Zeroed [c.h.r0, c.h.r1, c.h.r2, c.h.h0, c.h.h1, c.h.h2, c.h.pad0, c.h.pad1] ∧ Zeroed c.buffer ∧ c.numbytes = 0

/-- The output buffer. -/
def ZeroOut (o : OBuf) : Prop := Zeroed o.obuf

end Verif.Spec
