import Verif.Model.Block
/-
The shape shared by the block-cipher classes of src/cryptokit.ml:499-640: a bounds check
in OCaml, then one C stub call per key schedule.
-/
namespace Verif

/-- A call to a C stub that reads `n` bytes at `src + so` and, after having read them all,
writes the result at `dst + dofs`. `stub` is `none` when the stub itself reads outside its
key schedule. As `caml_blowfish_encrypt`, src/stubs-blowfish.c:30-45. -/
def stubCall (n : Nat) (stub : Bytes → Option Bytes) (src : Src) (so dofs : Int) :
    M (σ × Bytes) Unit := do
  let (_, dst) ← M.get
  let blk ← M.orUB (cRead (src.read dst) so n)
  let out ← M.orUB (stub blk)
  let dst ← M.orUB (cWrite dst dofs out)
  M.modify fun p => (p.1, dst)

/-- Remaining stub calls, `dst` to `dst` in place (`triple_des_*`, src/cryptokit.ml:608-609,
634-635). -/
def stubCalls (n : Nat) (dofs : Int) : List (Bytes → Option Bytes) → M (σ × Bytes) Unit
  | [] => pure ()
  | stub :: stubs => do
    stubCall n stub .self dofs dofs
    stubCalls n dofs stubs

/-- `transform` of `aes_encrypt`, `aes_decrypt`, `blowfish_encrypt`, `blowfish_decrypt`,
`des`, `triple_des_encrypt`, `triple_des_decrypt`: src/cryptokit.ml:507-511, 525-529,
543-547, 559-563, 576-580, 603-609, 629-635. The state `σ` is the key schedule. -/
def checkedCipher (n : Nat) (stub : σ → Bytes → Option Bytes)
    (stubs : σ → List (Bytes → Option Bytes)) (wipe : σ → σ) : BlockCipher σ where
  blocksize := n
  transform src so dofs := do
    let (k, dst) ← M.get
    if so < 0 ∨ so > ((src.read dst).length : Int) - n
        ∨ dofs < 0 ∨ dofs > (dst.length : Int) - n then
      M.raise .invalidArg
    stubCall n (stub k) src so dofs
    stubCalls n dofs (stubs k)
  wipe := wipe

end Verif
