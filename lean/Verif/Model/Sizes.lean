import Verif.Model.Cipher
import Verif.Model.Combinators
/-
Methods `input_block_size` and `output_block_size` of the transforms of src/cryptokit.ml.
-/
namespace Verif

/-- The values of `input_block_size` and `output_block_size`, src/cryptokit.ml:143-144. -/
structure BlockSizes where
  inp : Nat
  out : Nat

/-- Class `Block.cipher`, src/cryptokit.ml:778-779. -/
def cipherSizes (c : BlockCipher σ) : BlockSizes := ⟨c.blocksize, c.blocksize⟩

/-- Class `Block.cipher_padded_encrypt`, src/cryptokit.ml:843; the other size is inherited, 779. -/
def paddedEncryptSizes (c : BlockCipher σ) : BlockSizes := ⟨1, (cipherSizes c).out⟩

/-- Class `Block.cipher_padded_decrypt`, src/cryptokit.ml:863; the other size is inherited, 778. -/
def paddedDecryptSizes (c : BlockCipher σ) : BlockSizes := ⟨(cipherSizes c).inp, 1⟩

/-- Classes `Stream.cipher`, `AEAD.*`, `Base64.*`, `Hexa.*` and `Zlib.*`,
src/cryptokit.ml:1041-1042, 1648-1649, 1698-1699, 1771-1772, 1797-1798, 2247-2248, 2343-2344,
2409-2410, 2448-2449, 2521-2522, 2576-2577. -/
def byteSizes : BlockSizes := ⟨1, 1⟩

/-- Class `compose`, src/cryptokit.ml:200-201. -/
def composeSizes (z1 z2 : BlockSizes) : BlockSizes := ⟨z1.inp, z2.out⟩

/-- Classes `transform_then_hash` and `transform_and_hash`, src/cryptokit.ml:385-386, 410-411. -/
def withHashSizes (z : BlockSizes) : BlockSizes := ⟨z.inp, z.out⟩

end Verif
