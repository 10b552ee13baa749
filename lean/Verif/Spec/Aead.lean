import Verif.Spec.Ghash
import Verif.Spec.Poly1305
import Verif.Spec.Stream
/-
Authenticated encryption: GCM (NIST SP 800-38D) and ChaCha20-Poly1305 (RFC 8439 section 2.8).
-/
namespace Verif.Spec

/-- `x` followed by zero bytes up to the next multiple of 16 bytes. -/
def zeroPad16 (x : Bytes) : Bytes := x ++ List.replicate ((16 - x.length % 16) % 16) 0

namespace GCM

/-- Section 6.4, GHASH_H(X): Y_0 = 0^128, Y_i = (Y_{i-1} + X_i) • H. -/
def ghash (H X : Bytes) : Bytes :=
  (chunks 16 X).foldl (fun y x => ghashMul (xorb y x) H) (List.replicate 16 0)

/-- Section 6.2, inc_32: the last four bytes are incremented modulo 2^32. -/
def inc32 (x : Bytes) : Bytes := x.take 12 ++ natToBE 4 ((beNat (x.drop 12) + 1) % 2 ^ 32)

/-- Section 6.5, GCTR_K(ICB, X): the blocks of X, of which the last may be incomplete, xored with
CIPH_K(ICB), CIPH_K(inc32 ICB), ... -/
def gctr (E : Bytes → Bytes) : Bytes → List Bytes → Bytes
  | _, [] => []
  | cb, x :: xs => xorb x (E cb) ++ gctr E (inc32 cb) xs

/-- The hash subkey, CIPH_K(0^128). -/
def subkey (E : Bytes → Bytes) : Bytes := E (List.replicate 16 0)

/-- [n]_64, a number as a 64-bit string, applied to the length in bits of a byte string. -/
def bitLength64 (x : Bytes) : Bytes := natToBE 8 (8 * x.length)

/-- Section 7.1 step 2, the pre-counter block. -/
def J0 (E : Bytes → Bytes) (iv : Bytes) : Bytes :=
  if iv.length = 12 then iv ++ [0, 0, 0, 1]
  else ghash (subkey E) (zeroPad16 iv ++ List.replicate 8 0 ++ bitLength64 iv)

/-- Section 7.1 step 3: the ciphertext (and, applied to a ciphertext, the plaintext: section 7.2
step 4). -/
def crypt (E : Bytes → Bytes) (iv x : Bytes) : Bytes := gctr E (inc32 (J0 E iv)) (chunks 16 x)

/-- Section 7.1 steps 4 to 6: the tag of header A and ciphertext C (t = 128). -/
def tag (E : Bytes → Bytes) (iv A C : Bytes) : Bytes :=
  gctr E (J0 E iv) [ghash (subkey E)
    (zeroPad16 A ++ zeroPad16 C ++ bitLength64 A ++ bitLength64 C)]

/-- Section 5.2.1.1: the maximal length of a plaintext is 2^39 - 256 bits. -/
def maxPlaintext : Nat := (2 ^ 39 - 256) / 8

end GCM

namespace ChaPoly

/-- Section 2.6: the one-time key is the beginning of block 0 of the keystream. -/
def otk (key iv : Bytes) : Bytes := (ChaCha20.block (ChaCha20.state key iv 0)).take 32

/-- The ciphertext: the keystream is used from block 1 on. -/
def crypt (key iv m : Bytes) : Bytes := xorKeystream (ChaCha20.keystream key iv 1) 0 m

/-- The tag of header A and ciphertext C. -/
def tag (key iv A C : Bytes) : Bytes :=
  Poly1305 (otk key iv)
    (zeroPad16 A ++ zeroPad16 C ++ natToLE 8 A.length ++ natToLE 8 C.length)

end ChaPoly
end Verif.Spec
