import Verif.Spec.SHA
import Verif.Spec.Ripemd
import Verif.Spec.Md5
/-
Length extension: computing the digest of a longer message from the digest and the length of a
shorter one, without the shorter one.
-/
namespace Verif.Spec

/-- The length fields: the number of bits, in 8 or 16 bytes, most or least significant byte first. -/
def bits64BE (l : Nat) : Bytes := natToBE 8 (8 * l)
def bits128BE (l : Nat) : Bytes := natToBE 16 (8 * l)
def bits64LE (l : Nat) : Bytes := natToLE 8 (8 * l)

/-- The bytes that the padding appends to any message of `l` bytes. -/
def glue (n : Nat) (enc : Nat → Bytes) (l : Nat) : Bytes :=
  [0x80] ++ List.replicate ((n - (l + 1 + (enc l).length) % n) % n) 0 ++ enc l

/-- Go on hashing from the chaining value `st`, reached after `l` bytes: add `x`, then the padding
for all `l + x.length` bytes. -/
def resume (n : Nat) (compress : γ → Bytes → γ) (enc : Nat → Bytes) (st : γ) (l : Nat) (x : Bytes) :
    γ :=
  merkleDamgard n compress st (x ++ glue n enc (l + x.length))

/-- The chaining value is read off the digest `d` of a message of `l` bytes, which was followed by
its padding; hashing then goes on with `x`. -/
def extendSHA1 (d : Bytes) (l : Nat) (x : Bytes) : Bytes :=
  let st : H5 := ⟨wordBE 4 32 d 0, wordBE 4 32 d 1, wordBE 4 32 d 2, wordBE 4 32 d 3, wordBE 4 32 d 4⟩
  let h := resume 64 sha1Compress bits64BE st (l + (glue 64 bits64BE l).length) x
  digestBE 4 [h.a, h.b, h.c, h.d, h.e]

/-- The eight words of a digest of SHA-256 (`k = 4`, `w = 32`) or SHA-512 (`k = 8`, `w = 64`). -/
def h8Of (k w : Nat) (d : Bytes) : H8 w :=
  ⟨wordBE k w d 0, wordBE k w d 1, wordBE k w d 2, wordBE k w d 3, wordBE k w d 4, wordBE k w d 5,
    wordBE k w d 6, wordBE k w d 7⟩

def extendSHA256 (d : Bytes) (l : Nat) (x : Bytes) : Bytes :=
  let h := resume 64 (sha2Compress params256 4) bits64BE (h8Of 4 32 d)
    (l + (glue 64 bits64BE l).length) x
  digestBE 4 [h.a, h.b, h.c, h.d, h.e, h.f, h.g, h.h]

def extendSHA512 (d : Bytes) (l : Nat) (x : Bytes) : Bytes :=
  let h := resume 128 (sha2Compress params512 8) bits128BE (h8Of 8 64 d)
    (l + (glue 128 bits128BE l).length) x
  digestBE 8 [h.a, h.b, h.c, h.d, h.e, h.f, h.g, h.h]

def extendRIPEMD160 (d : Bytes) (l : Nat) (x : Bytes) : Bytes :=
  let st : H5 := ⟨Ripemd.wordLE d 0, Ripemd.wordLE d 1, Ripemd.wordLE d 2, Ripemd.wordLE d 3,
    Ripemd.wordLE d 4⟩
  let h := resume 64 Ripemd.compress bits64LE st (l + (glue 64 bits64LE l).length) x
  ([h.a, h.b, h.c, h.d, h.e].map fun x => natToLE 4 x.toNat).flatten

def extendMD5 (d : Bytes) (l : Nat) (x : Bytes) : Bytes :=
  let st : Md5.State := ⟨Ripemd.wordLE d 0, Ripemd.wordLE d 1, Ripemd.wordLE d 2, Ripemd.wordLE d 3⟩
  let h := resume 64 Md5.compress bits64LE st (l + (glue 64 bits64LE l).length) x
  ([h.a, h.b, h.c, h.d].map fun x => natToLE 4 x.toNat).flatten

end Verif.Spec
