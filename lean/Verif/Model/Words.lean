import Verif.Model.Basic
/-
Machine words: C `uint32_t`, `uint64_t`, rotations and byte order. The model is that of a
little-endian 64-bit platform (for the code's `#ifdef ARCH_BIG_ENDIAN` branches, see Model/Endian.lean
and C73).
-/
namespace Verif

/-- C `uint32_t` / `u32` / `unsigned int`. As in src/sha1.h:18. -/
abbrev W32 := BitVec 32
/-- C `uint64_t` / `u64`. As in src/keccak.h:3. -/
abbrev W64 := BitVec 64

/-- `(x << c) | (x >> (32 - c))`: the `ROTATE`, `rol`, `ROTL` macros.
src/chacha20.c:32, src/ripemd160.c:27, src/sha1.c:22-24. -/
def rol32 (x : W32) (c : Nat) : W32 := (x <<< c) ||| (x >>> (32 - c))
/-- `(x >> c) | (x << (32 - c))`: the `ROTR`, `rotr32` macros.
src/sha256.c:22, src/blake2.c:185-188. -/
def ror32 (x : W32) (c : Nat) : W32 := (x >>> c) ||| (x <<< (32 - c))
/-- 64-bit left rotation. src/keccak.c:12, src/siphash.c:28. -/
def rol64 (x : W64) (c : Nat) : W64 := (x <<< c) ||| (x >>> (64 - c))
/-- 64-bit right rotation. src/sha512.c:22, src/blake2.c:46-49. -/
def ror64 (x : W64) (c : Nat) : W64 := (x >>> c) ||| (x <<< (64 - c))

/-- Byte `i` of a C array (`p[i]`); reads past the end of the model's list give 0, every use
is on a list of the right length. As in src/arcfour.c:31. -/
def byteAt (b : Bytes) (i : Nat) : Byte := b.getD i 0

/-- `p[0] + (p[1] << 8) + (p[2] << 16) + (p[3] << 24)` (`U8TO32_LITTLE` and similar).
src/chacha20.c:24-30. -/
def le32 (b : Bytes) : W32 :=
  (byteAt b 0).setWidth 32 + ((byteAt b 1).setWidth 32 <<< 8)
    + ((byteAt b 2).setWidth 32 <<< 16) + ((byteAt b 3).setWidth 32 <<< 24)

/-- Little-endian store of a 32-bit word (`U32TO8_LITTLE` and similar). src/chacha20.c:12-22. -/
def toLE32 (x : W32) : Bytes :=
  [x.setWidth 8, (x >>> 8).setWidth 8, (x >>> 16).setWidth 8, (x >>> 24).setWidth 8]

/-- `p[0] | (p[1] << 8) | (p[2] << 16) | (p[3] << 24)` (`U8TO32LE` of src/blake2.c:179-183 and
similar). -/
def le32or (b : Bytes) : W32 :=
  (byteAt b 0).setWidth 32 ||| ((byteAt b 1).setWidth 32 <<< 8)
    ||| ((byteAt b 2).setWidth 32 <<< 16) ||| ((byteAt b 3).setWidth 32 <<< 24)

/-- `p[0] | (p[1] << 8) | ... | (p[7] << 56)` (`U8TO64LE` of src/blake2.c:38-44, `U8TO64_LE` of
src/siphash.c:30-39). -/
def le64or (b : Bytes) : W64 :=
  (byteAt b 0).setWidth 64 ||| ((byteAt b 1).setWidth 64 <<< 8)
    ||| ((byteAt b 2).setWidth 64 <<< 16) ||| ((byteAt b 3).setWidth 64 <<< 24)
    ||| ((byteAt b 4).setWidth 64 <<< 32) ||| ((byteAt b 5).setWidth 64 <<< 40)
    ||| ((byteAt b 6).setWidth 64 <<< 48) ||| ((byteAt b 7).setWidth 64 <<< 56)

/-- Little-endian store of a 64-bit word (`U64TO8_LE` of src/siphash.c:41-50 and similar). -/
def toLE64 (x : W64) : Bytes :=
  [x.setWidth 8, (x >>> 8).setWidth 8, (x >>> 16).setWidth 8, (x >>> 24).setWidth 8,
   (x >>> 32).setWidth 8, (x >>> 40).setWidth 8, (x >>> 48).setWidth 8, (x >>> 56).setWidth 8]

end Verif
