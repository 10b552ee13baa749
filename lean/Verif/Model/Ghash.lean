import Verif.Model.Words
/-
GHASH multiplication: src/ghash.c (tables) and src/pclmul.c (carry-less multiplication
instructions), as called from src/stubs-ghash.c.
-/
namespace Verif

/-- `get_uint64_be`, src/ghash.c:24-35. -/
def be64or (b : Bytes) : W64 :=
  ((byteAt b 0).setWidth 64 <<< 56) ||| ((byteAt b 1).setWidth 64 <<< 48)
    ||| ((byteAt b 2).setWidth 64 <<< 40) ||| ((byteAt b 3).setWidth 64 <<< 32)
    ||| ((byteAt b 4).setWidth 64 <<< 24) ||| ((byteAt b 5).setWidth 64 <<< 16)
    ||| ((byteAt b 6).setWidth 64 <<< 8) ||| (byteAt b 7).setWidth 64

/-- `put_uint64_be`, src/ghash.c:37-47. -/
def toBE64 (n : W64) : Bytes :=
  [(n >>> 56).setWidth 8, (n >>> 48).setWidth 8, (n >>> 40).setWidth 8, (n >>> 32).setWidth 8,
   (n >>> 24).setWidth 8, (n >>> 16).setWidth 8, (n >>> 8).setWidth 8, n.setWidth 8]

/-- `struct ghash_context`, src/ghash.h:16-19. -/
structure GhashCtx where
  HL : List W64
  HH : List W64
  deriving DecidableEq

/-- The body of the first loop of `ghash_init`, src/ghash.c:106-112; the state is the context and
(vh, vl). -/
def ghashInitStep (s : GhashCtx × W64 × W64) (i : Nat) : GhashCtx × W64 × W64 :=
  let (ctx, vh, vl) := s
  let T : W32 := (vl &&& (1 : W64)).setWidth 32 * (0xe1000000 : W32)
  let vl' := (vh <<< 63) ||| (vl >>> 1)
  let vh' := (vh >>> 1) ^^^ (T.setWidth 64 <<< 32)
  (⟨ctx.HL.set i vl', ctx.HH.set i vh'⟩, vh', vl')

/-- The body of the second loop of `ghash_init`, src/ghash.c:113-121. -/
def ghashInitFill (ctx : GhashCtx) (i : Nat) : GhashCtx :=
  let vh := ctx.HH.getD i 0
  let vl := ctx.HL.getD i 0
  (List.range' 1 (i - 1)).foldl (fun (c : GhashCtx) j =>
    ⟨c.HL.set (i + j) (vl ^^^ c.HL.getD j 0), c.HH.set (i + j) (vh ^^^ c.HH.getD j 0)⟩) ctx

/-- `ghash_init`, src/ghash.c:89-122. -/
def ghashInit (h : Bytes) : GhashCtx :=
  let vh := be64or h
  let vl := be64or (h.drop 8)
  let ctx : GhashCtx := ⟨List.replicate 16 0, List.replicate 16 0⟩
  let ctx : GhashCtx := ⟨ctx.HL.set 8 vl, ctx.HH.set 8 vh⟩
  let ctx : GhashCtx := ⟨ctx.HL.set 0 0, ctx.HH.set 0 0⟩
  let (ctx, _, _) := [4, 2, 1].foldl ghashInitStep (ctx, vh, vl)
  [2, 4, 8].foldl ghashInitFill ctx

/-- `last4`, src/ghash.c:53-56. -/
def ghashLast4 : List W64 :=
  [0x0000, 0x1c20, 0x3840, 0x2460, 0x7080, 0x6ca0, 0x48c0, 0x54e0,
   0xe100, 0xfd20, 0xd940, 0xc560, 0x9180, 0x8da0, 0xa9c0, 0xb5e0]

/-- The statements of src/ghash.c:71-76 and 78-83: shift (zh, zl) by one nibble and add the table
entry for nibble `n`. -/
def ghashNibble (ctx : GhashCtx) (z : W64 × W64) (n : Byte) : W64 × W64 :=
  let (zh, zl) := z
  let rem := (zl &&& (0x0f : W64)).toNat
  let zl' := (zh <<< 60) ||| (zl >>> 4)
  let zh' := (zh >>> 4) ^^^ (ghashLast4.getD rem 0 <<< 48)
  (zh' ^^^ ctx.HH.getD n.toNat 0, zl' ^^^ ctx.HL.getD n.toNat 0)

/-- The loop body of `ghash_mult`, src/ghash.c:66-84. -/
def ghashByte (ctx : GhashCtx) (input : Bytes) (z : W64 × W64) (i : Nat) : W64 × W64 :=
  let lo := byteAt input i &&& (0x0f : Byte)
  let hi := byteAt input i >>> 4
  let z := if i ≠ 15 then ghashNibble ctx z lo else z
  ghashNibble ctx z hi

/-- `ghash_mult`, src/ghash.c:49-87: the bytes written to `output`. -/
def ghashMult (ctx : GhashCtx) (input : Bytes) : Bytes :=
  let lo := byteAt input 15 &&& (0x0f : Byte)
  let z : W64 × W64 := (ctx.HH.getD lo.toNat 0, ctx.HL.getD lo.toNat 0)
  let (zh, zl) := (List.range 16).reverse.foldl (ghashByte ctx input) z
  toBE64 zh ++ toBE64 zl

/-! The x86 vector intrinsics used by src/pclmul.c, after Intel's description. A `__m128i` is a
128-bit number, stored in memory least significant byte first. -/

/-- Carry-less product of two 64-bit numbers. For `_mm_clmulepi64_si128`, src/pclmul.c:57-60. -/
def clmul64 (a b : W64) : BitVec 128 :=
  (List.range 64).foldl
    (fun acc i => if a.getLsbD i then acc ^^^ (b.setWidth 128 <<< i) else acc) 0

/-- Low and high quadwords. src/pclmul.c:57-60. -/
def loQ (x : BitVec 128) : W64 := x.setWidth 64
/-- High quadword, src/pclmul.c:57-60. -/
def hiQ (x : BitVec 128) : W64 := (x >>> 64).setWidth 64

/-- Apply `f` to each 32-bit lane. src/pclmul.c:68-71. -/
def lanes32 (f : W32 → W32) (x : BitVec 128) : BitVec 128 :=
  f ((x >>> 96).setWidth 32) ++ f ((x >>> 64).setWidth 32) ++ f ((x >>> 32).setWidth 32)
    ++ f (x.setWidth 32)

/-- `_mm_slli_epi32`, `_mm_srli_epi32`. src/pclmul.c:68-71, 80-82, 90-92. -/
def slliEpi32 (x : BitVec 128) (n : Nat) : BitVec 128 := lanes32 (· <<< n) x
/-- `_mm_srli_epi32`, src/pclmul.c:68-69, 90-92. -/
def srliEpi32 (x : BitVec 128) (n : Nat) : BitVec 128 := lanes32 (· >>> n) x
/-- `_mm_slli_si128`, `_mm_srli_si128`: shifts by `n` bytes. src/pclmul.c:63-64, 73-75, 86-87. -/
def slliSi128 (x : BitVec 128) (n : Nat) : BitVec 128 := x <<< (8 * n)
/-- `_mm_srli_si128`, src/pclmul.c:64, 73, 86. -/
def srliSi128 (x : BitVec 128) (n : Nat) : BitVec 128 := x >>> (8 * n)

/-- `copy_reverse_16`, src/pclmul.c:39-47: into and out of a vector register. -/
def loadReverse16 (src : Bytes) : BitVec 128 :=
  BitVec.ofNat 128 (((List.range 16).map fun i =>
    (byteAt src (15 - i)).toNat * 256 ^ i).sum)
/-- `copy_reverse_16(res, &tmp0)`, src/pclmul.c:39-47, 100. -/
def storeReverse16 (x : BitVec 128) : Bytes :=
  (List.range 16).map fun i => (x >>> (8 * (15 - i))).setWidth 8

/-- The 256-bit product, src/pclmul.c:57-66: (tmp3, tmp6). -/
def pclmulProduct (tmp0 tmp1 : BitVec 128) : BitVec 128 × BitVec 128 :=
  let tmp3 := clmul64 (loQ tmp0) (loQ tmp1)
  let tmp4 := clmul64 (loQ tmp0) (hiQ tmp1)
  let tmp5 := clmul64 (hiQ tmp0) (loQ tmp1)
  let tmp6 := clmul64 (hiQ tmp0) (hiQ tmp1)
  let tmp4 := tmp4 ^^^ tmp5
  let tmp5 := slliSi128 tmp4 8
  let tmp4 := srliSi128 tmp4 8
  (tmp3 ^^^ tmp5, tmp6 ^^^ tmp4)

/-- The product shifted left by one bit, src/pclmul.c:68-78. -/
def pclmulShift (tmp3 tmp6 : BitVec 128) : BitVec 128 × BitVec 128 :=
  let tmp7 := srliEpi32 tmp3 31
  let tmp8 := srliEpi32 tmp6 31
  let tmp3 := slliEpi32 tmp3 1
  let tmp6 := slliEpi32 tmp6 1
  let tmp9 := srliSi128 tmp7 12
  let tmp8 := slliSi128 tmp8 4
  let tmp7 := slliSi128 tmp7 4
  let tmp3 := tmp3 ||| tmp7
  let tmp6 := tmp6 ||| tmp8
  (tmp3, tmp6 ||| tmp9)

/-- The reduction, src/pclmul.c:80-97. -/
def pclmulReduce (tmp3 tmp6 : BitVec 128) : BitVec 128 :=
  let tmp7 := slliEpi32 tmp3 31
  let tmp8 := slliEpi32 tmp3 30
  let tmp9 := slliEpi32 tmp3 25
  let tmp7 := tmp7 ^^^ tmp8
  let tmp7 := tmp7 ^^^ tmp9
  let tmp8 := srliSi128 tmp7 4
  let tmp7 := slliSi128 tmp7 12
  let tmp3 := tmp3 ^^^ tmp7
  let tmp2 := srliEpi32 tmp3 1
  let tmp4 := srliEpi32 tmp3 2
  let tmp5 := srliEpi32 tmp3 7
  let tmp2 := tmp2 ^^^ tmp4
  let tmp2 := tmp2 ^^^ tmp5
  let tmp2 := tmp2 ^^^ tmp8
  let tmp3 := tmp3 ^^^ tmp2
  tmp6 ^^^ tmp3

/-- `pclmul_mult`, src/pclmul.c:49-101: the bytes written to `res`. -/
def pclmulMult (arg1 arg2 : Bytes) : Bytes :=
  let tmp0 := loadReverse16 arg1
  let tmp1 := loadReverse16 arg2
  let (tmp3, tmp6) := pclmulProduct tmp0 tmp1
  let (tmp3, tmp6) := pclmulShift tmp3 tmp6
  storeReverse16 (pclmulReduce tmp3 tmp6)

/-- The value returned by `caml_ghash_init`: the key itself when the processor has the
carry-less multiplication instruction, a table otherwise. src/stubs-ghash.c:41-58. -/
inductive GhashKey where
  | hw (key : Bytes)
  | sw (ctx : GhashCtx)

/-- `caml_ghash_init`, src/stubs-ghash.c:41-56. `pclmul` is `pclmul_available == 1`. The key must
have 16 bytes (it does at the only call site); a shorter one would be read out of bounds. -/
def cGhashInit (pclmul : Bool) (key : Bytes) : Option GhashKey :=
  if key.length < 16 then none
  else if pclmul then some (.hw key) else some (.sw (ghashInit key))

/-- `caml_ghash_mult`, src/stubs-ghash.c:58-66, on the 16-byte block `x`. -/
def cGhashMult (k : GhashKey) (x : Bytes) : Option Bytes :=
  if x.length ≠ 16 then none
  else match k with
    | .hw key => some (pclmulMult key x)
    | .sw ctx => some (ghashMult ctx x)

end Verif
