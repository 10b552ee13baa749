import Verif.Model.SHA
/-
RIPEMD-160: src/ripemd160.c, src/stubs-ripemd160.c, for a little-endian machine (Model/Endian.lean has the others).
-/
namespace Verif

/-- The ten step macros, src/ripemd160.c:37-86. -/
inductive RmdMacro where
  | FF | GG | HH | II | JJ | FFF | GGG | HHH | III | JJJ
  deriving DecidableEq

/-- Macro `F`, src/ripemd160.c:30. -/
def rmdF (x y z : W32) : W32 := x ^^^ y ^^^ z
/-- Macro `G`, src/ripemd160.c:31. -/
def rmdG (x y z : W32) : W32 := (x &&& y) ||| (~~~x &&& z)
/-- Macro `H`, src/ripemd160.c:32. -/
def rmdH (x y z : W32) : W32 := (x ||| ~~~y) ^^^ z
/-- Macro `I`, src/ripemd160.c:33. -/
def rmdI (x y z : W32) : W32 := (x &&& z) ||| (y &&& ~~~z)
/-- Macro `J`, src/ripemd160.c:34. -/
def rmdJ (x y z : W32) : W32 := x ^^^ (y ||| ~~~z)

/-- What the macro adds to `a`: the basic function plus `x` plus the constant,
src/ripemd160.c:37-86. -/
def RmdMacro.term : RmdMacro → W32 → W32 → W32 → W32 → W32
  | .FF, b, c, d, x => rmdF b c d + x
  | .GG, b, c, d, x => rmdG b c d + x + 0x5a827999
  | .HH, b, c, d, x => rmdH b c d + x + 0x6ed9eba1
  | .II, b, c, d, x => rmdI b c d + x + 0x8f1bbcdc
  | .JJ, b, c, d, x => rmdJ b c d + x + 0xa953fd4e
  | .FFF, b, c, d, x => rmdF b c d + x
  | .GGG, b, c, d, x => rmdG b c d + x + 0x7a6d76e9
  | .HHH, b, c, d, x => rmdH b c d + x + 0x6d703ef3
  | .III, b, c, d, x => rmdI b c d + x + 0x5c4dd124
  | .JJJ, b, c, d, x => rmdJ b c d + x + 0x50a28be6

/-- A macro call `M(a, b, c, d, e, data[x], s)`; the variables `a`...`e` are numbered 0 to 4.
src/ripemd160.c:37-86, 120-320. -/
structure RmdCall where
  m : RmdMacro
  (a b c d e : Fin 5)
  x : Nat
  s : Nat
  deriving DecidableEq

/-- src/ripemd160.c:123-211, in order. (Generated by tools/gen_ripemd.py.) -/
def rmdLeft : List RmdCall :=
  [.mk .FF 0 1 2 3 4 0 11, .mk .FF 4 0 1 2 3 1 14, .mk .FF 3 4 0 1 2 2 15,
   .mk .FF 2 3 4 0 1 3 12, .mk .FF 1 2 3 4 0 4 5, .mk .FF 0 1 2 3 4 5 8,
   .mk .FF 4 0 1 2 3 6 7, .mk .FF 3 4 0 1 2 7 9, .mk .FF 2 3 4 0 1 8 11,
   .mk .FF 1 2 3 4 0 9 13, .mk .FF 0 1 2 3 4 10 14, .mk .FF 4 0 1 2 3 11 15,
   .mk .FF 3 4 0 1 2 12 6, .mk .FF 2 3 4 0 1 13 7, .mk .FF 1 2 3 4 0 14 9,
   .mk .FF 0 1 2 3 4 15 8, .mk .GG 4 0 1 2 3 7 7, .mk .GG 3 4 0 1 2 4 6,
   .mk .GG 2 3 4 0 1 13 8, .mk .GG 1 2 3 4 0 1 13, .mk .GG 0 1 2 3 4 10 11,
   .mk .GG 4 0 1 2 3 6 9, .mk .GG 3 4 0 1 2 15 7, .mk .GG 2 3 4 0 1 3 15,
   .mk .GG 1 2 3 4 0 12 7, .mk .GG 0 1 2 3 4 0 12, .mk .GG 4 0 1 2 3 9 15,
   .mk .GG 3 4 0 1 2 5 9, .mk .GG 2 3 4 0 1 2 11, .mk .GG 1 2 3 4 0 14 7,
   .mk .GG 0 1 2 3 4 11 13, .mk .GG 4 0 1 2 3 8 12, .mk .HH 3 4 0 1 2 3 11,
   .mk .HH 2 3 4 0 1 10 13, .mk .HH 1 2 3 4 0 14 6, .mk .HH 0 1 2 3 4 4 7,
   .mk .HH 4 0 1 2 3 9 14, .mk .HH 3 4 0 1 2 15 9, .mk .HH 2 3 4 0 1 8 13,
   .mk .HH 1 2 3 4 0 1 15, .mk .HH 0 1 2 3 4 2 14, .mk .HH 4 0 1 2 3 7 8,
   .mk .HH 3 4 0 1 2 0 13, .mk .HH 2 3 4 0 1 6 6, .mk .HH 1 2 3 4 0 13 5,
   .mk .HH 0 1 2 3 4 11 12, .mk .HH 4 0 1 2 3 5 7, .mk .HH 3 4 0 1 2 12 5,
   .mk .II 2 3 4 0 1 1 11, .mk .II 1 2 3 4 0 9 12, .mk .II 0 1 2 3 4 11 14,
   .mk .II 4 0 1 2 3 10 15, .mk .II 3 4 0 1 2 0 14, .mk .II 2 3 4 0 1 8 15,
   .mk .II 1 2 3 4 0 12 9, .mk .II 0 1 2 3 4 4 8, .mk .II 4 0 1 2 3 13 9,
   .mk .II 3 4 0 1 2 3 14, .mk .II 2 3 4 0 1 7 5, .mk .II 1 2 3 4 0 15 6,
   .mk .II 0 1 2 3 4 14 8, .mk .II 4 0 1 2 3 5 6, .mk .II 3 4 0 1 2 6 5,
   .mk .II 2 3 4 0 1 2 12, .mk .JJ 1 2 3 4 0 4 9, .mk .JJ 0 1 2 3 4 0 15,
   .mk .JJ 4 0 1 2 3 5 5, .mk .JJ 3 4 0 1 2 9 11, .mk .JJ 2 3 4 0 1 7 6,
   .mk .JJ 1 2 3 4 0 12 8, .mk .JJ 0 1 2 3 4 2 13, .mk .JJ 4 0 1 2 3 10 12,
   .mk .JJ 3 4 0 1 2 14 5, .mk .JJ 2 3 4 0 1 1 12, .mk .JJ 1 2 3 4 0 3 13,
   .mk .JJ 0 1 2 3 4 8 14, .mk .JJ 4 0 1 2 3 11 11, .mk .JJ 3 4 0 1 2 6 8,
   .mk .JJ 2 3 4 0 1 15 5, .mk .JJ 1 2 3 4 0 13 6]

/-- src/ripemd160.c:223-311, in order. (Generated by tools/gen_ripemd.py.) -/
def rmdRight : List RmdCall :=
  [.mk .JJJ 0 1 2 3 4 5 8, .mk .JJJ 4 0 1 2 3 14 9, .mk .JJJ 3 4 0 1 2 7 9,
   .mk .JJJ 2 3 4 0 1 0 11, .mk .JJJ 1 2 3 4 0 9 13, .mk .JJJ 0 1 2 3 4 2 15,
   .mk .JJJ 4 0 1 2 3 11 15, .mk .JJJ 3 4 0 1 2 4 5, .mk .JJJ 2 3 4 0 1 13 7,
   .mk .JJJ 1 2 3 4 0 6 7, .mk .JJJ 0 1 2 3 4 15 8, .mk .JJJ 4 0 1 2 3 8 11,
   .mk .JJJ 3 4 0 1 2 1 14, .mk .JJJ 2 3 4 0 1 10 14, .mk .JJJ 1 2 3 4 0 3 12,
   .mk .JJJ 0 1 2 3 4 12 6, .mk .III 4 0 1 2 3 6 9, .mk .III 3 4 0 1 2 11 13,
   .mk .III 2 3 4 0 1 3 15, .mk .III 1 2 3 4 0 7 7, .mk .III 0 1 2 3 4 0 12,
   .mk .III 4 0 1 2 3 13 8, .mk .III 3 4 0 1 2 5 9, .mk .III 2 3 4 0 1 10 11,
   .mk .III 1 2 3 4 0 14 7, .mk .III 0 1 2 3 4 15 7, .mk .III 4 0 1 2 3 8 12,
   .mk .III 3 4 0 1 2 12 7, .mk .III 2 3 4 0 1 4 6, .mk .III 1 2 3 4 0 9 15,
   .mk .III 0 1 2 3 4 1 13, .mk .III 4 0 1 2 3 2 11, .mk .HHH 3 4 0 1 2 15 9,
   .mk .HHH 2 3 4 0 1 5 7, .mk .HHH 1 2 3 4 0 1 15, .mk .HHH 0 1 2 3 4 3 11,
   .mk .HHH 4 0 1 2 3 7 8, .mk .HHH 3 4 0 1 2 14 6, .mk .HHH 2 3 4 0 1 6 6,
   .mk .HHH 1 2 3 4 0 9 14, .mk .HHH 0 1 2 3 4 11 12, .mk .HHH 4 0 1 2 3 8 13,
   .mk .HHH 3 4 0 1 2 12 5, .mk .HHH 2 3 4 0 1 2 14, .mk .HHH 1 2 3 4 0 10 13,
   .mk .HHH 0 1 2 3 4 0 13, .mk .HHH 4 0 1 2 3 4 7, .mk .HHH 3 4 0 1 2 13 5,
   .mk .GGG 2 3 4 0 1 8 15, .mk .GGG 1 2 3 4 0 6 5, .mk .GGG 0 1 2 3 4 4 8,
   .mk .GGG 4 0 1 2 3 1 11, .mk .GGG 3 4 0 1 2 3 14, .mk .GGG 2 3 4 0 1 11 14,
   .mk .GGG 1 2 3 4 0 15 6, .mk .GGG 0 1 2 3 4 0 14, .mk .GGG 4 0 1 2 3 5 6,
   .mk .GGG 3 4 0 1 2 12 9, .mk .GGG 2 3 4 0 1 2 12, .mk .GGG 1 2 3 4 0 13 9,
   .mk .GGG 0 1 2 3 4 9 12, .mk .GGG 4 0 1 2 3 7 5, .mk .GGG 3 4 0 1 2 10 15,
   .mk .GGG 2 3 4 0 1 14 8, .mk .FFF 1 2 3 4 0 12 8, .mk .FFF 0 1 2 3 4 15 5,
   .mk .FFF 4 0 1 2 3 10 12, .mk .FFF 3 4 0 1 2 4 9, .mk .FFF 2 3 4 0 1 1 12,
   .mk .FFF 1 2 3 4 0 5 5, .mk .FFF 0 1 2 3 4 8 14, .mk .FFF 4 0 1 2 3 7 6,
   .mk .FFF 3 4 0 1 2 6 8, .mk .FFF 2 3 4 0 1 2 13, .mk .FFF 1 2 3 4 0 13 6,
   .mk .FFF 0 1 2 3 4 14 5, .mk .FFF 4 0 1 2 3 0 15, .mk .FFF 3 4 0 1 2 3 13,
   .mk .FFF 2 3 4 0 1 9 11, .mk .FFF 1 2 3 4 0 11 11]


/-- The variables `a`...`e`. src/ripemd160.c:108. -/
abbrev RmdVars := Fin 5 → W32

/-- Assignment to a variable. src/ripemd160.c:37-86. -/
def RmdVars.set (r : RmdVars) (i : Fin 5) (v : W32) : RmdVars := fun k => if k = i then v else r k

/-- Execution of a macro call, src/ripemd160.c:37-86. -/
def rmdExec (data : List W32) (r : RmdVars) (k : RmdCall) : RmdVars :=
  let r := r.set k.a (r k.a + k.m.term (r k.b) (r k.c) (r k.d) (data.getD k.x 0))
  let r := r.set k.a (rol32 (r k.a) k.s + r k.e)
  r.set k.c (rol32 (r k.c) 10)

/-- `a = ctx->state[0]; ... e = ctx->state[4]`, src/ripemd160.c:116-120. -/
def rmdVars (s : Sha1State) : RmdVars := fun i => s.words.getD i.val 0

/-- `RIPEMD160_compress`, src/ripemd160.c:106-319. The context has the same fields as that of
SHA-1. -/
def rmdCompress (st : Sha1State) (buffer : Bytes) : Sha1State :=
  let data := wordsOfMem 4 32 buffer
  let l := rmdLeft.foldl (rmdExec data) (rmdVars st)
  let r := rmdRight.foldl (rmdExec data) (rmdVars st)
  { a := r 3 + (l 2 + st.b)
    b := st.c + l 3 + r 4
    c := st.d + l 4 + r 0
    d := st.e + l 0 + r 1
    e := st.a + l 1 + r 2 }

/-- `RIPEMD160_init`, src/ripemd160.c:321-331. -/
def rmdInit (buf0 : Bytes) : Sha1Ctx :=
  ⟨⟨⟨0x67452301, 0xEFCDAB89, 0x98BADCFE, 0x10325476, 0xC3D2E1F0⟩, 0, buf0⟩, 0, 0⟩

/-- `RIPEMD160_add_data`, src/ripemd160.c:333-367 (`hi` is `length[1]`, `lo` is `length[0]`). -/
def rmdAdd (c : Sha1Ctx) (data : Bytes) : Option Sha1Ctx :=
  let (hi, lo) := lenAdd 32 c.hi c.lo data.length
  (mdAdd 64 true rmdCompress c.buf data).map fun b => ⟨b, hi, lo⟩

/-- `RIPEMD160_finish`, src/ripemd160.c:369-390 and `caml_ripemd160_final`. -/
def rmdFinish (c : Sha1Ctx) : Option (Bytes × Sha1Ctx) :=
  (mdFinish 64 8 rmdCompress c.buf (memOfWords 4 [c.lo, c.hi])).map fun b =>
    (memOfWords 4 b.h.words, { c with buf := b })

/-- Class `ripemd160`, src/cryptokit.ml:1220-1238 (the hash size is the one of the source). -/
def ripemd160 : HashObj Sha1Ctx := stubHash 32 rmdAdd rmdFinish sha1Wipe

end Verif
