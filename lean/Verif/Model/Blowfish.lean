import Verif.Model.Checked
import Verif.Model.BlowfishTables
/-
Blowfish: src/blowfish.c, src/stubs-blowfish.c and the classes of src/cryptokit.ml:535-567.
-/
namespace Verif.Blowfish

/-- `BLOWFISH_CTX`, src/blowfish.h:26-29: 18 and 4 x 256 words. Every index used below is a constant
below 18, or a constant below 4 and the value of a byte, so no access leaves the arrays. -/
structure Ctx where
  P : List W32
  S : List (List W32)
deriving DecidableEq

/-- The macro `F`, src/blowfish.c:358-362. -/
def F (S : List (List W32)) (x : W32) : W32 :=
  let s (i j : Nat) : W32 := (S.getD i []).getD j 0
  ((s 0 (x >>> 24).toNat + s 1 ((x >>> 16) &&& 0xFF#32).toNat)
    ^^^ s 2 ((x >>> 8) &&& 0xFF#32).toNat)
    + s 3 (x &&& 0xFF#32).toNat

/-- `Blowfish_Encrypt`, src/blowfish.c:366-416 (the unrolled branch), as a function of `(*xl, *xr)`. -/
def encryptWords (ctx : Ctx) (x : W32 × W32) : W32 × W32 :=
  let f := F ctx.S
  let p (i : Nat) : W32 := ctx.P.getD i 0
  let Xl := x.1
  let Xr := x.2
  let Xl := Xl ^^^ p 0
  let Xr := Xr ^^^ (f Xl ^^^ p 1)
  let Xl := Xl ^^^ (f Xr ^^^ p 2)
  let Xr := Xr ^^^ (f Xl ^^^ p 3)
  let Xl := Xl ^^^ (f Xr ^^^ p 4)
  let Xr := Xr ^^^ (f Xl ^^^ p 5)
  let Xl := Xl ^^^ (f Xr ^^^ p 6)
  let Xr := Xr ^^^ (f Xl ^^^ p 7)
  let Xl := Xl ^^^ (f Xr ^^^ p 8)
  let Xr := Xr ^^^ (f Xl ^^^ p 9)
  let Xl := Xl ^^^ (f Xr ^^^ p 10)
  let Xr := Xr ^^^ (f Xl ^^^ p 11)
  let Xl := Xl ^^^ (f Xr ^^^ p 12)
  let Xr := Xr ^^^ (f Xl ^^^ p 13)
  let Xl := Xl ^^^ (f Xr ^^^ p 14)
  let Xr := Xr ^^^ (f Xl ^^^ p 15)
  let Xl := Xl ^^^ (f Xr ^^^ p 16)
  let Xr := Xr ^^^ p 17
  (Xr, Xl)

/-- `Blowfish_Decrypt`, src/blowfish.c:418-470 (the unrolled branch). -/
def decryptWords (ctx : Ctx) (x : W32 × W32) : W32 × W32 :=
  let f := F ctx.S
  let p (i : Nat) : W32 := ctx.P.getD i 0
  let Xl := x.1
  let Xr := x.2
  let Xl := Xl ^^^ p 17
  let Xr := Xr ^^^ (f Xl ^^^ p 16)
  let Xl := Xl ^^^ (f Xr ^^^ p 15)
  let Xr := Xr ^^^ (f Xl ^^^ p 14)
  let Xl := Xl ^^^ (f Xr ^^^ p 13)
  let Xr := Xr ^^^ (f Xl ^^^ p 12)
  let Xl := Xl ^^^ (f Xr ^^^ p 11)
  let Xr := Xr ^^^ (f Xl ^^^ p 10)
  let Xl := Xl ^^^ (f Xr ^^^ p 9)
  let Xr := Xr ^^^ (f Xl ^^^ p 8)
  let Xl := Xl ^^^ (f Xr ^^^ p 7)
  let Xr := Xr ^^^ (f Xl ^^^ p 6)
  let Xl := Xl ^^^ (f Xr ^^^ p 5)
  let Xr := Xr ^^^ (f Xl ^^^ p 4)
  let Xl := Xl ^^^ (f Xr ^^^ p 3)
  let Xr := Xr ^^^ (f Xl ^^^ p 2)
  let Xl := Xl ^^^ (f Xr ^^^ p 1)
  let Xr := Xr ^^^ p 0
  (Xr, Xl)

/-- The inner loop over `k` of `Blowfish_Init`, src/blowfish.c:485-490, with `n` iterations left:
`(data, j)`. -/
def keyData (key : Bytes) : Nat → W32 × Nat → W32 × Nat
  | 0, s => s
  | n + 1, (data, j) =>
    let data := (data <<< 8) ||| (byteAt key j).setWidth 32
    let j := j + 1
    keyData key n (data, if j ≥ key.length then 0 else j)

/-- The loop of `Blowfish_Init` that xors the key into `P`, src/blowfish.c:482-492, over the words of
`ORIG_P` that are left. -/
def xorKey (key : Bytes) : List W32 → Nat → List W32
  | [], _ => []
  | p :: ps, j =>
    let (data, j) := keyData key 4 (0, j)
    (p ^^^ data) :: xorKey key ps j

/-- One iteration of src/blowfish.c:497-501, on `(ctx, (datal, datar))`. -/
def initP (s : Ctx × (W32 × W32)) (i : Nat) : Ctx × (W32 × W32) :=
  let (ctx, d) := s
  let d := encryptWords ctx d
  (⟨(ctx.P.set i d.1).set (i + 1) d.2, ctx.S⟩, d)

/-- One iteration of the loop over `j`, src/blowfish.c:504-508. -/
def initS (i : Nat) (s : Ctx × (W32 × W32)) (j : Nat) : Ctx × (W32 × W32) :=
  let (ctx, d) := s
  let d := encryptWords ctx d
  (⟨ctx.P, ctx.S.set i (((ctx.S.getD i []).set j d.1).set (j + 1) d.2)⟩, d)

/-- `for (j = 0; j < n; j += 2) ...`: the values of `j`. src/blowfish.c:497, 504. -/
def evens (n : Nat) : List Nat := (List.range n).filter (· % 2 = 0)

/-- `Blowfish_Init`, src/blowfish.c:473-510. -/
def init (key : Bytes) : Ctx :=
  let ctx : Ctx := ⟨xorKey key ORIG_P 0, ORIG_S⟩
  let s := (evens 18).foldl initP (ctx, (0, 0))
  let s := (List.range 4).foldl (fun s i => (evens 256).foldl (initS i) s) s
  s.1

/-- Big-endian load, `COPY4BYTES((unsigned char *) &x, p)`, src/stubs-blowfish.c:31-43. -/
def load (b : Bytes) : W32 :=
  (byteAt b 0).setWidth 32 <<< 24 ||| (byteAt b 1).setWidth 32 <<< 16
    ||| (byteAt b 2).setWidth 32 <<< 8 ||| (byteAt b 3).setWidth 32

/-- Big-endian store, `COPY4BYTES(p, (unsigned char *) &x)`, src/stubs-blowfish.c:31-43. -/
def store (x : W32) : Bytes :=
  [(x >>> 24).setWidth 8, (x >>> 16).setWidth 8, (x >>> 8).setWidth 8, x.setWidth 8]

/-- `caml_blowfish_encrypt`, src/stubs-blowfish.c:45-59. -/
def encryptStub (ctx : Ctx) (b : Bytes) : Option Bytes :=
  let x := encryptWords ctx (load b, load (b.drop 4))
  some (store x.1 ++ store x.2)

/-- `caml_blowfish_decrypt`, src/stubs-blowfish.c:61-75. -/
def decryptStub (ctx : Ctx) (b : Bytes) : Option Bytes :=
  let x := decryptWords ctx (load b, load (b.drop 4))
  some (store x.1 ++ store x.2)

/-- `wipe_bytes ckey`: every word becomes zero. src/cryptokit.ml:548-549. -/
def wipe (ctx : Ctx) : Ctx := ⟨ctx.P.map fun _ => 0, ctx.S.map (·.map fun _ => 0)⟩

/-- Class `blowfish_encrypt`, src/cryptokit.ml:535-549, methods. -/
def cipherEnc : BlockCipher Ctx := checkedCipher 8 encryptStub (fun _ => []) wipe

/-- Class `blowfish_decrypt`, src/cryptokit.ml:551-567, methods. -/
def cipherDec : BlockCipher Ctx := checkedCipher 8 decryptStub (fun _ => []) wipe

/-- `new blowfish_encrypt key` and `new blowfish_decrypt key`, src/cryptokit.ml:537-541, 553-557, with
`caml_blowfish_cook_key`, src/stubs-blowfish.c:21-29. -/
def new (key : Bytes) : Except Exn Ctx :=
  if key.length ≥ 4 ∧ key.length ≤ 56 then .ok (init key)
  else .error (.error .wrongKeySize)

end Verif.Blowfish
