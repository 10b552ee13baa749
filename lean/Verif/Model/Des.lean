import Verif.Model.Checked
import Verif.Model.DesTables
/-
DES and triple DES: src/d3des.c, src/stubs-des.c and src/cryptokit.ml:569-640.
-/
namespace Verif.Des

/-- `pc1m`, src/d3des.c:59-63. -/
def pc1m (key : Bytes) : List Bool :=
  (List.range 56).map fun j =>
    let l := pc1.getD j 0
    let m := l &&& 7
    key.getD (l >>> 3) 0 &&& bytebit.getD m 0 != 0

/-- `pcr` in iteration `i`, src/d3des.c:69-78. -/
def pcr (pm : List Bool) (i : Nat) : List Bool :=
  (List.range 28).map (fun j =>
    let l := j + totrot.getD i 0
    if l < 28 then pm.getD l false else pm.getD (l - 28) false)
  ++ (List.range 28).map (fun j =>
    let l := j + 28 + totrot.getD i 0
    if l < 56 then pm.getD l false else pm.getD (l - 28) false)

/-- `kn[m]` (with `d = 0`) and `kn[n]` (with `d = 24`) in one iteration, src/d3des.c:68, 79-82. -/
def rawKey (pr : List Bool) (d : Nat) : W32 :=
  (List.range 24).foldl
    (fun w j => if pr.getD (pc2.getD (j + d) 0) false then w ||| bigbyte.getD j 0 else w) 0

/-- The array `kn` after the loop, src/d3des.c:64-83. Its initial contents are replaced by zeroes:
all of it is written. -/
def rawKeys (key : Bytes) (de1 : Bool) : List W32 :=
  let pm := pc1m key
  (List.range 16).foldl (fun kn i =>
    let m := if de1 then (15 - i) <<< 1 else i <<< 1
    let pr := pcr pm i
    (kn.set m (rawKey pr 0)).set (m + 1) (rawKey pr 24)) (List.replicate 32 0)

/-- One iteration of `cookey`, src/d3des.c:93-103. -/
def cook2 (raw0 raw1 : W32) : List W32 :=
  [(raw0 &&& 0x00fc0000#32) <<< 6 ||| (raw0 &&& 0x00000fc0#32) <<< 10
     ||| (raw1 &&& 0x00fc0000#32) >>> 10 ||| (raw1 &&& 0x00000fc0#32) >>> 6,
   (raw0 &&& 0x0003f000#32) <<< 12 ||| (raw0 &&& 0x0000003f#32) <<< 16
     ||| (raw1 &&& 0x0003f000#32) >>> 4 ||| (raw1 &&& 0x0000003f#32)]

/-- `cookey`, src/d3des.c:88-105. -/
def cookey : List W32 → List W32
  | raw0 :: raw1 :: raw => cook2 raw0 raw1 ++ cookey raw
  | _ => []

/-- `d3des_cook_key`, src/d3des.c:52-86. -/
def cookKey (key : Bytes) (de1 : Bool) : List W32 := cookey (rawKeys key de1)

/-- `scrunch`, src/d3des.c:116-120. In C `outof[0] << 24` is computed as an `int`; compilers give it
the value written here. -/
def scrunch (b : Bytes) : W32 × W32 :=
  let w (i : Nat) : W32 := (b.getD i 0).setWidth 32
  (w 0 <<< 24 ||| w 1 <<< 16 ||| w 2 <<< 8 ||| w 3, w 4 <<< 24 ||| w 5 <<< 16 ||| w 6 <<< 8 ||| w 7)

/-- `unscrun`, src/d3des.c:122-135. -/
def unscrun (p : W32 × W32) : Bytes :=
  [(p.1 >>> 24).setWidth 8, (p.1 >>> 16).setWidth 8, (p.1 >>> 8).setWidth 8, p.1.setWidth 8,
   (p.2 >>> 24).setWidth 8, (p.2 >>> 16).setWidth 8, (p.2 >>> 8).setWidth 8, p.2.setWidth 8]

/-- The sequence `work = ((a >> n) ^ b) & m; b ^= work; a ^= work << n`, src/d3des.c:288-299,
337-348; the values of `a` and `b` at the end. -/
def swap (n : Nat) (m : W32) (p : W32 × W32) : W32 × W32 :=
  let work := ((p.1 >>> n) ^^^ p.2) &&& m
  (p.1 ^^^ (work <<< n), p.2 ^^^ work)

/-- Exchange of the two components.
src/d3des.c:307-330, where half-rounds alternate between `leftt` and `right`. -/
def flip (p : W32 × W32) : W32 × W32 := (p.2, p.1)

/-- The start of `desfunc`, src/d3des.c:286-304, from `(block[0], block[1])` to `(leftt, right)`. -/
def initial (p : W32 × W32) : W32 × W32 :=
  let p := swap 4 0x0f0f0f0f#32 p
  let p := swap 16 0x0000ffff#32 p
  let p := flip (swap 2 0x33333333#32 (flip p))
  let p := flip (swap 8 0x00ff00ff#32 (flip p))
  let leftt := p.1
  let right := (p.2 <<< 1) ||| ((p.2 >>> 31) &&& 1#32)
  let work := (leftt ^^^ right) &&& 0xaaaaaaaa#32
  let leftt := leftt ^^^ work
  let right := right ^^^ work
  ((leftt <<< 1) ||| ((leftt >>> 31) &&& 1#32), right)

/-- The value `fval` computed from the word `x` (`right` or `leftt`) and two words of the key,
src/d3des.c:307-317, 319-329. -/
def fval (x k0 k1 : W32) : W32 :=
  let ix (w : W32) (s : Nat) : Nat := ((w >>> s) &&& 0x3f#32).toNat
  let work := ((x <<< 28) ||| (x >>> 4)) ^^^ k0
  let fv := SP7.getD (ix work 0) 0
  let fv := fv ||| SP5.getD (ix work 8) 0
  let fv := fv ||| SP3.getD (ix work 16) 0
  let fv := fv ||| SP1.getD (ix work 24) 0
  let work := x ^^^ k1
  let fv := fv ||| SP8.getD (ix work 0) 0
  let fv := fv ||| SP6.getD (ix work 8) 0
  let fv := fv ||| SP4.getD (ix work 16) 0
  fv ||| SP2.getD (ix work 24) 0

/-- The loop, src/d3des.c:306-331, with `n` iterations left. -/
def rounds : (n : Nat) → (keys : List W32) → W32 × W32 → W32 × W32
  | 0, _, p => p
  | n + 1, keys, (leftt, right) =>
    let leftt := leftt ^^^ fval right (keys.getD 0 0) (keys.getD 1 0)
    let right := right ^^^ fval leftt (keys.getD 2 0) (keys.getD 3 0)
    rounds n (keys.drop 4) (leftt, right)

/-- The end of `desfunc`, src/d3des.c:333-351, from `(leftt, right)` to `(block[0], block[1])`. -/
def final (p : W32 × W32) : W32 × W32 :=
  let leftt := p.1
  let right := (p.2 <<< 31) ||| (p.2 >>> 1)
  let work := (leftt ^^^ right) &&& 0xaaaaaaaa#32
  let leftt := leftt ^^^ work
  let right := right ^^^ work
  let leftt := (leftt <<< 31) ||| (leftt >>> 1)
  let p := (leftt, right)
  let p := swap 8 0x00ff00ff#32 p
  let p := swap 2 0x33333333#32 p
  let p := flip (swap 16 0x0000ffff#32 (flip p))
  let p := flip (swap 4 0x0f0f0f0f#32 (flip p))
  (p.2, p.1)

/-- `d3des_transform` and `desfunc`, src/d3des.c:107-114, 281-352, on a key of `keys.length` words;
`none` if it reads outside of it. -/
def transform (keys : List W32) (inblock : Bytes) : Option Bytes :=
  if keys.length < 32 then none
  else some (unscrun (final (rounds 8 keys (initial (scrunch inblock)))))

/-- `caml_des_cook_key`, src/stubs-des.c:23-31; `none` if it reads outside of the string `key`. -/
def camlCookKey (key : Bytes) (ofs : Nat) (de1 : Bool) : Option (List W32) :=
  (cRead key ofs 8).map (cookKey · de1)

/-- Class `des`, src/cryptokit.ml:569-583, with `caml_des_transform`, src/stubs-des.c:33-40. `wipe`
zeroes the key schedule. -/
def cipher : BlockCipher (List W32) :=
  checkedCipher 8 transform (fun _ => []) (fun k => k.map fun _ => 0)

/-- `new des direction key`, src/cryptokit.ml:569-574; the outer option is `none` for a read outside
of `key`. `de1` is true for `Decrypt`. -/
def new (de1 : Bool) (key : Bytes) : Option (Except Exn (List W32)) :=
  if key.length = 8 then (camlCookKey key 0 de1).map Except.ok
  else some (.error (.error .wrongKeySize))

/-- The variables of `triple_des_encrypt` and `triple_des_decrypt`, src/cryptokit.ml:592-599,
618-625. When the key has 16 bytes two of them are the same string; nothing but `wipe` writes to
them. -/
structure Keys3 where
  ckey1 : List W32
  ckey2 : List W32
  ckey3 : List W32

/-- Classes `triple_des_encrypt` and `triple_des_decrypt`, src/cryptokit.ml:588-640, methods. -/
def cipher3 : BlockCipher Keys3 :=
  checkedCipher 8 (fun k => transform k.ckey1) (fun k => [transform k.ckey2, transform k.ckey3])
    (fun k => ⟨k.ckey1.map fun _ => 0, k.ckey2.map fun _ => 0, k.ckey3.map fun _ => 0⟩)

/-- `new triple_des_encrypt key`, src/cryptokit.ml:588-599. -/
def new3Enc (key : Bytes) : Option (Except Exn Keys3) :=
  if key.length ≠ 16 ∧ key.length ≠ 24 then some (.error (.error .wrongKeySize))
  else do
    let ckey1 ← camlCookKey key 0 false
    let ckey2 ← camlCookKey key 8 true
    let ckey3 ← if key.length = 24 then camlCookKey key 16 false else some ckey1
    some (.ok ⟨ckey1, ckey2, ckey3⟩)

/-- `new triple_des_decrypt key`, src/cryptokit.ml:614-625. -/
def new3Dec (key : Bytes) : Option (Except Exn Keys3) :=
  if key.length ≠ 16 ∧ key.length ≠ 24 then some (.error (.error .wrongKeySize))
  else do
    let ckey3 ← camlCookKey key 0 true
    let ckey2 ← camlCookKey key 8 false
    let ckey1 ← if key.length = 24 then camlCookKey key 16 true else some ckey3
    some (.ok ⟨ckey1, ckey2, ckey3⟩)

end Verif.Des
