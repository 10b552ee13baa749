import Verif.Model.AesTables
import Verif.Model.Checked
/-
AES with tables, src/rijndael-alg-fst.c and src/stubs-aes.c. The `FULL_UNROLL` variants of the
loops are not compiled and not modelled.
-/
namespace Verif.Rijndael

/-- `T[i]` for a table of 256 words and an index below 256. As in src/rijndael-alg-fst.c:740-743. -/
def tab (t : List W32) (i : W32) : W32 := t.getD i.toNat 0

/-- `GETU32`, src/rijndael-alg-fst.c:719. -/
def getU32 (p : Bytes) (i : Nat) : W32 :=
  ((byteAt p i).setWidth 32 <<< 24) ^^^ ((byteAt p (i + 1)).setWidth 32 <<< 16)
    ^^^ ((byteAt p (i + 2)).setWidth 32 <<< 8) ^^^ (byteAt p (i + 3)).setWidth 32

/-- `PUTU32`, src/rijndael-alg-fst.c:720: the four bytes stored. -/
def putU32 (x : W32) : Bytes :=
  [(x >>> 24).setWidth 8, (x >>> 16).setWidth 8, (x >>> 8).setWidth 8, x.setWidth 8]

/-! ### Key setup. The array `rk` is modelled by the list of the words written so far; `rk += n`
by taking indices from the end of this list. -/

/-- The word made of `Te4` entries that is xored to `rk[0]` (before `rcon[i]`), src/rijndael-alg-fst.c:740-743,
760-763, 782-785. -/
def rotSub (temp : W32) : W32 :=
  (tab Te4 ((temp >>> 16) &&& 0xff#32) &&& 0xff000000#32) ^^^
  (tab Te4 ((temp >>> 8) &&& 0xff#32) &&& 0x00ff0000#32) ^^^
  (tab Te4 (temp &&& 0xff#32) &&& 0x0000ff00#32) ^^^
  (tab Te4 (temp >>> 24) &&& 0x000000ff#32)

/-- The word made of `Te4` entries that is xored to `rk[12]`, src/rijndael-alg-fst.c:795-798. -/
def sub (temp : W32) : W32 :=
  (tab Te4 (temp >>> 24) &&& 0xff000000#32) ^^^
  (tab Te4 ((temp >>> 16) &&& 0xff#32) &&& 0x00ff0000#32) ^^^
  (tab Te4 ((temp >>> 8) &&& 0xff#32) &&& 0x0000ff00#32) ^^^
  (tab Te4 (temp &&& 0xff#32) &&& 0x000000ff#32)

/-- One iteration of the loop for 128-bit keys, src/rijndael-alg-fst.c:737-752. -/
def step128 (rk : List W32) (i : Nat) : List W32 :=
  let r := fun j => rk.getD (rk.length - 4 + j) 0
  let r4 := r 0 ^^^ rotSub (r 3) ^^^ rcon.getD i 0
  let r5 := r 1 ^^^ r4
  let r6 := r 2 ^^^ r5
  let r7 := r 3 ^^^ r6
  rk ++ [r4, r5, r6, r7]

/-- The beginning of an iteration of the loop for 192-bit keys, until its `return`,
src/rijndael-alg-fst.c:757-770. -/
def half192 (rk : List W32) (i : Nat) : List W32 :=
  let r := fun j => rk.getD (rk.length - 6 + j) 0
  let r6 := r 0 ^^^ rotSub (r 5) ^^^ rcon.getD i 0
  let r7 := r 1 ^^^ r6
  let r8 := r 2 ^^^ r7
  let r9 := r 3 ^^^ r8
  rk ++ [r6, r7, r8, r9]

/-- A whole iteration of the loop for 192-bit keys, src/rijndael-alg-fst.c:757-774. -/
def step192 (rk : List W32) (i : Nat) : List W32 :=
  let rk' := half192 rk i
  let r := fun j => rk'.getD (rk.length - 6 + j) 0
  let r10 := r 4 ^^^ r 9
  let r11 := r 5 ^^^ r10
  rk' ++ [r10, r11]

/-- The beginning of an iteration of the loop for 256-bit keys, until its `return`,
src/rijndael-alg-fst.c:779-792. -/
def half256 (rk : List W32) (i : Nat) : List W32 :=
  let r := fun j => rk.getD (rk.length - 8 + j) 0
  let r8 := r 0 ^^^ rotSub (r 7) ^^^ rcon.getD i 0
  let r9 := r 1 ^^^ r8
  let r10 := r 2 ^^^ r9
  let r11 := r 3 ^^^ r10
  rk ++ [r8, r9, r10, r11]

/-- A whole iteration of the loop for 256-bit keys, src/rijndael-alg-fst.c:779-804. -/
def step256 (rk : List W32) (i : Nat) : List W32 :=
  let rk' := half256 rk i
  let r := fun j => rk'.getD (rk.length - 8 + j) 0
  let r12 := r 4 ^^^ sub (r 11)
  let r13 := r 5 ^^^ r12
  let r14 := r 6 ^^^ r13
  let r15 := r 7 ^^^ r14
  rk' ++ [r12, r13, r14, r15]

/-- `rijndaelKeySetupEnc`, src/rijndael-alg-fst.c:728-807: the words written, and the number of
rounds. -/
def keySetupEnc (key : Bytes) (keyBits : Nat) : List W32 × Nat :=
  let rk := [getU32 key 0, getU32 key 4, getU32 key 8, getU32 key 12]
  if keyBits = 128 then ((List.range 10).foldl step128 rk, 10)
  else
    let rk := rk ++ [getU32 key 16, getU32 key 20]
    if keyBits = 192 then (half192 ((List.range 7).foldl step192 rk) 7, 12)
    else
      let rk := rk ++ [getU32 key 24, getU32 key 28]
      if keyBits = 256 then (half256 ((List.range 6).foldl step256 rk) 6, 14)
      else (rk, 0)

/-- `temp = rk[i]; rk[i] = rk[j]; rk[j] = temp`, src/rijndael-alg-fst.c:822. -/
def swap (rk : List W32) (i j : Nat) : List W32 :=
  (rk.set i (rk.getD j 0)).set j (rk.getD i 0)

/-- The loop that inverts the order of the round keys, src/rijndael-alg-fst.c:821-826. -/
def invertOrder (rk : List W32) (i j : Nat) : List W32 :=
  if i < j then
    invertOrder (swap (swap (swap (swap rk i j) (i + 1) (j + 1)) (i + 2) (j + 2)) (i + 3) (j + 3))
      (i + 4) (j - 4)
  else rk
termination_by j - i

/-- `Td0[Te4[rk >> 24] & 0xff] ^ ...`, src/rijndael-alg-fst.c:831-834. -/
def invMix (x : W32) : W32 :=
  tab Td0 (tab Te4 (x >>> 24) &&& 0xff#32) ^^^
  tab Td1 (tab Te4 ((x >>> 16) &&& 0xff#32) &&& 0xff#32) ^^^
  tab Td2 (tab Te4 ((x >>> 8) &&& 0xff#32) &&& 0xff#32) ^^^
  tab Td3 (tab Te4 (x &&& 0xff#32) &&& 0xff#32)

/-- One iteration of the loop that applies the inverse MixColumn transform, on the words from `b`,
src/rijndael-alg-fst.c:829-849. -/
def invMixAt (rk : List W32) (b : Nat) : List W32 :=
  let rk := rk.set b (invMix (rk.getD b 0))
  let rk := rk.set (b + 1) (invMix (rk.getD (b + 1) 0))
  let rk := rk.set (b + 2) (invMix (rk.getD (b + 2) 0))
  rk.set (b + 3) (invMix (rk.getD (b + 3) 0))

/-- `rijndaelKeySetupDec`, src/rijndael-alg-fst.c:814-852. -/
def keySetupDec (key : Bytes) (keyBits : Nat) : List W32 × Nat :=
  let (rk, nr) := keySetupEnc key keyBits
  let rk := invertOrder rk 0 (4 * nr)
  ((List.range (nr - 1)).foldl (fun rk i => invMixAt rk (4 * (i + 1))) rk, nr)

/-! ### Blocks -/

/-- The variables `s0 ... s3` or `t0 ... t3`. src/rijndael-alg-fst.c:855, 1036. -/
structure Q where
  x0 : W32
  x1 : W32
  x2 : W32
  x3 : W32

/-- `Te0[a >> 24] ^ Te1[(b >> 16) & 0xff] ^ Te2[(c >> 8) & 0xff] ^ Te3[d & 0xff] ^ k`,
src/rijndael-alg-fst.c:945-950. -/
def teCol (a b c d k : W32) : W32 :=
  tab Te0 (a >>> 24) ^^^ tab Te1 ((b >>> 16) &&& 0xff#32) ^^^ tab Te2 ((c >>> 8) &&& 0xff#32)
    ^^^ tab Te3 (d &&& 0xff#32) ^^^ k

/-- One round, with the key words from `b`, src/rijndael-alg-fst.c:945-968, 975-998. -/
def encRound (rk : Nat → W32) (b : Nat) (s : Q) : Q :=
  ⟨teCol s.x0 s.x1 s.x2 s.x3 (rk b),
   teCol s.x1 s.x2 s.x3 s.x0 (rk (b + 1)),
   teCol s.x2 s.x3 s.x0 s.x1 (rk (b + 2)),
   teCol s.x3 s.x0 s.x1 s.x2 (rk (b + 3))⟩

/-- `(Te4[a >> 24] & 0xff000000) ^ ... ^ k`, src/rijndael-alg-fst.c:1005-1010, and the same with
`Td4`, src/rijndael-alg-fst.c:1186-1191. -/
def lastCol (t : List W32) (a b c d k : W32) : W32 :=
  (tab t (a >>> 24) &&& 0xff000000#32) ^^^ (tab t ((b >>> 16) &&& 0xff#32) &&& 0x00ff0000#32)
    ^^^ (tab t ((c >>> 8) &&& 0xff#32) &&& 0x0000ff00#32)
    ^^^ (tab t (d &&& 0xff#32) &&& 0x000000ff#32) ^^^ k

/-- The loop of full rounds, src/rijndael-alg-fst.c:943-999, 1124-1180, with `r` iterations left and the
pointer `rk` at index `b`: the values of `t0 ... t3` and of the pointer at the end. -/
def loop (round : Nat → Q → Q) : (r b : Nat) → Q → Q × Nat
  | 0, b, s => (s, b)
  | r + 1, b, s =>
    let t := round (b + 4) s
    if r = 0 then (t, b + 8) else loop round r (b + 8) (round (b + 8) t)

/-- The state after the first round key, src/rijndael-alg-fst.c:864-867, 1045-1048. -/
def start (rk : Nat → W32) (pt : Bytes) : Q :=
  ⟨getU32 pt 0 ^^^ rk 0, getU32 pt 4 ^^^ rk 1, getU32 pt 8 ^^^ rk 2, getU32 pt 12 ^^^ rk 3⟩

/-- `rijndaelEncrypt`, src/rijndael-alg-fst.c:854-1033. The result is `none` if the code reads
outside of the array `rk`: it reads its first `4 * (nr + 1)` words (and never stops when
`nr < 2`). -/
def encrypt (rk : List W32) (nr : Nat) (pt : Bytes) : Option Bytes :=
  if rk.length < 4 * (nr + 1) ∨ nr < 2 then none
  else
    let k := fun i => rk.getD i 0
    let (t, b) := loop (encRound k) (nr / 2) 0 (start k pt)
    some (putU32 (lastCol Te4 t.x0 t.x1 t.x2 t.x3 (k b))
      ++ putU32 (lastCol Te4 t.x1 t.x2 t.x3 t.x0 (k (b + 1)))
      ++ putU32 (lastCol Te4 t.x2 t.x3 t.x0 t.x1 (k (b + 2)))
      ++ putU32 (lastCol Te4 t.x3 t.x0 t.x1 t.x2 (k (b + 3))))

/-- `Td0[a >> 24] ^ Td1[(b >> 16) & 0xff] ^ Td2[(c >> 8) & 0xff] ^ Td3[d & 0xff] ^ k`,
src/rijndael-alg-fst.c:1126-1131. -/
def tdCol (a b c d k : W32) : W32 :=
  tab Td0 (a >>> 24) ^^^ tab Td1 ((b >>> 16) &&& 0xff#32) ^^^ tab Td2 ((c >>> 8) &&& 0xff#32)
    ^^^ tab Td3 (d &&& 0xff#32) ^^^ k

/-- One round, with the key words from `b`, src/rijndael-alg-fst.c:1126-1149, 1156-1179. -/
def decRound (rk : Nat → W32) (b : Nat) (s : Q) : Q :=
  ⟨tdCol s.x0 s.x3 s.x2 s.x1 (rk b),
   tdCol s.x1 s.x0 s.x3 s.x2 (rk (b + 1)),
   tdCol s.x2 s.x1 s.x0 s.x3 (rk (b + 2)),
   tdCol s.x3 s.x2 s.x1 s.x0 (rk (b + 3))⟩

/-- `rijndaelDecrypt`, src/rijndael-alg-fst.c:1035-1214; `none` as in `encrypt`. -/
def decrypt (rk : List W32) (nr : Nat) (ct : Bytes) : Option Bytes :=
  if rk.length < 4 * (nr + 1) ∨ nr < 2 then none
  else
    let k := fun i => rk.getD i 0
    let (t, b) := loop (decRound k) (nr / 2) 0 (start k ct)
    some (putU32 (lastCol Td4 t.x0 t.x3 t.x2 t.x1 (k b))
      ++ putU32 (lastCol Td4 t.x1 t.x0 t.x3 t.x2 (k (b + 1)))
      ++ putU32 (lastCol Td4 t.x2 t.x1 t.x0 t.x3 (k (b + 2)))
      ++ putU32 (lastCol Td4 t.x3 t.x2 t.x1 t.x0 (k (b + 3))))

end Verif.Rijndael

namespace Verif.Aes

/-- The string `ckey`, src/stubs-aes.c:23-24, when the code without AES-NI is used: 60 words
(`4 * (MAXNR + 1)`), then one byte for the number of rounds. -/
structure CKey where
  sched : List W32
  nr : Byte

/-- `caml_aes_cook_encrypt_key`, src/stubs-aes.c:26-43. `junk` is the contents of the 60 words
before the key setup. -/
def cookEnc (junk : List W32) (key : Bytes) : CKey :=
  let (rk, nr) := Rijndael.keySetupEnc key (8 * key.length)
  ⟨rk ++ junk.drop rk.length, BitVec.ofNat 8 nr⟩

/-- `caml_aes_cook_decrypt_key`, src/stubs-aes.c:45-62. -/
def cookDec (junk : List W32) (key : Bytes) : CKey :=
  let (rk, nr) := Rijndael.keySetupDec key (8 * key.length)
  ⟨rk ++ junk.drop rk.length, BitVec.ofNat 8 nr⟩

/-- `wipe` of the AES classes, src/cryptokit.ml:512-514, 530-532. In OCaml `'\016'` is the
character of code 16. -/
def wipeKey (k : CKey) : CKey := ⟨k.sched.map fun _ => 0, 16⟩

/-- Class `aes_encrypt`, src/cryptokit.ml:499-515, with `caml_aes_encrypt`,
src/stubs-aes.c:64-78. -/
def encCipher : BlockCipher CKey :=
  checkedCipher 16 (fun k => Rijndael.encrypt k.sched k.nr.toNat) (fun _ => []) wipeKey

/-- Class `aes_decrypt`, src/cryptokit.ml:517-533, with `caml_aes_decrypt`,
src/stubs-aes.c:80-94. -/
def decCipher : BlockCipher CKey :=
  checkedCipher 16 (fun k => Rijndael.decrypt k.sched k.nr.toNat) (fun _ => []) wipeKey

/-- `new aes_encrypt key`, src/cryptokit.ml:499-505. -/
def encNew (junk : List W32) (key : Bytes) : Except Exn CKey :=
  if key.length = 16 ∨ key.length = 24 ∨ key.length = 32 then .ok (cookEnc junk key)
  else .error (.error .wrongKeySize)

/-- `new aes_decrypt key`, src/cryptokit.ml:517-523. -/
def decNew (junk : List W32) (key : Bytes) : Except Exn CKey :=
  if key.length = 16 ∨ key.length = 24 ∨ key.length = 32 then .ok (cookDec junk key)
  else .error (.error .wrongKeySize)

end Verif.Aes
