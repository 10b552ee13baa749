import Verif.Model.Aes
import Verif.Spec.Aes
/-
AES with the AES-NI instructions, src/aesni.c. The semantics of the instructions is that of the
Intel Software Developer's Manual, vol. 2, which defines them with the transformations of
FIPS 197.
-/
namespace Verif.Aesni
open Spec.Aes (subBytes shiftRows mixColumns invSubBytes invShiftRows invMixColumns subWord rotWord)

/-- A value of type `__m128i`, as four 32-bit lanes; each lane is the list of its four bytes,
the least significant first (which is the order in memory). Used throughout src/aesni.c:37-300. -/
structure M128 where
  d0 : Bytes
  d1 : Bytes
  d2 : Bytes
  d3 : Bytes

/-- The 16 bytes in memory order, as stored by `_mm_storeu_si128`, src/aesni.c:237, 278, 299. -/
def M128.bytes (x : M128) : Bytes := x.d0 ++ x.d1 ++ x.d2 ++ x.d3

/-- `_mm_loadu_si128((__m128i*)(b + i))`: 16 bytes. src/aesni.c:102, 136-137, 177-178. -/
def load (b : Bytes) (i : Nat) : M128 := ⟨slice b i 4, slice b (i + 4) 4, slice b (i + 8) 4,
  slice b (i + 12) 4⟩

/-- `_mm_xor_si128`. src/aesni.c:42. -/
def xor (x y : M128) : M128 := ⟨xorb x.d0 y.d0, xorb x.d1 y.d1, xorb x.d2 y.d2, xorb x.d3 y.d3⟩

/-- `_mm_slli_si128(x, 4)`: shift left by 4 bytes, hence by one lane. src/aesni.c:41. -/
def slli4 (x : M128) : M128 := ⟨[0, 0, 0, 0], x.d0, x.d1, x.d2⟩

/-- Lane number `i`. For `_mm_shuffle_epi32`, src/aesni.c:40. -/
def M128.lane (x : M128) (i : BitVec 2) : Bytes :=
  if i = 0 then x.d0 else if i = 1 then x.d1 else if i = 2 then x.d2 else x.d3

/-- `_mm_shuffle_epi32(x, imm)`. src/aesni.c:40, 54, 62, 71, 85. -/
def shuffle (x : M128) (imm : BitVec 8) : M128 :=
  ⟨x.lane (imm.extractLsb' 0 2), x.lane (imm.extractLsb' 2 2), x.lane (imm.extractLsb' 4 2),
   x.lane (imm.extractLsb' 6 2)⟩

/-- `_mm_shuffle_pd(x, y, imm)`: bit 0 of `imm` chooses a half of `x`, bit 1 a half of `y`.
src/aesni.c:142-144. -/
def shufflePd (x y : M128) (imm : BitVec 8) : M128 :=
  let a := if imm.getLsbD 0 then (x.d2, x.d3) else (x.d0, x.d1)
  let b := if imm.getLsbD 1 then (y.d2, y.d3) else (y.d0, y.d1)
  ⟨a.1, a.2, b.1, b.2⟩

/-- `_mm_aeskeygenassist_si128(x, rcon)`; `RotWord` on a lane is the rotation right by 8 bits.
src/aesni.c:84, 104. -/
def keygenAssist (x : M128) (rcon : Byte) : M128 :=
  ⟨subWord x.d1, xorb (rotWord (subWord x.d1)) [rcon, 0, 0, 0],
   subWord x.d3, xorb (rotWord (subWord x.d3)) [rcon, 0, 0, 0]⟩

/-- `_mm_aesenc_si128`. src/aesni.c:273. -/
def aesenc (t k : M128) : M128 :=
  load (xorb (mixColumns (subBytes (shiftRows t.bytes))) k.bytes) 0
/-- `_mm_aesenclast_si128`. src/aesni.c:277. -/
def aesenclast (t k : M128) : M128 := load (xorb (subBytes (shiftRows t.bytes)) k.bytes) 0
/-- `_mm_aesdec_si128`. src/aesni.c:294. -/
def aesdec (t k : M128) : M128 :=
  load (xorb (invMixColumns (invSubBytes (invShiftRows t.bytes))) k.bytes) 0
/-- `_mm_aesdeclast_si128`. src/aesni.c:298. -/
def aesdeclast (t k : M128) : M128 := load (xorb (invSubBytes (invShiftRows t.bytes)) k.bytes) 0
/-- `_mm_aesimc_si128`. src/aesni.c:254. -/
def aesimc (x : M128) : M128 := load (invMixColumns x.bytes) 0

/-- The three shifts and xors common to the `assist` functions, src/aesni.c:41-46, 55-60, 72-77,
86-91. -/
def spread (t1 : M128) : M128 :=
  let t3 := slli4 t1
  let t1 := xor t1 t3
  let t3 := slli4 t3
  let t1 := xor t1 t3
  let t3 := slli4 t3
  xor t1 t3

/-- `aesni_128_assist`, src/aesni.c:37-49. -/
def assist128 (t1 t2 : M128) : M128 :=
  let t2 := shuffle t2 0xff
  xor (spread t1) t2

/-- `aesni_192_assist`, src/aesni.c:51-66: the new values of `*t1` and `*t3`; that of `*t2` is
not used by the caller. -/
def assist192 (t1 t2 t3 : M128) : M128 × M128 :=
  let t2 := shuffle t2 0x55
  let t1 := xor (spread t1) t2
  let t2 := shuffle t1 0xff
  let t4 := slli4 t3
  let t3 := xor t3 t4
  (t1, xor t3 t2)

/-- `aesni_256_assist_1`, src/aesni.c:68-79: the new value of `*t1`. -/
def assist256_1 (t1 t2 : M128) : M128 :=
  let t2 := shuffle t2 0xff
  xor (spread t1) t2

/-- `aesni_256_assist_2`, src/aesni.c:81-93: the new value of `*t3`. -/
def assist256_2 (t1 t3 : M128) : M128 :=
  let t4 := keygenAssist t1 0x0
  let t2 := shuffle t4 0xaa
  xor (spread t3) t2

/-! ### Key expansion. The straight-line code of each case is a repetition of the same statements
with different constants and is modelled by a fold; the array `key_schedule` is the list of the
elements assigned so far. -/

/-- src/aesni.c:104-106, and the nine other instances until line 133. -/
def step128 (s : M128 × List M128) (rc : Byte) : M128 × List M128 :=
  let t2 := keygenAssist s.1 rc
  let t1 := assist128 s.1 t2
  (t1, s.2 ++ [t1])

/-- Case 128 of `aesni_key_expansion`, src/aesni.c:101-134. -/
def expansion128 (key : Bytes) : List M128 :=
  let t1 := load key 0
  ([0x1, 0x2, 0x4, 0x8, 0x10, 0x20, 0x40, 0x80, 0x1b, 0x36].foldl step128 (t1, [t1])).2

/-- The variables `t1`, `t3` and `key_schedule` in the case 192. src/aesni.c:135-175. -/
structure S192 where
  t1 : M128
  t3 : M128
  ks : List M128

/-- src/aesni.c:140-144, 149-153, 158-162, 167-171: the last element assigned is changed, and one
is added. -/
def stepA (s : S192) (rc : Byte) : S192 :=
  let t2 := keygenAssist s.t3 rc
  let (t1, t3) := assist192 s.t1 t2 s.t3
  let last := s.ks.getLastD ⟨[], [], [], []⟩
  ⟨t1, t3, s.ks.dropLast ++ [shufflePd last t1 0, shufflePd t1 t3 1]⟩

/-- src/aesni.c:145-148, 154-157, 163-166. -/
def stepB (s : S192) (rc : Byte) : S192 :=
  let t2 := keygenAssist s.t3 rc
  let (t1, t3) := assist192 s.t1 t2 s.t3
  ⟨t1, t3, s.ks ++ [t1, t3]⟩

/-- Case 192 of `aesni_key_expansion`, src/aesni.c:135-175. The second load reads 8 bytes after the
end of the key: `pad`. -/
def expansion192 (key pad : Bytes) : List M128 :=
  let t1 := load key 0
  let t3 := load (key ++ pad) 16
  let s := stepA ⟨t1, t3, [t1, t3]⟩ 0x1
  let s := stepA (stepB s 0x2) 0x4
  let s := stepA (stepB s 0x8) 0x10
  let s := stepA (stepB s 0x20) 0x40
  let t2 := keygenAssist s.t3 0x80
  let (t1, _) := assist192 s.t1 t2 s.t3
  s.ks ++ [t1]

/-- src/aesni.c:181-185, 186-190, 191-195, 196-200, 201-205, 206-210. -/
def step256 (s : M128 × M128 × List M128) (rc : Byte) : M128 × M128 × List M128 :=
  let (t1, t3, ks) := s
  let t2 := keygenAssist t3 rc
  let t1 := assist256_1 t1 t2
  let ks := ks ++ [t1]
  let t3 := assist256_2 t1 t3
  (t1, t3, ks ++ [t3])

/-- Case 256 of `aesni_key_expansion`, src/aesni.c:176-214. -/
def expansion256 (key : Bytes) : List M128 :=
  let t1 := load key 0
  let t3 := load key 16
  let (t1, t3, ks) := [0x01, 0x02, 0x04, 0x08, 0x10, 0x20].foldl step256 (t1, t3, [t1, t3])
  let t2 := keygenAssist t3 0x40
  let t1 := assist256_1 t1 t2
  ks ++ [t1]

/-- `aesni_key_expansion`, src/aesni.c:95-218: the schedule and the number of rounds; `none` is
`abort()`. -/
def keyExpansion (key pad : Bytes) (keylength : Nat) : Option (List M128 × Nat) :=
  if keylength = 128 then some (expansion128 key, 10)
  else if keylength = 192 then some (expansion192 key pad, 12)
  else if keylength = 256 then some (expansion256 key, 14)
  else none

/-- Sixteen zero bytes: an array of `__m128i` before it is filled, src/aesni.c:99, 227-240. -/
def M128.zero : M128 := ⟨[0, 0, 0, 0], [0, 0, 0, 0], [0, 0, 0, 0], [0, 0, 0, 0]⟩

/-- The string `ckey`, src/stubs-aes.c:23-24, when AES-NI is used: 240 bytes for the key schedule,
one for the number of rounds. -/
structure CKey where
  sched : Bytes
  nr : Byte

/-- `caml_aes_cook_encrypt_key`, src/stubs-aes.c:26-43, with `aesniKeySetupEnc`,
src/aesni.c:227-240. `junk` is the contents of the 240 bytes before. -/
def cookEnc (junk key pad : Bytes) : Option CKey := do
  let (ks, nr) ← keyExpansion key pad (8 * key.length)
  let b := (List.range (nr + 1)).flatMap fun i => (ks.getD i M128.zero).bytes
  some ⟨b ++ junk.drop b.length, BitVec.ofNat 8 nr⟩

/-- `caml_aes_cook_decrypt_key`, src/stubs-aes.c:45-62, with `aesniKeySetupDec`,
src/aesni.c:242-258. -/
def cookDec (junk key pad : Bytes) : Option CKey := do
  let (ks, nr) ← keyExpansion key pad (8 * key.length)
  let b := (ks.getD nr M128.zero).bytes
    ++ ((List.range (nr - 1)).flatMap fun i => (aesimc (ks.getD (nr - (i + 1)) M128.zero)).bytes)
    ++ (ks.getD 0 M128.zero).bytes
  some ⟨b ++ junk.drop b.length, BitVec.ofNat 8 nr⟩

/-- The `do ... while (j < nrounds)` loops, src/aesni.c:271-275, 292-296, with at most `n` more
iterations: the values of `t` and `j` at the end. -/
def rounds (op : M128 → M128 → M128) (key : Bytes) (nrounds : Nat) : (n j : Nat) → M128 → M128 × Nat
  | 0, j, t => (t, j)
  | n + 1, j, t =>
    let t := op t (load key (16 * j))
    let j := j + 1
    if j < nrounds then rounds op key nrounds n j t else (t, j)

/-- `aesniEncrypt` and `aesniDecrypt`, src/aesni.c:260-300. The last load is at index `nrounds`, or
2 if `nrounds < 2`; the result is `none` if it is outside of the key schedule. -/
def crypt (op opLast : M128 → M128 → M128) (key : Bytes) (nrounds : Nat) (inp : Bytes) :
    Option Bytes :=
  if key.length < 16 * (max 2 nrounds + 1) then none
  else
    let t := xor (load inp 0) (load key 0)
    let (t, j) := rounds op key nrounds nrounds 1 t
    some (opLast t (load key (16 * j))).bytes

/-- `wipe`, src/cryptokit.ml:512-514, 530-532. -/
def wipeKey (k : CKey) : CKey := ⟨k.sched.map fun _ => 0, 16⟩

/-- Class `aes_encrypt`, src/cryptokit.ml:499-515, on a processor with AES-NI. -/
def encCipher : BlockCipher CKey :=
  checkedCipher 16 (fun k => crypt aesenc aesenclast k.sched k.nr.toNat) (fun _ => []) wipeKey

/-- Class `aes_decrypt`, src/cryptokit.ml:517-533, on a processor with AES-NI. -/
def decCipher : BlockCipher CKey :=
  checkedCipher 16 (fun k => crypt aesdec aesdeclast k.sched k.nr.toNat) (fun _ => []) wipeKey

/-- `new aes_encrypt key`, src/cryptokit.ml:499-505; the outer option is `none` for `abort()`. -/
def encNew (junk key pad : Bytes) : Option (Except Exn CKey) :=
  if key.length = 16 ∨ key.length = 24 ∨ key.length = 32 then
    (cookEnc junk key pad).map Except.ok
  else some (.error (.error .wrongKeySize))

/-- `new aes_decrypt key`, src/cryptokit.ml:517-523. -/
def decNew (junk key pad : Bytes) : Option (Except Exn CKey) :=
  if key.length = 16 ∨ key.length = 24 ∨ key.length = 32 then
    (cookDec junk key pad).map Except.ok
  else some (.error (.error .wrongKeySize))

end Verif.Aesni
