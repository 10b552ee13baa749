import Verif.Model.Hash
/-
SHA-3 and Keccak: src/keccak.c, src/stubs-sha3.c.
-/
namespace Verif

/-- `keccakf_rndc`, src/keccak.c:14-24. -/
def keccakRndc : List W64 :=
  [0x0000000000000001, 0x0000000000008082, 0x800000000000808a,
   0x8000000080008000, 0x000000000000808b, 0x0000000080000001,
   0x8000000080008081, 0x8000000000008009, 0x000000000000008a,
   0x0000000000000088, 0x0000000080008009, 0x000000008000000a,
   0x000000008000808b, 0x800000000000008b, 0x8000000000008089,
   0x8000000000008003, 0x8000000000008002, 0x8000000000000080,
   0x000000000000800a, 0x800000008000000a, 0x8000000080008081,
   0x8000000000008080, 0x0000000080000001, 0x8000000080008008]

/-- `st[i]`. src/keccak.c:40-100. -/
def lane (st : List W64) (i : Nat) : W64 := st.getD i 0

/-- `st[i] ^= t`. src/keccak.c:40-100. -/
def xorAt (st : List W64) (i : Nat) (t : W64) : List W64 := st.set i (lane st i ^^^ t)

/-- `THETA1`, src/keccak.c:51-54. -/
def keccakTheta1 (st : List W64) : List W64 :=
  [0, 1, 2, 3, 4].map fun i =>
    lane st i ^^^ lane st (i + 5) ^^^ lane st (i + 10) ^^^ lane st (i + 15) ^^^ lane st (i + 20)

/-- `THETA2(i)`, src/keccak.c:56-62. -/
def keccakTheta2 (bc st : List W64) (i : Nat) : List W64 :=
  let t := lane bc ((i + 4) % 5) ^^^ rol64 (lane bc ((i + 1) % 5)) 1
  let st := xorAt st (0 + i) t
  let st := xorAt st (5 + i) t
  let st := xorAt st (10 + i) t
  let st := xorAt st (15 + i) t
  xorAt st (20 + i) t

/-- src/keccak.c:49-64. -/
def keccakTheta (st : List W64) : List W64 :=
  let bc := keccakTheta1 st
  [0, 1, 2, 3, 4].foldl (keccakTheta2 bc) st

/-- The arguments `rotc`, `piln` of the calls to `RHOPI`, src/keccak.c:75-80. -/
def keccakRhoPiArgs : List (Nat × Nat) :=
  [(1, 10), (3, 7), (6, 11), (10, 17), (15, 18), (21, 3), (28, 5), (36, 16), (45, 8), (55, 21),
   (2, 24), (14, 4), (27, 15), (41, 23), (56, 19), (8, 13), (25, 12), (43, 2), (62, 20), (18, 14),
   (39, 22), (61, 9), (20, 6), (44, 1)]

/-- `RHOPI`, src/keccak.c:69-72: `(st, t)` before and after. -/
def keccakRhoPiStep (p : List W64 × W64) (a : Nat × Nat) : List W64 × W64 :=
  let bc0 := lane p.1 a.2
  (p.1.set a.2 (rol64 p.2 a.1), bc0)

/-- src/keccak.c:67-80. -/
def keccakRhoPi (st : List W64) : List W64 :=
  (keccakRhoPiArgs.foldl keccakRhoPiStep (st, lane st 1)).1

/-- The loop body for `j`, src/keccak.c:89-92. -/
def keccakChiRow (st : List W64) (j : Nat) : List W64 :=
  let bc := [0, 1, 2, 3, 4].map fun i => lane st (j + i)
  [0, 1, 2, 3, 4].foldl
    (fun st i => xorAt st (j + i) (~~~ lane bc ((i + 1) % 5) &&& lane bc ((i + 2) % 5))) st

/-- src/keccak.c:84-92. -/
def keccakChi (st : List W64) : List W64 := [0, 5, 10, 15, 20].foldl keccakChiRow st

/-- One round, src/keccak.c:48-96. -/
def keccakRound (st : List W64) (rc : W64) : List W64 :=
  xorAt (keccakChi (keccakRhoPi (keccakTheta st))) 0 rc

/-- `KeccakPermutation`, src/keccak.c:43-97. -/
def keccakPermutation (st : List W64) : List W64 := keccakRndc.foldl keccakRound st

/-- The two 32-bit halves are assembled from four bytes each, src/keccak.c:108-110. (The C code
shifts bytes promoted to `int`; `p[3] << 24` is taken to give the usual bit pattern.) -/
def keccakLoad (p : Bytes) : W64 :=
  let l := le32or p
  let h := le32or (p.drop 4)
  l.setWidth 64 ||| (h.setWidth 64 <<< 32)

/-- `KeccakAbsorb`, src/keccak.c:101-113, for a block of `rsiz` bytes (`rsiz` a multiple of 8). -/
def keccakAbsorb (st : List W64) (block : Bytes) : List W64 :=
  keccakPermutation
    ((List.range (block.length / 8)).foldl (fun st i => xorAt st i (keccakLoad (block.drop (8 * i)))) st)

/-- `struct SHA3Context`, src/keccak.h. Simplification: the buffer is given `rsiz` bytes instead of
144, so that any access beyond the first `rsiz` bytes counts as out of bounds. src/keccak.h:5-11. -/
structure Sha3Ctx where
  buf : MDBuf (List W64)
  rsiz : Nat
  hsiz : Nat
  deriving DecidableEq

/-- `SHA3_init`, src/keccak.c:117-124. -/
def sha3InitC (sz : Nat) (buf0 : Bytes) : Sha3Ctx :=
  ⟨⟨List.replicate 25 0, 0, buf0⟩, 200 - 2 * (sz / 8), sz / 8⟩

/-- `SHA3_absorb`, src/keccak.c:126-154. -/
def sha3Absorb (c : Sha3Ctx) (data : Bytes) : Option Sha3Ctx :=
  (mdAdd c.rsiz false keccakAbsorb c.buf data).map fun b => { c with buf := b }

/-- The output loop, src/keccak.c:173-184; `rem` is `hsiz - j`. -/
def sha3Output : Nat → List W64 → Bytes
  | _, [] => []
  | rem, st :: rest =>
    if rem = 0 then []
    else
      [st.setWidth 8, (st >>> 8).setWidth 8, (st >>> 16).setWidth 8, (st >>> 24).setWidth 8] ++
      (if rem ≤ 4 then []
       else [(st >>> 32).setWidth 8, (st >>> 40).setWidth 8, (st >>> 48).setWidth 8,
          (st >>> 56).setWidth 8] ++ sha3Output (rem - 8) rest)

/-- `SHA3_extract`, src/keccak.c:156-185. -/
def sha3Extract (padding : Byte) (c : Sha3Ctx) : Option (Bytes × Sha3Ctx) := do
  let b ← cWrite c.buf.buffer c.buf.numbytes [padding]
  let n := c.buf.numbytes + 1
  let b ← cWrite b n (List.replicate (c.rsiz - n) 0)
  let last ← cRead b (c.rsiz - 1) 1
  let b ← cWrite b (c.rsiz - 1) (last.map (· ||| 0x80))
  let st := keccakAbsorb c.buf.h b
  let out := sha3Output c.hsiz st
  if out.length = c.hsiz then
    pure (out, { c with buf := { c.buf with h := st, buffer := b } })
  else none

/-- Class `sha3 sz official`, src/cryptokit.ml:1194-1214, and src/stubs-sha3.c. The context is
freed by `wipe` (`none`); using it afterwards dereferences a null pointer. -/
def sha3Class (sz : Nat) (official : Bool) : HashObj (Option Sha3Ctx) :=
  stubHash (sz / 8)
    (fun c d => c.bind fun c => (sha3Absorb c d).map some)
    (fun c => c.bind fun c =>
      (sha3Extract (if official then 0x06 else 0x01) c).map fun (r, c) => (r, some c))
    (fun _ => none)

/-- `new sha3 sz official`, src/cryptokit.ml:1196-1199: the initial context. -/
def sha3New (sz : Int) (buf0 : Bytes) : Except Exn (Option Sha3Ctx) :=
  if sz = 224 ∨ sz = 256 ∨ sz = 384 ∨ sz = 512 then .ok (some (sha3InitC sz.toNat buf0))
  else .error (.error .wrongKeySize)

end Verif
