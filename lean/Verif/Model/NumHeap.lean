import Verif.Model.Pubkey
import Verif.Model.Transform
/-
The public-key functions again, with numbers and strings that live in memory.

In src/cryptokitBignum.ml and src/cryptokit.ml numbers are objects of the Zarith library that are
erased in place (`Bn.wipe`), and Zarith may return one of its arguments instead of a new object
when the result is equal to it (for example `Z.rem a p` may be `a` itself when `a < p`; the comment
at src/cryptokitBignum.ml:62-64 is about this). Model/Bignum.lean and Model/Pubkey.lean compute with
numbers; here the same functions compute with references to numbers, with the erasures that the code
does and with every possible sharing.

Simplifications. Every number has a place in the heap, including those that fit in an OCaml integer:
these cannot be erased (`zWipe`), so it does not matter whether they are shared. The temporary
numbers that the generators of random numbers leave behind are not put in the heap.
-/
namespace Verif

/-- The memory: numbers, strings, and the number of operations done so far, which lets the sharing
be different at each operation. For src/cryptokitBignum.ml:16-120. -/
structure NumHeap where
  nums : List Int
  strs : List Bytes
  tick : Nat

/-- The sharing decided by Zarith: at the `n`-th operation return, if possible, argument number
`share n`. For src/cryptokitBignum.ml:26-68. -/
abbrev Sharing := Nat → Nat

/-- Reading a number. For src/cryptokitBignum.ml:26-68. -/
def numGet (r : Nat) : M NumHeap Int := fun h =>
  match h.nums[r]? with
  | some v => .ok v h
  | none => .ub

/-- A new number: the result of `Z.of_bits` and `Z.powm_sec`, which are always new objects.
For src/cryptokitBignum.ml:39, 76. -/
def numNew (v : Int) : M NumHeap Nat := fun h =>
  .ok h.nums.length { h with nums := h.nums ++ [v] }

/-- The result `v` of an operation of Zarith on `args`: one of the arguments, if it has the value
`v`, or a new object. For src/cryptokitBignum.ml:26-34, 68. -/
def numResult (share : Sharing) (args : List Nat) (v : Int) : M NumHeap Nat := fun h =>
  let h1 := { h with tick := h.tick + 1 }
  match args[share h.tick]? with
  | some r => if h.nums[r]? = some v then .ok r h1 else numNew v h1
  | none => numNew v h1

/-- `Bn.wipe`, src/cryptokitBignum.ml:18 and `caml_wipe_z`, src/stubs-misc.c:50-56. -/
def numWipe (r : Nat) : M NumHeap Unit := fun h =>
  match h.nums[r]? with
  | some v => .ok () { h with nums := h.nums.set r (zWipe v) }
  | none => .ub

/-- A new string. For src/cryptokitBignum.ml:87. -/
def strNew (s : Bytes) : M NumHeap Nat := fun h =>
  .ok h.strs.length { h with strs := h.strs ++ [s] }

/-- `wipe_string`, src/cryptokit.ml:31-32, on a string of the heap. -/
def strWipe (r : Nat) : M NumHeap Unit := fun h =>
  match h.strs[r]? with
  | some s => .ok () { h with strs := h.strs.set r (wipeBytes s) }
  | none => .ub

/-! ### Zarith and src/cryptokitBignum.ml -/

/-- `Z.add`, src/cryptokitBignum.ml:27. -/
def numAdd (share : Sharing) (a b : Nat) : M NumHeap Nat := do
  let x ← numGet a
  let y ← numGet b
  numResult share [a, b] (x + y)

/-- `Z.sub`, src/cryptokitBignum.ml:28. -/
def numSub (share : Sharing) (a b : Nat) : M NumHeap Nat := do
  let x ← numGet a
  let y ← numGet b
  numResult share [a, b] (x - y)

/-- `Z.mul`, src/cryptokitBignum.ml:29. -/
def numMul (share : Sharing) (a b : Nat) : M NumHeap Nat := do
  let x ← numGet a
  let y ← numGet b
  numResult share [a, b] (x * y)

/-- `Z.div`, src/cryptokitBignum.ml:31. -/
def numDiv (share : Sharing) (a b : Nat) : M NumHeap Nat := do
  let x ← numGet a
  let y ← numGet b
  let v ← ofExcept (zDiv x y)
  numResult share [a, b] v

/-- `Z.rem`, src/cryptokitBignum.ml:32. -/
def numRem (share : Sharing) (a b : Nat) : M NumHeap Nat := do
  let x ← numGet a
  let y ← numGet b
  let v ← ofExcept (zRem x y)
  numResult share [a, b] v

/-- `Z.lcm`, src/cryptokitBignum.ml:34. -/
def numLcm (share : Sharing) (a b : Nat) : M NumHeap Nat := do
  let x ← numGet a
  let y ← numGet b
  numResult share [a, b] (Int.lcm x y)

/-- `Z.invert`, src/cryptokitBignum.ml:68. -/
def numInvert (share : Sharing) (a b : Nat) : M NumHeap Nat := do
  let x ← numGet a
  let y ← numGet b
  let v ← ofExcept (zInvert x y)
  numResult share [a, b] v

/-- `mod_power`, src/cryptokitBignum.ml:39: `Z.powm_sec` always returns a new object. -/
def numModPower (a x m : Nat) : M NumHeap Nat := do
  let va ← numGet a
  let vx ← numGet x
  let vm ← numGet m
  let v ← ofExcept (bnModPower va vx vm)
  numNew v

/-- `sub_mod`, src/cryptokitBignum.ml:41-43. -/
def numSubMod (share : Sharing) (a b p : Nat) : M NumHeap Nat := do
  let d ← numSub share a b
  let v ← numGet d
  if v < 0 then numAdd share d p else pure d

/-- `mod_power_CRT`, src/cryptokitBignum.ml:55-66. -/
def numModPowerCRT (share : Sharing) (a p q dp dq qinv : Nat) : M NumHeap Nat := do
  let amodp ← numRem share a p
  let amodq ← numRem share a q
  let mp ← numModPower amodp dp p
  let mq ← numModPower amodq dq q
  let diff ← numSubMod share mp mq p
  let diffQinv ← numMul share diff qinv
  let diffQinvModP ← numRem share diffQinv p
  let prod ← numMul share q diffQinvModP
  let res ← numAdd share prod mq
  numWipe amodp
  numWipe amodq
  pure res

/-- `of_bytes`, src/cryptokitBignum.ml:73-79. The copy of the string that it erases is not put in
the heap. -/
def numOfBytes (s : Bytes) : M NumHeap Nat := numNew (bnOfBytes s)

/-- `to_bytes`, src/cryptokitBignum.ml:81-92. The string `Z.to_bits n` that it erases is not put in
the heap. -/
def numToBytes (e : BnEnv) (numbits : Option Int) (r : Nat) : M NumHeap Nat := do
  let v ← numGet r
  let s ← ofExcept (bnToBytes e numbits v)
  strNew s

/-! ### src/cryptokit.ml -/

/-- `RSA.encrypt`, src/cryptokit.ml:1983-1991. -/
def rsaEncryptH (e : BnEnv) (key : RsaPublic) (msg : Bytes) : M NumHeap Nat := do
  let m ← numOfBytes msg
  let n ← numOfBytes key.n
  let x ← numOfBytes key.e
  let vm ← numGet m
  let vn ← numGet n
  if vm ≥ vn then M.raise (.error .messageTooLong)
  else
    let r ← numModPower m x n
    let s ← numToBytes e (some key.size) r
    numWipe m
    numWipe n
    numWipe x
    numWipe r
    pure s

/-- `RSA.decrypt`, src/cryptokit.ml:1995-2003. -/
def rsaDecryptH (e : BnEnv) (key : RsaPrivate) (msg : Bytes) : M NumHeap Nat := do
  let m ← numOfBytes msg
  let n ← numOfBytes key.n
  let d ← numOfBytes key.d
  let vm ← numGet m
  let vn ← numGet n
  if vm ≥ vn then M.raise (.error .messageTooLong)
  else
    let r ← numModPower m d n
    let s ← numToBytes e (some key.size) r
    numWipe m
    numWipe n
    numWipe d
    numWipe r
    pure s

/-- `RSA.decrypt_CRT`, src/cryptokit.ml:2007-2020. -/
def rsaDecryptCRTH (e : BnEnv) (share : Sharing) (key : RsaPrivate) (msg : Bytes) :
    M NumHeap Nat := do
  let m ← numOfBytes msg
  let n ← numOfBytes key.n
  let p ← numOfBytes key.p
  let q ← numOfBytes key.q
  let dp ← numOfBytes key.dp
  let dq ← numOfBytes key.dq
  let qinv ← numOfBytes key.qinv
  let vm ← numGet m
  let vn ← numGet n
  if vm ≥ vn then M.raise (.error .messageTooLong)
  else
    let r ← numModPowerCRT share m p q dp dq qinv
    let s ← numToBytes e (some key.size) r
    numWipe m
    numWipe n
    numWipe p
    numWipe q
    numWipe dp
    numWipe dq
    numWipe qinv
    numWipe r
    pure s

/-- `RSA.private_key`, src/cryptokit.ml:1963-1972, as references to strings. -/
structure RsaPrivateH where
  size : Int
  n : Nat
  d : Nat
  p : Nat
  q : Nat
  dp : Nat
  dq : Nat
  qinv : Nat

/-- `RSA.public_key`, src/cryptokit.ml:1957-1961, as references to strings. -/
structure RsaPublicH where
  size : Int
  n : Nat
  e : Nat

/-- `RSA.wipe_key`, src/cryptokit.ml:1974-1981. -/
def rsaWipeKeyH (k : RsaPrivateH) : M NumHeap Unit := do
  strWipe k.n
  strWipe k.d
  strWipe k.p
  strWipe k.q
  strWipe k.dp
  strWipe k.dq
  strWipe k.qinv

/-- The computation of the key in `RSA.new_key`, src/cryptokit.ml:2046-2088, from the values of `p`,
`q` and the exponent, three distinct new objects. -/
def rsaBuildH (e : BnEnv) (share : Sharing) (numbits vp vq vx : Int) :
    M NumHeap (RsaPrivateH × RsaPublicH) := do
  let numbits2 := numbits.tdiv 2
  let p ← numNew vp
  let q ← numNew vq
  let one ← numNew 1
  let p1 ← numSub share p one
  let q1 ← numSub share q one
  let x ← numNew vx
  let n ← numMul share p q
  let phi ← numMul share p1 q1
  let d ← numInvert share x phi
  let dp ← numRem share d p1
  let dq ← numRem share d q1
  let qinv ← numInvert share q p
  let sn ← numToBytes e (some numbits) n
  let sd ← numToBytes e (some numbits) d
  let sp ← numToBytes e (some numbits2) p
  let sq ← numToBytes e (some numbits2) q
  let sdp ← numToBytes e (some numbits2) dp
  let sdq ← numToBytes e (some numbits2) dq
  let sqinv ← numToBytes e (some numbits2) qinv
  let pn ← numToBytes e (some numbits) n
  let pe ← numToBytes e (some numbits) x
  numWipe n
  numWipe x
  numWipe d
  numWipe p
  numWipe q
  numWipe p1
  numWipe q1
  numWipe dp
  numWipe dq
  numWipe qinv
  pure (⟨numbits, sn, sd, sp, sq, sdp, sdq, sqinv⟩, ⟨numbits, pn, pe⟩)

/-- `Paillier.private_key`, src/cryptokit.ml:2100-2108, as references to strings. -/
structure PaillierPrivateH where
  size : Int
  n : Nat
  n2 : Nat
  p : Nat
  q : Nat
  lambda : Nat
  mu : Nat

/-- `Paillier.public_key`, src/cryptokit.ml:2093-2098, as references to strings. -/
structure PaillierPublicH where
  size : Int
  n : Nat
  n2 : Nat
  g : Nat

/-- `Paillier.wipe_key`, src/cryptokit.ml:2110-2116. -/
def paillierWipeKeyH (k : PaillierPrivateH) : M NumHeap Unit := do
  strWipe k.n
  strWipe k.n2
  strWipe k.p
  strWipe k.q
  strWipe k.lambda
  strWipe k.mu

/-- `Paillier.decrypt`, src/cryptokit.ml:2128-2140. -/
def paillierDecryptH (e : BnEnv) (share : Sharing) (key : PaillierPrivate) (ct : Bytes) :
    M NumHeap Nat := do
  let c ← numOfBytes ct
  let n ← numOfBytes key.n
  let n2 ← numOfBytes key.n2
  let lambda ← numOfBytes key.lambda
  let mu ← numOfBytes key.mu
  let cn ← numModPower c lambda n2
  let one ← numNew 1
  let cn1 ← numSub share cn one
  let lx ← numDiv share cn1 n
  let lxmu ← numMul share lx mu
  let m ← numRem share lxmu n
  let s ← numToBytes e none m
  numWipe c
  numWipe n
  numWipe n2
  numWipe lambda
  numWipe mu
  numWipe cn
  numWipe lx
  numWipe m
  pure s

/-- The computation of the key in `Paillier.new_key`, src/cryptokit.ml:2160-2184, from the values of
`p` and `q`. -/
def paillierBuildH (e : BnEnv) (share : Sharing) (numbits vp vq : Int) :
    M NumHeap (PaillierPrivateH × PaillierPublicH) := do
  let numbits2 := numbits.tdiv 2
  let p ← numNew vp
  let q ← numNew vq
  let one ← numNew 1
  let p1 ← numSub share p one
  let q1 ← numSub share q one
  let n ← numMul share p q
  let n2 ← numMul share n n
  let g ← numAdd share n one
  let lambda ← numLcm share p1 q1
  let mu ← numInvert share lambda n
  let sn ← numToBytes e (some numbits) n
  let sn2 ← numToBytes e none n2
  let sp ← numToBytes e (some numbits2) p
  let sq ← numToBytes e (some numbits2) q
  let sl ← numToBytes e none lambda
  let smu ← numToBytes e none mu
  let pn ← numToBytes e (some numbits) n
  let pn2 ← numToBytes e none n2
  let pg ← numToBytes e none g
  numWipe n
  numWipe n2
  numWipe g
  numWipe p
  numWipe q
  numWipe p1
  numWipe q1
  numWipe lambda
  numWipe mu
  pure (⟨numbits, sn, sn2, sp, sq, sl, smu⟩, ⟨numbits, pn, pn2, pg⟩)

/-- `DH.message`, src/cryptokit.ml:2212-2214, on a private secret of the heap. -/
def dhMessageH (e : BnEnv) (params : DhParams) (privsec : Nat) : M NumHeap Nat := do
  let g ← numOfBytes params.g
  let p ← numOfBytes params.p
  let r ← numModPower g privsec p
  numToBytes e (some (params.p.length * 8)) r

/-- `DH.shared_secret`, src/cryptokit.ml:2216-2220, on a private secret of the heap. -/
def dhSharedSecretH (e : BnEnv) (params : DhParams) (privsec : Nat) (othermsg : Bytes) :
    M NumHeap Nat := do
  let o ← numOfBytes othermsg
  let p ← numOfBytes params.p
  let r ← numModPower o privsec p
  let s ← numToBytes e (some (params.p.length * 8)) r
  numWipe privsec
  pure s

end Verif
