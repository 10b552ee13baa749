import Verif.Model.Bignum
import Verif.Model.SHA
/-
RSA, Paillier and Diffie-Hellman, src/cryptokit.ml:1955-2236.
-/
namespace Verif

/-! ### RSA, src/cryptokit.ml:1955-2089 -/

/-- `RSA.public_key`, src/cryptokit.ml:1957-1961. -/
structure RsaPublic where
  size : Int
  n : Bytes
  e : Bytes
  deriving DecidableEq

/-- `RSA.private_key`, src/cryptokit.ml:1963-1972. -/
structure RsaPrivate where
  size : Int
  n : Bytes
  d : Bytes
  p : Bytes
  q : Bytes
  dp : Bytes
  dq : Bytes
  qinv : Bytes
  deriving DecidableEq

/-- `RSA.encrypt`, src/cryptokit.ml:1983-1991, and `RSA.unwrap_signature`, 1993. -/
def rsaEncrypt (e : BnEnv) (key : RsaPublic) (msg : Bytes) : Except Exn Bytes := do
  let m := bnOfBytes msg
  let n := bnOfBytes key.n
  let x := bnOfBytes key.e
  if m ≥ n then throw (.error .messageTooLong)
  else
    let r ← bnModPower m x n
    bnToBytes e (some key.size) r

/-- `RSA.decrypt`, src/cryptokit.ml:1995-2003, and `RSA.sign`, 2005. -/
def rsaDecrypt (e : BnEnv) (key : RsaPrivate) (msg : Bytes) : Except Exn Bytes := do
  let m := bnOfBytes msg
  let n := bnOfBytes key.n
  let d := bnOfBytes key.d
  if m ≥ n then throw (.error .messageTooLong)
  else
    let r ← bnModPower m d n
    bnToBytes e (some key.size) r

/-- `RSA.decrypt_CRT`, src/cryptokit.ml:2007-2020, and `RSA.sign_CRT`, 2022. -/
def rsaDecryptCRT (e : BnEnv) (key : RsaPrivate) (msg : Bytes) : Except Exn Bytes := do
  let m := bnOfBytes msg
  let n := bnOfBytes key.n
  let p := bnOfBytes key.p
  let q := bnOfBytes key.q
  let dp := bnOfBytes key.dp
  let dq := bnOfBytes key.dq
  let qinv := bnOfBytes key.qinv
  if m ≥ n then throw (.error .messageTooLong)
  else
    let r ← bnModPowerCRT m p q dp dq qinv
    bnToBytes e (some key.size) r

/-- `gen_factor`, src/cryptokit.ml:2030-2037. -/
def rsaGenFactor (e : BnEnv) (rng : RandomBytes σ) (fuel : Nat) (x : Option Int) (nbits : Int) :
    M σ Int :=
  retry fuel do
    let n ← bnRandomPrime e rng fuel nbits
    pure (match x with
      | none => some n
      | some x => if bnRelativePrime (n - 1) x then some n else none)

/-- `gen_factors`, src/cryptokit.ml:2039-2044. -/
def rsaGenFactors (e : BnEnv) (rng : RandomBytes σ) (fuel : Nat) (x : Option Int) (nbits : Int) :
    M σ (Int × Int) :=
  retry fuel do
    let p ← rsaGenFactor e rng fuel x nbits
    let q ← rsaGenFactor e rng fuel x nbits
    pure (if p = q then none else if p < q then some (q, p) else some (p, q))

/-- `gen_exponent`, src/cryptokit.ml:2054-2059. -/
def rsaGenExponent (rng : RandomBytes σ) (fuel : Nat) (numbits p1 q1 : Int) : M σ Int :=
  retry fuel do
    let n ← bnRandom rng false numbits
    pure (if bnRelativePrime n p1 && bnRelativePrime n q1 then some n else none)

/-- The computation of the key from `p`, `q` and the exponent, src/cryptokit.ml:2060-2088. -/
def rsaBuild (e : BnEnv) (numbits p q x : Int) : Except Exn (RsaPrivate × RsaPublic) := do
  let numbits2 := numbits.tdiv 2
  let p1 := p - 1
  let q1 := q - 1
  let n := p * q
  let d ← zInvert x (p1 * q1)
  let dp ← zRem d p1
  let dq ← zRem d q1
  let qinv ← zInvert q p
  let bn ← bnToBytes e (some numbits) n
  let bd ← bnToBytes e (some numbits) d
  let bp ← bnToBytes e (some numbits2) p
  let bq ← bnToBytes e (some numbits2) q
  let bdp ← bnToBytes e (some numbits2) dp
  let bdq ← bnToBytes e (some numbits2) dq
  let bqinv ← bnToBytes e (some numbits2) qinv
  let be ← bnToBytes e (some numbits) x
  pure (⟨numbits, bn, bd, bp, bq, bdp, bdq, bqinv⟩, ⟨numbits, bn, be⟩)

/-- `RSA.new_key`, src/cryptokit.ml:2024-2088. Each loop that waits for suitable random numbers
is run at most `fuel` times. -/
def rsaNewKey (e : BnEnv) (rng : RandomBytes σ) (fuel : Nat) (x : Option Int) (numbits : Int) :
    M σ (RsaPrivate × RsaPublic) := do
  if numbits < 32 ∨ numbits % 2 > 0 then M.raise (.error .wrongKeySize)
  else
    let pq ← rsaGenFactors e rng fuel x (numbits.tdiv 2)
    let x ← (match x with
      | some x => pure x
      | none => rsaGenExponent rng fuel numbits (pq.1 - 1) (pq.2 - 1))
    ofExcept (rsaBuild e numbits pq.1 pq.2 x)

/-! ### Paillier, src/cryptokit.ml:2091-2186 -/

/-- `Paillier.public_key`, src/cryptokit.ml:2093-2098. -/
structure PaillierPublic where
  size : Int
  n : Bytes
  n2 : Bytes
  g : Bytes
  deriving DecidableEq

/-- `Paillier.private_key`, src/cryptokit.ml:2100-2108. -/
structure PaillierPrivate where
  size : Int
  n : Bytes
  n2 : Bytes
  p : Bytes
  q : Bytes
  lambda : Bytes
  mu : Bytes
  deriving DecidableEq

/-- `get_r`, src/cryptokit.ml:2119-2121. The comparison `<` is the polymorphic one, which on
numbers of type `Z.t` is the numerical order. -/
def paillierGetR (e : BnEnv) (rng : RandomBytes σ) (fuel : Nat) (key : PaillierPublic) :
    M σ Bytes := do
  let r ← retry fuel do
    let r ← bnRandom rng false (key.size - 1)
    pure (if bnRelativePrime r (bnOfBytes key.n) && decide (r < bnOfBytes key.n) then some r else none)
  ofExcept (bnToBytes e none r)

/-- The part of `Paillier.encrypt` after the choice of `r`, src/cryptokit.ml:2123-2126. -/
def paillierEncryptWith (e : BnEnv) (key : PaillierPublic) (r msg : Bytes) : Except Exn Bytes := do
  let gm ← modPower e key.g msg key.n2
  let rn ← modPower e r key.n key.n2
  modMult e gm rn key.n2

/-- `Paillier.encrypt`, src/cryptokit.ml:2118-2126. -/
def paillierEncrypt (e : BnEnv) (rng : RandomBytes σ) (fuel : Nat) (key : PaillierPublic)
    (msg : Bytes) : M σ Bytes := do
  let r ← paillierGetR e rng fuel key
  ofExcept (paillierEncryptWith e key r msg)

/-- `Paillier.decrypt`, src/cryptokit.ml:2128-2140. -/
def paillierDecrypt (e : BnEnv) (key : PaillierPrivate) (c : Bytes) : Except Exn Bytes := do
  let c := bnOfBytes c
  let n := bnOfBytes key.n
  let n2 := bnOfBytes key.n2
  let lambda := bnOfBytes key.lambda
  let mu := bnOfBytes key.mu
  let cn ← bnModPower c lambda n2
  let lx ← zDiv (cn - 1) n
  let m ← zRem (lx * mu) n
  bnToBytes e none m

/-- `Paillier.add`, src/cryptokit.ml:2142-2143. -/
def paillierAdd (e : BnEnv) (key : PaillierPublic) (c1 c2 : Bytes) : Except Exn Bytes :=
  modMult e c1 c2 key.n2

/-- `gen_factors`, src/cryptokit.ml:2149-2158. -/
def paillierGenFactors (e : BnEnv) (rng : RandomBytes σ) (fuel : Nat) (nbits : Int) :
    M σ (Int × Int) :=
  retry fuel do
    let p ← bnRandomPrime e rng fuel nbits
    let q ← bnRandomPrime e rng fuel nbits
    pure (if p = q then none
      else if bnRelativePrime (p * q) ((p - 1) * (q - 1)) then some (p, q) else none)

/-- The computation of the key from `p` and `q`, src/cryptokit.ml:2160-2184. -/
def paillierBuild (e : BnEnv) (numbits p q : Int) : Except Exn (PaillierPrivate × PaillierPublic) := do
  let numbits2 := numbits.tdiv 2
  let n := p * q
  let n2 := n * n
  let g := n + 1
  let lambda : Int := Int.lcm (p - 1) (q - 1)
  let mu ← zInvert lambda n
  let bn ← bnToBytes e (some numbits) n
  let bn2 ← bnToBytes e none n2
  let bp ← bnToBytes e (some numbits2) p
  let bq ← bnToBytes e (some numbits2) q
  let bl ← bnToBytes e none lambda
  let bmu ← bnToBytes e none mu
  let bg ← bnToBytes e none g
  pure (⟨numbits, bn, bn2, bp, bq, bl, bmu⟩, ⟨numbits, bn, bn2, bg⟩)

/-- `Paillier.new_key`, src/cryptokit.ml:2145-2184. -/
def paillierNewKey (e : BnEnv) (rng : RandomBytes σ) (fuel : Nat) (numbits : Int) :
    M σ (PaillierPrivate × PaillierPublic) := do
  if numbits < 32 ∨ numbits % 2 > 0 then M.raise (.error .wrongKeySize)
  else
    let pq ← paillierGenFactors e rng fuel (numbits.tdiv 2)
    ofExcept (paillierBuild e numbits pq.1 pq.2)

/-! ### Diffie-Hellman, src/cryptokit.ml:2189-2236 -/

/-- `DH.parameters`, src/cryptokit.ml:2191-2194. -/
structure DhParams where
  p : Bytes
  g : Bytes
  privlen : Int
  deriving DecidableEq

/-- `DH.new_parameters`, src/cryptokit.ml:2196-2205. -/
def dhNewParameters (e : BnEnv) (rng : RandomBytes σ) (fuel : Nat) (privlen numbits : Int) :
    M σ DhParams := do
  if numbits < 32 ∨ numbits ≤ privlen then M.raise (.error .wrongKeySize)
  else
    let np ← bnRandomPrime e rng fuel numbits
    let ng ← retry fuel (do
      let g ← bnRandom rng false (numbits - 1)
      pure (if g ≤ 1 then none else some g))
    let p ← ofExcept (bnToBytes e (some numbits) np)
    let g ← ofExcept (bnToBytes e (some numbits) ng)
    pure ⟨p, g, privlen⟩

/-- `DH.private_secret`, src/cryptokit.ml:2209-2210. -/
def dhPrivateSecret (rng : RandomBytes σ) (params : DhParams) : M σ Int :=
  bnRandom rng false params.privlen

/-- `DH.message`, src/cryptokit.ml:2212-2214. -/
def dhMessage (e : BnEnv) (params : DhParams) (privsec : Int) : Except Exn Bytes := do
  bnToBytes e (some (params.p.length * 8))
    (← bnModPower (bnOfBytes params.g) privsec (bnOfBytes params.p))

/-- `caml_wipe_z`, src/stubs-misc.c:51-57: numbers that fit in an OCaml integer (63 bits on 64-bit
platforms) are left as they are, others become 0. -/
def zWipe (n : Int) : Int := if -2 ^ 62 ≤ n ∧ n < 2 ^ 62 then n else 0

/-- `DH.shared_secret`, src/cryptokit.ml:2216-2220: the secret and what remains of `privsec`. -/
def dhSharedSecret (e : BnEnv) (params : DhParams) (privsec : Int) (othermsg : Bytes) :
    Except Exn (Bytes × Int) := do
  let res ← bnToBytes e (some (params.p.length * 8))
    (← bnModPower (bnOfBytes othermsg) privsec (bnOfBytes params.p))
  pure (res, zWipe privsec)

/-- `string_of_int` on natural numbers (OCaml standard library): decimal notation.
Used at src/cryptokit.ml:2228. -/
def stringOfNat (n : Nat) : Bytes := (Nat.toDigits 10 n).map fun c => BitVec.ofNat 8 c.toNat

/-- The function `derive` of `DH.derive_key`, src/cryptokit.ml:2224-2233. `buf0` is the initial
contents of the buffers of the hash contexts. -/
def dhDerive (buf0 diversification sharedsec : Bytes) (numbytes : Nat) :
    Nat → Nat → Nat → Bytes → M Unit Bytes
  | 0, _, _, _ => M.diverge
  | fuel + 1, pos, counter, result =>
    if pos < numbytes then
      match hashString sha256 (diversification ++ sharedsec ++ stringOfNat counter)
          (sha256Init buf0) with
      | .ok h _ => do
        let result ← M.orRaise .invalidArg
          (bytesBlit h 0 result pos (min h.length (numbytes - pos : Nat)))
        dhDerive buf0 diversification sharedsec numbytes fuel (pos + h.length) (counter + 1) result
      | .exn e _ => M.raise e
      | .ub => M.undef
      | .loop => M.diverge
    else pure result

/-- `DH.derive_key`, src/cryptokit.ml:2222-2235; `fuel` bounds the number of hashes, as
`dhDerive` needs. -/
def dhDeriveKey (env : Env) (buf0 diversification sharedsec : Bytes) (numbytes : Int) :
    M Unit Bytes :=
  if numbytes < 0 ∨ numbytes > env.maxLen then M.raise .invalidArg
  else dhDerive buf0 diversification sharedsec numbytes.toNat (numbytes.toNat + 1) 0 1
    (env.create numbytes.toNat)

end Verif
