import Verif.Model.Cipher
import Verif.Spec.Modes
import Verif.Spec.Padding
import Verif.Spec.History
/-
What `Cipher.aes`, `Cipher.des`, ... must compute: a chaining mode of NIST SP 800-38A over a block
function, with an optional padding.
-/
namespace Verif.Spec

open Cipher (Mode)

/-- The IV argument matters and is acceptable, or does not matter (ECB). -/
def ModeIVOk (n : Nat) (mode : Mode) (iv : Option Bytes) : Prop := mode = .ECB ∨ IVOk n iv

/-- Parameters of modes over blocks of `n` bytes: segments and counters from 1 to `n` bytes. -/
def ModeOk (n : Nat) : Mode → Prop
  | .CFB k | .OFB k | .CTR_N k => 0 < k ∧ k ≤ n
  | _ => True

/-- The size of the units of data that the mode processes. -/
def unitOf (n : Nat) : Mode → Nat
  | .CFB k | .OFB k => k.toNat
  | _ => n

/-- Encryption of a list of units. -/
def modeEnc (E : Bytes → Bytes) (n : Nat) (iv : Bytes) : Mode → List Bytes → List Bytes
  | .ECB => List.map E
  | .CBC => cbcEnc E iv
  | .CFB k => cfbEnc E k.toNat iv
  | .OFB k => ofb E k.toNat iv
  | .CTR => ctr E n iv
  | .CTR_N k => ctr E k.toNat iv

/-- Decryption of a list of units: `D` is the inverse block function. -/
def modeDec (E D : Bytes → Bytes) (n : Nat) (iv : Bytes) : Mode → List Bytes → List Bytes
  | .ECB => List.map D
  | .CBC => cbcDec D iv
  | .CFB k => cfbDec E k.toNat iv
  | .OFB k => ofb E k.toNat iv
  | .CTR => ctr E n iv
  | .CTR_N k => ctr E k.toNat iv

/-- The number of blocks that counter mode accepts: fewer than 256^k for a counter of `k < 8`
bytes, fewer than 2^64 otherwise. The other modes accept any number of blocks. -/
def UnitsOk (n : Nat) (mode : Mode) (count : Nat) : Prop :=
  match mode with
  | .CTR => count < if n < 8 then 256 ^ n else 2 ^ 64
  | .CTR_N k => count < if k.toNat < 8 then 256 ^ k.toNat else 2 ^ 64
  | _ => True

/-- A padding argument, with the padding function it denotes over units of `n` bytes. -/
inductive PadOk (n : Nat) : Option PadScheme → (Bytes → Bytes) → Prop
  | none : PadOk n none id
  | length : n < 256 → PadOk n (some Padding.length) (padMessage n (padLength n))
  | _8000 : PadOk n (some Padding._8000) (padMessage n (pad8000 n))

end Verif.Spec

namespace Verif.Spec

open Cipher (Mode AnyTransform)

/-- All the output that a transform object shows on the history of calls `ops`, followed by
`finish` and `get_string`. -/
def _root_.Verif.Cipher.AnyTransform.run (t : AnyTransform) (ops : List TOp) :
    Option (Except Exn Bytes) := (t.T.total ops t.t).observe

/-- What `transform_string` shows on a string. -/
def _root_.Verif.Cipher.AnyTransform.string (t : AnyTransform) (m : Bytes) :
    Option (Except Exn Bytes) := (transformString t.T m t.t).observe

/-- The object `tE` maps each acceptable message `m` to `ct m` and the object `tD` maps `ct m` back
to `m`, however the calls are made on either side, and with `transform_string`. -/
structure Enciphers (tE tD : AnyTransform) (ok : Bytes → Prop) (ct : Bytes → Bytes) : Prop where
  encrypt : ∀ ops : List TOp, (∀ op ∈ ops, op.Legal) → ok (inputOf ops) →
    tE.run ops = some (.ok (ct (inputOf ops)))
  decrypt : ∀ (ops : List TOp) (m : Bytes), (∀ op ∈ ops, op.Legal) → ok m → inputOf ops = ct m →
    tD.run ops = some (.ok m)
  encrypt_string : ∀ m, ok m → tE.string m = some (.ok (ct m))
  decrypt_string : ∀ m, ok m → tD.string (ct m) = some (.ok m)

/-- The messages acceptable to a block cipher with blocks of `n` bytes, chaining mode `mode` and
padding argument `pad` (with padding function `padf`), when strings have at most `maxLen` bytes:
without padding, whole units; in counter mode, fewer blocks than the limit; and the output fits in
a string. -/
structure MessageOk (maxLen n : Nat) (mode : Mode) (pad : Option PadScheme)
    (padf : Bytes → Bytes) (m : Bytes) : Prop where
  whole : pad = none → unitOf n mode ∣ m.length
  count : UnitsOk n mode ((padf m).length / unitOf n mode)
  fits : (padf m).length ≤ maxLen
  room : max 256 (2 * unitOf n mode) ≤ maxLen

/-- The ciphertext. -/
def cipherText (E : Bytes → Bytes) (n : Nat) (mode : Mode) (padf : Bytes → Bytes)
    (iv : Option Bytes) (m : Bytes) : Bytes :=
  (modeEnc E n (ivOf n iv) mode (chunks (unitOf n mode) (padf m))).flatten

end Verif.Spec
