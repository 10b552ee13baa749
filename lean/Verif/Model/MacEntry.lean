import Verif.Model.Cipher
import Verif.Model.Mac
import Verif.Model.SHA
/-
The functions of module `MAC` based on block ciphers, src/cryptokit.ml:1472-1503, `Hash.sha2`,
1186-1192, and `AEAD.aes_gcm`, 1718-1721.
-/
namespace Verif

/-- A hash object (type `hash`), with its state. src/cryptokit.ml:230-239. -/
structure AnyHash where
  {τ : Type}
  H : HashObj τ
  t : τ

/-- `Hash.sha2 sz`, src/cryptokit.ml:1186-1192. `buf0` is the initial contents of the buffer of the
context. -/
def sha2New (sz : Int) (buf0 : Bytes) : Except Exn AnyHash :=
  if sz = 224 then .ok ⟨sha224, sha224Init buf0⟩
  else if sz = 256 then .ok ⟨sha256, sha256Init buf0⟩
  else if sz = 384 then .ok ⟨sha384, sha384Init buf0⟩
  else if sz = 512 then .ok ⟨sha512, sha512Init buf0⟩
  else .error (.error .wrongKeySize)

namespace MAC

open Cipher

/-- `new Block.mac ?iv ?pad (...)`: the cipher is created first. src/cryptokit.ml:1441-1490. -/
def ofBlock (env : Env) (iv : Option Bytes) (pad : Option PadScheme)
    (b : Option (Except Exn AnyBlock)) : Option (Except Exn AnyHash) :=
  b.map fun r => r.bind fun b => (macInit env b.c b.s iv).map fun st => ⟨mac b.c pad, st⟩

/-- `MAC.aes ?iv ?pad key`, src/cryptokit.ml:1472-1473. -/
def aes (env : Env) (host : AesHost) (iv : Option Bytes) (pad : Option PadScheme) (key : Bytes) :
    Option (Except Exn AnyHash) := ofBlock env iv pad (aesBlock host .encrypt key)

/-- `MAC.des ?iv ?pad key`, src/cryptokit.ml:1474-1475. -/
def des (env : Env) (iv : Option Bytes) (pad : Option PadScheme) (key : Bytes) :
    Option (Except Exn AnyHash) := ofBlock env iv pad (desBlock .encrypt key)

/-- `MAC.triple_des ?iv ?pad key`, src/cryptokit.ml:1476-1477. -/
def tripleDes (env : Env) (iv : Option Bytes) (pad : Option PadScheme) (key : Bytes) :
    Option (Except Exn AnyHash) := ofBlock env iv pad (tripleDesBlock .encrypt key)

/-- `MAC.des_final_triple_des ?iv ?pad key`, src/cryptokit.ml:1478-1487. The keys wiped at 1486 are
fresh copies of parts of `key`. -/
def desFinalTripleDes (env : Env) (iv : Option Bytes) (pad : Option PadScheme) (key : Bytes) :
    Option (Except Exn AnyHash) :=
  if ¬ (key.length = 16 ∨ key.length = 24) then some (.error (.error .wrongKeySize))
  else
    let k1 := slice key 0 8
    let k2 := slice key 8 8
    let k3 := if key.length = 24 then slice key 16 8 else k1
    match desBlock .encrypt k1, desBlock .decrypt k2, desBlock .encrypt k3 with
    | some r1, some r2, some r3 => some do
      let c1 ← r1
      let c2 ← r2
      let c3 ← r3
      (mac3Init env c1.c c2.c c3.c c1.s c2.s c3.s iv).map fun st =>
        ⟨macFinalTriple c1.c c2.c c3.c pad, st⟩
    | _, _, _ => none

/-- `MAC.aes_cmac ?iv key`, src/cryptokit.ml:1488-1503. -/
def aesCmac (env : Env) (host : AesHost) (iv : Option Bytes) (key : Bytes) :
    Option (Except Exn AnyHash) :=
  (aesBlock host .encrypt key).bind fun r =>
    match r with
    | .error e => some (.error e)
    | .ok b =>
      match aesCmacNew env b.c b.s iv with
      | .ok st _ => some (.ok ⟨cmac b.c, st⟩)
      | .exn e _ => some (.error e)
      | .ub => none
      | .loop => none

end MAC

namespace AEAD

open Cipher

/-- An authenticated transform, with its state. src/cryptokit.ml:271-292. -/
structure AnyAuth where
  {τ : Type}
  T : AuthTransform τ
  t : τ

/-- `AEAD.aes_gcm ?header ~iv key dir`, src/cryptokit.ml:1718-1721: both classes begin with
`new Block.aes_encrypt key` (1618, 1669). -/
def aesGcm (env : Env) (host : AesHost) (pclmul : Bool) (header : Option Bytes) (iv key : Bytes)
    (dir : Dir) : Option (Except Exn AnyAuth) :=
  (aesBlock host .encrypt key).bind fun r =>
    match r with
    | .error e => some (.error e)
    | .ok b =>
      match aesGcmInit env pclmul b.c b.s (header.getD []) iv with
      | .ok st _ => some (.ok ⟨Verif.aesGcm env b.c dir, st⟩)
      | .exn e _ => some (.error e)
      | .ub => none
      | .loop => none

end AEAD
end Verif
