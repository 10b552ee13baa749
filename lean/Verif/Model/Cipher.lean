import Verif.Model.Aes
import Verif.Model.Aesni
import Verif.Model.Des
import Verif.Model.Blowfish
import Verif.Model.Stream
import Verif.Model.Aead
/-
Module `Cipher` of src/cryptokit.ml:1343-1406, and `transform_string`.
-/
namespace Verif

/-- `transform_string`, src/cryptokit.ml:164-167. -/
def transformString (T : Transform τ) (s : Bytes) : M τ Bytes := do
  T.putString s
  T.finish
  let r ← T.getString
  T.wipe
  pure r

namespace Cipher

/-- An object of class type `block_cipher`, whatever its class. src/cryptokit.ml:492-497. -/
structure AnyBlock where
  {σ : Type}
  c : BlockCipher σ
  s : σ

/-- An object of class type `transform`, whatever its class. src/cryptokit.ml:141-162. -/
structure AnyTransform where
  {τ : Type}
  T : Transform τ
  t : τ

/-- Type `chaining_mode`, src/cryptokit.ml:1347-1353. -/
inductive Mode where
  | ECB
  | CBC
  | CFB (n : Int)
  | OFB (n : Int)
  | CTR
  | CTR_N (n : Int)

/-- The `chained_cipher` of `make_block_cipher`, src/cryptokit.ml:1356-1368. -/
def chained (env : Env) (mode : Mode) (iv : Option Bytes) (dir : Dir) (b : AnyBlock) :
    Except Exn AnyBlock :=
  match mode, dir with
  | .ECB, _ => .ok b
  | .CBC, .encrypt => (modeInit env b.c b.s iv).map fun st => ⟨cbcEncrypt b.c, st⟩
  | .CBC, .decrypt => (modeInit env b.c b.s iv).map fun st => ⟨cbcDecrypt b.c, st⟩
  | .CFB n, .encrypt =>
    (modeInitChunk env b.c b.s iv n).map fun st => ⟨cfbEncrypt n.toNat b.c, st⟩
  | .CFB n, .decrypt =>
    (modeInitChunk env b.c b.s iv n).map fun st => ⟨cfbDecrypt n.toNat b.c, st⟩
  | .OFB n, _ => (modeInitChunk env b.c b.s iv n).map fun st => ⟨ofb n.toNat b.c, st⟩
  | .CTR, _ => (ctrInit env b.c b.s iv none).map fun p => ⟨ctr p.1 b.c, p.2⟩
  | .CTR_N n, _ => (ctrInit env b.c b.s iv (some n)).map fun p => ⟨ctr p.1 b.c, p.2⟩

/-- `make_block_cipher`, src/cryptokit.ml:1355-1375. -/
def makeBlockCipher (env : Env) (mode : Option Mode) (pad : Option PadScheme) (iv : Option Bytes)
    (dir : Dir) (b : AnyBlock) : Except Exn AnyTransform :=
  (chained env (mode.getD .CBC) iv dir b).map fun m =>
    match pad with
    | none => ⟨blockTransform env m.c, cipherInit env m.c m.s⟩
    | some p =>
      match dir with
      | .encrypt => ⟨paddedEncrypt env p m.c, cipherInit env m.c m.s⟩
      | .decrypt => ⟨paddedDecrypt env p m.c, cipherInit env m.c m.s⟩

/-- `normalize_dir`, src/cryptokit.ml:1377-1380. -/
def normalizeDir (mode : Option Mode) (dir : Dir) : Dir :=
  match mode with
  | some (.CFB _) | some (.OFB _) | some .CTR | some (.CTR_N _) => .encrypt
  | _ => dir

/-- What the AES classes find at run time: no AES-NI instructions, with the previous contents of
the memory of the key schedule; or AES-NI instructions, with that and the bytes of the key string's
memory block after the end of the key. src/stubs-aes.c:32-40. -/
inductive AesHost where
  | table (junk : List W32)
  | aesni (junk pad : Bytes)

/-- `new Block.aes_encrypt key` or `new Block.aes_decrypt key` on a given host,
src/cryptokit.ml:499-533. `none` is a read outside of the key. -/
def aesBlock (host : AesHost) (dir : Dir) (key : Bytes) : Option (Except Exn AnyBlock) :=
  match host, dir with
  | .table junk, .encrypt => some ((Aes.encNew junk key).map fun k => ⟨Aes.encCipher, k⟩)
  | .table junk, .decrypt => some ((Aes.decNew junk key).map fun k => ⟨Aes.decCipher, k⟩)
  | .aesni junk pad, .encrypt =>
    (Aesni.encNew junk key pad).map fun r => r.map fun k => ⟨Aesni.encCipher, k⟩
  | .aesni junk pad, .decrypt =>
    (Aesni.decNew junk key pad).map fun r => r.map fun k => ⟨Aesni.decCipher, k⟩

/-- `new Block.blowfish_encrypt key` or `new Block.blowfish_decrypt key`.
src/cryptokit.ml:535-567. -/
def blowfishBlock (dir : Dir) (key : Bytes) : Option (Except Exn AnyBlock) :=
  match dir with
  | .encrypt => some ((Blowfish.new key).map fun k => ⟨Blowfish.cipherEnc, k⟩)
  | .decrypt => some ((Blowfish.new key).map fun k => ⟨Blowfish.cipherDec, k⟩)

/-- `new Block.des dir key`. src/cryptokit.ml:569-586. -/
def desBlock (dir : Dir) (key : Bytes) : Option (Except Exn AnyBlock) :=
  (Des.new (dir = .decrypt) key).map fun r => r.map fun k => ⟨Des.cipher, k⟩

/-- `new Block.triple_des_encrypt key` or `new Block.triple_des_decrypt key`.
src/cryptokit.ml:588-640. -/
def tripleDesBlock (dir : Dir) (key : Bytes) : Option (Except Exn AnyBlock) :=
  match dir with
  | .encrypt => (Des.new3Enc key).map fun r => r.map fun k => ⟨Des.cipher3, k⟩
  | .decrypt => (Des.new3Dec key).map fun r => r.map fun k => ⟨Des.cipher3, k⟩

/-- `make_block_cipher ... (new ... key)`: the argument, hence the key's error, comes first.
src/cryptokit.ml:1343-1398. -/
def make (env : Env) (mode : Option Mode) (pad : Option PadScheme) (iv : Option Bytes) (dir : Dir)
    (b : Option (Except Exn AnyBlock)) : Option (Except Exn AnyTransform) :=
  b.map fun r => r.bind (makeBlockCipher env mode pad iv dir)

/-- `Cipher.aes ?mode ?pad ?iv key dir`, src/cryptokit.ml:1382-1386. -/
def aes (env : Env) (host : AesHost) (mode : Option Mode) (pad : Option PadScheme)
    (iv : Option Bytes) (key : Bytes) (dir : Dir) : Option (Except Exn AnyTransform) :=
  make env mode pad iv dir (aesBlock host (normalizeDir mode dir) key)

/-- `Cipher.blowfish`, src/cryptokit.ml:1388-1392. -/
def blowfish (env : Env) (mode : Option Mode) (pad : Option PadScheme)
    (iv : Option Bytes) (key : Bytes) (dir : Dir) : Option (Except Exn AnyTransform) :=
  make env mode pad iv dir (blowfishBlock (normalizeDir mode dir) key)

/-- `Cipher.des`, src/cryptokit.ml:1394-1396. -/
def des (env : Env) (mode : Option Mode) (pad : Option PadScheme)
    (iv : Option Bytes) (key : Bytes) (dir : Dir) : Option (Except Exn AnyTransform) :=
  make env mode pad iv dir (desBlock (normalizeDir mode dir) key)

/-- `Cipher.triple_des`, src/cryptokit.ml:1398-1402. -/
def tripleDes (env : Env) (mode : Option Mode) (pad : Option PadScheme)
    (iv : Option Bytes) (key : Bytes) (dir : Dir) : Option (Except Exn AnyTransform) :=
  make env mode pad iv dir (tripleDesBlock (normalizeDir mode dir) key)

/-- `Cipher.arcfour key dir`, src/cryptokit.ml:1404. -/
def arcfour (env : Env) (key : Bytes) (_dir : Dir) : Except Exn AnyTransform :=
  (arcfourInit key).map fun s => ⟨streamTransform env Verif.arcfour, streamInit env s⟩

/-- `Cipher.chacha20 ?iv ?ctr key dir`, src/cryptokit.ml:1406-1407. -/
def chacha20 (env : Env) (iv : Option Bytes) (ctr : Option W64) (key : Bytes) (_dir : Dir) :
    Except Exn AnyTransform :=
  (chacha20Init env key iv ctr).map fun s => ⟨streamTransform env Verif.chacha20, streamInit env s⟩

end Cipher
end Verif
