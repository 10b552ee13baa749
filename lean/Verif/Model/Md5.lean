import Verif.Model.Hash
import Verif.Model.Hmac
import Verif.Spec.Md5
/-
MD5: src/stubs-md5.c and class `md5` of src/cryptokit.ml. The hash function itself is that of the
OCaml runtime (`caml_MD5Init`, `caml_MD5Update`, `caml_MD5Final`), which is not part of the
repository: it is a parameter of the model.
-/
namespace Verif

/-- The functions of the OCaml runtime used by src/stubs-md5.c:32-35. `γ` is the type of contexts
(`struct MD5Context`, src/stubs-md5.c:26-30); `zero` is the context full of zero bytes. -/
structure Md5Engine (γ : Type) where
  init : γ
  update : γ → Bytes → γ
  final : γ → Bytes × γ
  zero : γ

/-- What the runtime provides: whatever the cut of a message into updates, the final result is the
MD5 digest of the message. The runtime is not in the repository; src/stubs-md5.c:32-35. -/
def Md5Engine.Correct (E : Md5Engine γ) : Prop :=
  ∀ parts : List Bytes, (E.final (parts.foldl E.update E.init)).1 = Spec.MD5 parts.flatten

/-- `caml_md5_update`, src/stubs-md5.c:46-50. The length is passed as an `unsigned`
(src/stubs-md5.c:33-34): its 32 low bits are kept. -/
def md5Update (E : Md5Engine γ) (c : γ) (src : Bytes) : Option γ :=
  some (E.update c (src.take (src.length % 2 ^ 32)))

/-- `caml_md5_final`, src/stubs-md5.c:52-60. -/
def md5Final (E : Md5Engine γ) (c : γ) : Option (Bytes × γ) := some (E.final c)

/-- Class `md5`, src/cryptokit.ml:1242-1260; `wipe_bytes context` fills the context with zeroes. -/
def md5 (E : Md5Engine γ) : HashObj γ := stubHash 16 (md5Update E) (md5Final E) fun _ => E.zero

/-- `md5_init`, src/stubs-md5.c:39-44. -/
def md5Init (E : Md5Engine γ) : γ := E.init

/-- Class `HMAC_MD5.hmac`, src/cryptokit.ml:1453-1454 and 1461. -/
def hmacMd5 (E : Md5Engine γ) (key : Bytes) : HashObj γ := hmac (md5 E) 64 (fun _ => md5Init E) key

/-- `new HMAC_MD5.hmac key`, src/cryptokit.ml:1461. -/
def hmacMd5New (E : Md5Engine γ) (key : Bytes) : M γ Unit :=
  hmacNew (md5 E) 64 (fun _ => md5Init E) key

end Verif
