import Verif.Model.SHA
import Verif.Model.Ripemd
import Verif.Model.Stream
import Verif.Model.Blowfish
/-
The code that depends on the byte order of the machine (macro `ARCH_BIG_ENDIAN`), for machines of
both kinds: src/sha1.c, src/sha256.c, src/sha512.c, src/ripemd160.c, src/chacha20.c,
src/stubs-blowfish.c. The other files of src/ do not look at the bytes of a word other than by
shifts.
-/
namespace Verif

/-- The byte order of the machine: `big` is when `ARCH_BIG_ENDIAN` is defined. src/sha1.c:28. -/
inductive Endian where
  | little
  | big
  deriving DecidableEq

/-- The `k` bytes in memory of a word whose bytes, least significant first, are given; and the
reverse operation. For src/sha1.c:26-42. -/
def Endian.order (e : Endian) (b : Bytes) : Bytes :=
  match e with
  | .little => b
  | .big => b.reverse

/-- The memory image of an array of words of `k` bytes. For src/sha1.c:26-42. -/
def Endian.memOfWords (e : Endian) (k : Nat) (ws : List (BitVec w)) : Bytes :=
  (ws.map fun x => e.order (natToLE k x.toNat)).flatten

/-- The array of `w`-bit words, `k` bytes each, whose memory image is `b`. For src/sha1.c:26-42. -/
def Endian.wordsOfMem (e : Endian) (k w : Nat) (b : Bytes) : List (BitVec w) :=
  (chunks k b).map fun c => BitVec.ofNat w (leNat (e.order c))

/-- `SHA1_copy_and_swap`, src/sha1.c:26-42; `SHA256_copy_and_swap`, src/sha256.c:31-47;
`SHA512_copy_and_swap`, src/sha512.c:31-51: `memcpy` on big-endian machines. -/
def Endian.shaCopyAndSwap (e : Endian) (k : Nat) (b : Bytes) : Bytes :=
  match e with
  | .big => b
  | .little => copyAndSwap k b

/-- `RIPEMD160_copy_and_swap`, src/ripemd160.c:88-104: `memcpy` on little-endian machines. -/
def Endian.rmdCopyAndSwap (e : Endian) (k : Nat) (b : Bytes) : Bytes :=
  match e with
  | .big => copyAndSwap k b
  | .little => b

/-- `SHA1_transform`, src/sha1.c:53-99. -/
def sha1TransformOn (e : Endian) (st : Sha1State) (buffer : Bytes) : Sha1State :=
  let data := sha1Expand 64 (e.wordsOfMem 4 32 (e.shaCopyAndSwap 4 buffer))
  let s := (List.range' 0 20).foldl (sha1Round shaF 0x5A827999 data) st
  let s := (List.range' 20 20).foldl (sha1Round shaH 0x6ED9EBA1 data) s
  let s := (List.range' 40 20).foldl (sha1Round shaG 0x8F1BBCDC data) s
  let s := (List.range' 60 20).foldl (sha1Round shaH 0xCA62C1D6 data) s
  { a := st.a + s.a, b := st.b + s.b, c := st.c + s.c, d := st.d + s.d, e := st.e + s.e }

/-- `SHA1_add_data`, src/sha1.c:113-147. -/
def sha1AddOn (e : Endian) (c : Sha1Ctx) (data : Bytes) : Option Sha1Ctx :=
  let (hi, lo) := lenAdd 32 c.hi c.lo data.length
  (mdAdd 64 true (sha1TransformOn e) c.buf data).map fun b => ⟨b, hi, lo⟩

/-- `SHA1_finish`, src/sha1.c:149-170. -/
def sha1FinishOn (e : Endian) (c : Sha1Ctx) : Option (Bytes × Sha1Ctx) :=
  (mdFinish 64 8 (sha1TransformOn e) c.buf
    (e.shaCopyAndSwap 4 (e.memOfWords 4 [c.hi, c.lo]))).map fun b =>
    (e.shaCopyAndSwap 4 (e.memOfWords 4 b.h.words), { c with buf := b })

/-- Class `sha1`, src/cryptokit.ml:1076-1094. -/
def sha1On (e : Endian) : HashObj Sha1Ctx := stubHash 20 (sha1AddOn e) (sha1FinishOn e) sha1Wipe

/-- `SHA256_transform`, src/sha256.c:68-128; `SHA512_transform`, src/sha512.c:138-198. -/
def sha2TransformOn (e : Endian) (p : Sha2Code w) (st : Sha2State w) (buffer : Bytes) :
    Sha2State w :=
  let data := sha2Expand p 64 (e.wordsOfMem p.wordBytes w (e.shaCopyAndSwap p.wordBytes buffer))
  let s := ((List.range (p.rounds / 8)).map (8 * ·)).foldl (sha2Eight p data) st
  ⟨st.a + s.a, st.b + s.b, st.c + s.c, st.d + s.d, st.e + s.e, st.f + s.f, st.g + s.g, st.h + s.h⟩

/-- `SHA256_add_data`, src/sha256.c:164-198; `SHA512_add_data`, src/sha512.c:234-268. -/
def sha2AddOn (e : Endian) (p : Sha2Code w) (c : Sha2Ctx w) (data : Bytes) : Option (Sha2Ctx w) :=
  let (hi, lo) := lenAdd w c.hi c.lo data.length
  (mdAdd (16 * p.wordBytes) true (sha2TransformOn e p) c.buf data).map fun b => ⟨b, hi, lo⟩

/-- `SHA256_finish`, src/sha256.c:200-230; `SHA512_finish`, src/sha512.c:270-300. -/
def sha2FinishOn (e : Endian) (p : Sha2Code w) (k : Nat) (c : Sha2Ctx w) :
    Option (Bytes × Sha2Ctx w) :=
  (mdFinish (16 * p.wordBytes) (2 * p.wordBytes) (sha2TransformOn e p) c.buf
    (e.shaCopyAndSwap p.wordBytes (e.memOfWords p.wordBytes [c.hi, c.lo]))).map fun b =>
    (e.shaCopyAndSwap p.wordBytes (e.memOfWords p.wordBytes (b.h.words.take k)), { c with buf := b })

/-- Class `sha224`, src/cryptokit.ml:1098-1116. -/
def sha224On (e : Endian) : HashObj (Sha2Ctx 32) :=
  stubHash 24 (sha2AddOn e sha256Code) (sha2FinishOn e sha256Code 7) sha2Wipe
/-- Class `sha256`, src/cryptokit.ml:1120-1138. -/
def sha256On (e : Endian) : HashObj (Sha2Ctx 32) :=
  stubHash 32 (sha2AddOn e sha256Code) (sha2FinishOn e sha256Code 8) sha2Wipe
/-- Class `sha384`, src/cryptokit.ml:1142-1160. -/
def sha384On (e : Endian) : HashObj (Sha2Ctx 64) :=
  stubHash 48 (sha2AddOn e sha512Code) (sha2FinishOn e sha512Code 6) sha2Wipe
/-- Class `sha512`, src/cryptokit.ml:1164-1182. -/
def sha512On (e : Endian) : HashObj (Sha2Ctx 64) :=
  stubHash 64 (sha2AddOn e sha512Code) (sha2FinishOn e sha512Code 8) sha2Wipe

/-- `RIPEMD160_compress`, src/ripemd160.c:106-319. -/
def rmdCompressOn (e : Endian) (st : Sha1State) (buffer : Bytes) : Sha1State :=
  let data := e.wordsOfMem 4 32 (e.rmdCopyAndSwap 4 buffer)
  let l := rmdLeft.foldl (rmdExec data) (rmdVars st)
  let r := rmdRight.foldl (rmdExec data) (rmdVars st)
  { a := r 3 + (l 2 + st.b)
    b := st.c + l 3 + r 4
    c := st.d + l 4 + r 0
    d := st.e + l 0 + r 1
    e := st.a + l 1 + r 2 }

/-- `RIPEMD160_add_data`, src/ripemd160.c:333-367. -/
def rmdAddOn (e : Endian) (c : Sha1Ctx) (data : Bytes) : Option Sha1Ctx :=
  let (hi, lo) := lenAdd 32 c.hi c.lo data.length
  (mdAdd 64 true (rmdCompressOn e) c.buf data).map fun b => ⟨b, hi, lo⟩

/-- `RIPEMD160_finish`, src/ripemd160.c:369-390. -/
def rmdFinishOn (e : Endian) (c : Sha1Ctx) : Option (Bytes × Sha1Ctx) :=
  (mdFinish 64 8 (rmdCompressOn e) c.buf
    (e.rmdCopyAndSwap 4 (e.memOfWords 4 [c.lo, c.hi]))).map fun b =>
    (e.rmdCopyAndSwap 4 (e.memOfWords 4 b.h.words), { c with buf := b })

/-- Class `ripemd160`, src/cryptokit.ml:1220-1238. -/
def ripemd160On (e : Endian) : HashObj Sha1Ctx :=
  stubHash 32 (rmdAddOn e) (rmdFinishOn e) sha1Wipe

/-- `U32TO8_LITTLE`, src/chacha20.c:12-22: byte by byte on big-endian machines, one store of a word
on the others. -/
def Endian.u32to8Little (e : Endian) (x : W32) : Bytes :=
  match e with
  | .big => [x.setWidth 8, (x >>> 8).setWidth 8, (x >>> 16).setWidth 8, (x >>> 24).setWidth 8]
  | .little => e.memOfWords 4 [x]

/-- `chacha20_block`, src/chacha20.c:43-110. -/
def chachaBlockOn (e : Endian) (c : ChaCha) : ChaCha :=
  let i := c.input
  let x := doubleRounds 10 i
  let output := e.u32to8Little (x.x0 + i.x0) ++ e.u32to8Little (x.x1 + i.x1)
    ++ e.u32to8Little (x.x2 + i.x2) ++ e.u32to8Little (x.x3 + i.x3)
    ++ e.u32to8Little (x.x4 + i.x4) ++ e.u32to8Little (x.x5 + i.x5)
    ++ e.u32to8Little (x.x6 + i.x6) ++ e.u32to8Little (x.x7 + i.x7)
    ++ e.u32to8Little (x.x8 + i.x8) ++ e.u32to8Little (x.x9 + i.x9)
    ++ e.u32to8Little (x.x10 + i.x10) ++ e.u32to8Little (x.x11 + i.x11)
    ++ e.u32to8Little (x.x12 + i.x12) ++ e.u32to8Little (x.x13 + i.x13)
    ++ e.u32to8Little (x.x14 + i.x14) ++ e.u32to8Little (x.x15 + i.x15)
  let x12 := i.x12 + 1
  let x13 := if x12 = 0 ∧ c.ivLength = 8 then i.x13 + 1 else i.x13
  { c with output := output, input := { i with x12 := x12, x13 := x13 } }

/-- One iteration of `chacha20_transform` and `chacha20_extract`, src/chacha20.c:112-132. -/
def chachaNextOn (e : Endian) (c : ChaCha) : Option (Byte × ChaCha) :=
  let c := if c.next ≥ 64 then { chachaBlockOn e c with next := 0 } else c
  match c.output[c.next]? with
  | none => none
  | some b => some (b, { c with next := c.next + 1 })

/-- Class `chacha20`, src/cryptokit.ml:1010-1032. -/
def chacha20On (e : Endian) : StreamCipher ChaCha := checkedStream (chachaNextOn e) ChaCha.wipe

namespace Blowfish

/-- `COPY4BYTES(dst, src)`, src/stubs-blowfish.c:31-43: the bytes of `dst`. -/
def copy4Bytes (e : Endian) (b : Bytes) : Bytes :=
  match e with
  | .big => [byteAt b 0, byteAt b 1, byteAt b 2, byteAt b 3]
  | .little => [byteAt b 3, byteAt b 2, byteAt b 1, byteAt b 0]

/-- `COPY4BYTES((unsigned char *) &x, p)`, src/stubs-blowfish.c:52-53. -/
def loadOn (e : Endian) (b : Bytes) : W32 := BitVec.ofNat 32 (leNat (e.order (copy4Bytes e b)))

/-- `COPY4BYTES(p, (unsigned char *) &x)`, src/stubs-blowfish.c:56-57. -/
def storeOn (e : Endian) (x : W32) : Bytes := copy4Bytes e (e.memOfWords 4 [x])

/-- `caml_blowfish_encrypt`, src/stubs-blowfish.c:45-59. -/
def encryptStubOn (e : Endian) (ctx : Ctx) (b : Bytes) : Option Bytes :=
  let x := encryptWords ctx (loadOn e b, loadOn e (b.drop 4))
  some (storeOn e x.1 ++ storeOn e x.2)

/-- `caml_blowfish_decrypt`, src/stubs-blowfish.c:61-75. -/
def decryptStubOn (e : Endian) (ctx : Ctx) (b : Bytes) : Option Bytes :=
  let x := decryptWords ctx (loadOn e b, loadOn e (b.drop 4))
  some (storeOn e x.1 ++ storeOn e x.2)

/-- Class `blowfish_encrypt`, src/cryptokit.ml:535-549. -/
def cipherEncOn (e : Endian) : BlockCipher Ctx := checkedCipher 8 (encryptStubOn e) (fun _ => []) wipe

/-- Class `blowfish_decrypt`, src/cryptokit.ml:551-567. -/
def cipherDecOn (e : Endian) : BlockCipher Ctx := checkedCipher 8 (decryptStubOn e) (fun _ => []) wipe

end Blowfish

end Verif
