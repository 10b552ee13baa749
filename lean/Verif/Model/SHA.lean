import Verif.Model.Hash
/-
SHA-1 (src/sha1.c, stubs-sha1.c) and SHA-2 (src/sha256.c, src/sha512.c, stubs-sha256.c,
stubs-sha512.c), for a little-endian machine (Model/Endian.lean has the others). The initial contents
of the context's buffer (uninitialised memory) and of `data` are irrelevant: `buf0` is any contents.
-/
namespace Verif

/-! ### SHA-1 -/

/-- `ctx->state`, src/sha1.h. src/sha1.h:21. -/
structure Sha1State where
  (a b c d e : W32)
  deriving DecidableEq

/-- Memory image of `ctx->state`. For `SHA1_copy_and_swap`, src/sha1.c:26-42. -/
def Sha1State.words (s : Sha1State) : List W32 := [s.a, s.b, s.c, s.d, s.e]

/-- Macro `F`, src/sha1.c:44 and `CH`, src/sha256.c:24, src/sha512.c:24. -/
def shaF (x y z : BitVec w) : BitVec w := z ^^^ (x &&& (y ^^^ z))
/-- Macro `G`, src/sha1.c:45 and `MAJ`, src/sha256.c:25, src/sha512.c:25. -/
def shaG (x y z : BitVec w) : BitVec w := (x &&& y) ||| (z &&& (x ||| y))
/-- Macro `H`, src/sha1.c:46. -/
def shaH (x y z : BitVec w) : BitVec w := x ^^^ y ^^^ z

/-- The expansion loop, src/sha1.c:63-66: `k` more words. -/
def sha1Expand : Nat → List W32 → List W32
  | 0, data => data
  | k + 1, data =>
    let i := data.length
    let t := data.getD (i - 3) 0 ^^^ data.getD (i - 8) 0 ^^^ data.getD (i - 14) 0
      ^^^ data.getD (i - 16) 0
    sha1Expand k (data ++ [rol32 t 1])

/-- The body of one of the loops over rounds, src/sha1.c:77-91. -/
def sha1Round (f : W32 → W32 → W32 → W32) (y : W32) (data : List W32) (s : Sha1State) (i : Nat) :
    Sha1State :=
  let t := f s.b s.c s.d + y + rol32 s.a 5 + s.e + data.getD i 0
  { a := t, b := s.a, c := rol32 s.b 30, d := s.c, e := s.d }

/-- `SHA1_transform`, src/sha1.c:53-99. -/
def sha1Transform (st : Sha1State) (buffer : Bytes) : Sha1State :=
  let data := sha1Expand 64 (wordsOfMem 4 32 (copyAndSwap 4 buffer))
  let s := (List.range' 0 20).foldl (sha1Round shaF 0x5A827999 data) st
  let s := (List.range' 20 20).foldl (sha1Round shaH 0x6ED9EBA1 data) s
  let s := (List.range' 40 20).foldl (sha1Round shaG 0x8F1BBCDC data) s
  let s := (List.range' 60 20).foldl (sha1Round shaH 0xCA62C1D6 data) s
  { a := st.a + s.a, b := st.b + s.b, c := st.c + s.c, d := st.d + s.d, e := st.e + s.e }

/-- `struct SHA1Context`, src/sha1.h (`hi`, `lo` are `length[0]`, `length[1]`). src/sha1.h:20-25. -/
structure Sha1Ctx where
  buf : MDBuf Sha1State
  hi : W32
  lo : W32
  deriving DecidableEq

/-- `SHA1_init`, src/sha1.c:101-111. -/
def sha1Init (buf0 : Bytes) : Sha1Ctx :=
  ⟨⟨⟨0x67452301, 0xEFCDAB89, 0x98BADCFE, 0x10325476, 0xC3D2E1F0⟩, 0, buf0⟩, 0, 0⟩

/-- `SHA1_add_data`, src/sha1.c:113-147. -/
def sha1Add (c : Sha1Ctx) (data : Bytes) : Option Sha1Ctx :=
  let (hi, lo) := lenAdd 32 c.hi c.lo data.length
  (mdAdd 64 true sha1Transform c.buf data).map fun b => ⟨b, hi, lo⟩

/-- `SHA1_finish`, src/sha1.c:149-170 and `caml_sha1_final`, src/stubs-sha1.c. -/
def sha1Finish (c : Sha1Ctx) : Option (Bytes × Sha1Ctx) :=
  (mdFinish 64 8 sha1Transform c.buf (copyAndSwap 4 (memOfWords 4 [c.hi, c.lo]))).map fun b =>
    (copyAndSwap 4 (memOfWords 4 b.h.words), { c with buf := b })

/-- `wipe_bytes context`, src/cryptokit.ml:1093. -/
def sha1Wipe (c : Sha1Ctx) : Sha1Ctx :=
  ⟨⟨⟨0, 0, 0, 0, 0⟩, 0, wipeBytes c.buf.buffer⟩, 0, 0⟩

/-- Class `sha1`, src/cryptokit.ml:1076-1094. -/
def sha1 : HashObj Sha1Ctx := stubHash 20 sha1Add sha1Finish sha1Wipe

/-! ### SHA-2 -/

/-- `ctx->state`, src/sha256.h, src/sha512.h. src/sha256.h:26, src/sha512.h:27. -/
structure Sha2State (w : Nat) where
  (a b c d e f g h : BitVec w)
  deriving DecidableEq

/-- Memory image of `ctx->state`. src/sha256.h:26, src/sha512.h:27. -/
def Sha2State.words (s : Sha2State w) : List (BitVec w) := [s.a, s.b, s.c, s.d, s.e, s.f, s.g, s.h]

/-- What differs between src/sha256.c and src/sha512.c: word size in bytes, macros, constants.
src/sha256.c:22-60, src/sha512.c:22-80. -/
structure Sha2Code (w : Nat) where
  wordBytes : Nat
  SIGMA0 : BitVec w → BitVec w
  SIGMA1 : BitVec w → BitVec w
  sigma0 : BitVec w → BitVec w
  sigma1 : BitVec w → BitVec w
  rounds : Nat
  constants : List (BitVec w)

/-- Macro `ROTR`, src/sha256.c:22, src/sha512.c:22. -/
def shaROTR (x : BitVec w) (n : Nat) : BitVec w := (x >>> n) ||| (x <<< (w - n))

/-- `SHA256_constants`, src/sha256.c:49-66. -/
def sha256Constants : List W32 :=
  [0x428a2f98, 0x71374491, 0xb5c0fbcf, 0xe9b5dba5,
   0x3956c25b, 0x59f111f1, 0x923f82a4, 0xab1c5ed5,
   0xd807aa98, 0x12835b01, 0x243185be, 0x550c7dc3,
   0x72be5d74, 0x80deb1fe, 0x9bdc06a7, 0xc19bf174,
   0xe49b69c1, 0xefbe4786, 0x0fc19dc6, 0x240ca1cc,
   0x2de92c6f, 0x4a7484aa, 0x5cb0a9dc, 0x76f988da,
   0x983e5152, 0xa831c66d, 0xb00327c8, 0xbf597fc7,
   0xc6e00bf3, 0xd5a79147, 0x06ca6351, 0x14292967,
   0x27b70a85, 0x2e1b2138, 0x4d2c6dfc, 0x53380d13,
   0x650a7354, 0x766a0abb, 0x81c2c92e, 0x92722c85,
   0xa2bfe8a1, 0xa81a664b, 0xc24b8b70, 0xc76c51a3,
   0xd192e819, 0xd6990624, 0xf40e3585, 0x106aa070,
   0x19a4c116, 0x1e376c08, 0x2748774c, 0x34b0bcb5,
   0x391c0cb3, 0x4ed8aa4a, 0x5b9cca4f, 0x682e6ff3,
   0x748f82ee, 0x78a5636f, 0x84c87814, 0x8cc70208,
   0x90befffa, 0xa4506ceb, 0xbef9a3f7, 0xc67178f2]

/-- `SHA512_constants`, src/sha512.c:54-135. -/
def sha512Constants : List W64 :=
  [0x428a2f98d728ae22, 0x7137449123ef65cd, 0xb5c0fbcfec4d3b2f, 0xe9b5dba58189dbbc,
   0x3956c25bf348b538, 0x59f111f1b605d019, 0x923f82a4af194f9b, 0xab1c5ed5da6d8118,
   0xd807aa98a3030242, 0x12835b0145706fbe, 0x243185be4ee4b28c, 0x550c7dc3d5ffb4e2,
   0x72be5d74f27b896f, 0x80deb1fe3b1696b1, 0x9bdc06a725c71235, 0xc19bf174cf692694,
   0xe49b69c19ef14ad2, 0xefbe4786384f25e3, 0x0fc19dc68b8cd5b5, 0x240ca1cc77ac9c65,
   0x2de92c6f592b0275, 0x4a7484aa6ea6e483, 0x5cb0a9dcbd41fbd4, 0x76f988da831153b5,
   0x983e5152ee66dfab, 0xa831c66d2db43210, 0xb00327c898fb213f, 0xbf597fc7beef0ee4,
   0xc6e00bf33da88fc2, 0xd5a79147930aa725, 0x06ca6351e003826f, 0x142929670a0e6e70,
   0x27b70a8546d22ffc, 0x2e1b21385c26c926, 0x4d2c6dfc5ac42aed, 0x53380d139d95b3df,
   0x650a73548baf63de, 0x766a0abb3c77b2a8, 0x81c2c92e47edaee6, 0x92722c851482353b,
   0xa2bfe8a14cf10364, 0xa81a664bbc423001, 0xc24b8b70d0f89791, 0xc76c51a30654be30,
   0xd192e819d6ef5218, 0xd69906245565a910, 0xf40e35855771202a, 0x106aa07032bbd1b8,
   0x19a4c116b8d2d0c8, 0x1e376c085141ab53, 0x2748774cdf8eeb99, 0x34b0bcb5e19b48a8,
   0x391c0cb3c5c95a63, 0x4ed8aa4ae3418acb, 0x5b9cca4f7763e373, 0x682e6ff3d6b2b8a3,
   0x748f82ee5defb2fc, 0x78a5636f43172f60, 0x84c87814a1f0ab72, 0x8cc702081a6439ec,
   0x90befffa23631e28, 0xa4506cebde82bde9, 0xbef9a3f7b2c67915, 0xc67178f2e372532b,
   0xca273eceea26619c, 0xd186b8c721c0c207, 0xeada7dd6cde0eb1e, 0xf57d4f7fee6ed178,
   0x06f067aa72176fba, 0x0a637dc5a2c898a6, 0x113f9804bef90dae, 0x1b710b35131c471b,
   0x28db77f523047d84, 0x32caab7b40c72493, 0x3c9ebe0a15c9bebc, 0x431d67c49c100d4c,
   0x4cc5d4becb3e42b6, 0x597f299cfc657e2a, 0x5fcb6fab3ad6faec, 0x6c44198c4a475817]

/-- src/sha256.c:24-29, 49-66, 104. -/
def sha256Code : Sha2Code 32 where
  wordBytes := 4
  SIGMA0 x := shaROTR x 2 ^^^ shaROTR x 13 ^^^ shaROTR x 22
  SIGMA1 x := shaROTR x 6 ^^^ shaROTR x 11 ^^^ shaROTR x 25
  sigma0 x := shaROTR x 7 ^^^ shaROTR x 18 ^^^ (x >>> 3)
  sigma1 x := shaROTR x 17 ^^^ shaROTR x 19 ^^^ (x >>> 10)
  rounds := 64
  constants := sha256Constants

/-- src/sha512.c:24-29, 54-135, 174. -/
def sha512Code : Sha2Code 64 where
  wordBytes := 8
  SIGMA0 x := shaROTR x 28 ^^^ shaROTR x 34 ^^^ shaROTR x 39
  SIGMA1 x := shaROTR x 14 ^^^ shaROTR x 18 ^^^ shaROTR x 41
  sigma0 x := shaROTR x 1 ^^^ shaROTR x 8 ^^^ (x >>> 7)
  sigma1 x := shaROTR x 19 ^^^ shaROTR x 61 ^^^ (x >>> 6)
  rounds := 80
  constants := sha512Constants

/-- The expansion loop, src/sha256.c:77-80, src/sha512.c:147-150: `k` more words. -/
def sha2Expand (p : Sha2Code w) : Nat → List (BitVec w) → List (BitVec w)
  | 0, data => data
  | k + 1, data =>
    let i := data.length
    sha2Expand p k (data ++ [p.sigma1 (data.getD (i - 2) 0) + data.getD (i - 7) 0
      + p.sigma0 (data.getD (i - 15) 0) + data.getD (i - 16) 0])

/-- Macro `STEP`, src/sha256.c:101-105, src/sha512.c:171-175: the new values of `d` and `h`. -/
def sha2STEP (p : Sha2Code w) (data : List (BitVec w)) (a b c d e f g h : BitVec w) (i : Nat) :
    BitVec w × BitVec w :=
  let t1 := h + p.SIGMA1 e + shaF e f g + p.constants.getD i 0 + data.getD i 0
  let t2 := p.SIGMA0 a + shaG a b c
  (d + t1, t1 + t2)

/-- The loop body, src/sha256.c:108-115, src/sha512.c:178-185. -/
def sha2Eight (p : Sha2Code w) (data : List (BitVec w)) (s : Sha2State w) (i : Nat) :
    Sha2State w :=
  let a := s.a; let b := s.b; let c := s.c; let d := s.d
  let e := s.e; let f := s.f; let g := s.g; let h := s.h
  let (d, h) := sha2STEP p data a b c d e f g h i
  let (c, g) := sha2STEP p data h a b c d e f g (i + 1)
  let (b, f) := sha2STEP p data g h a b c d e f (i + 2)
  let (a, e) := sha2STEP p data f g h a b c d e (i + 3)
  let (h, d) := sha2STEP p data e f g h a b c d (i + 4)
  let (g, c) := sha2STEP p data d e f g h a b c (i + 5)
  let (f, b) := sha2STEP p data c d e f g h a b (i + 6)
  let (e, a) := sha2STEP p data b c d e f g h a (i + 7)
  ⟨a, b, c, d, e, f, g, h⟩

/-- `SHA256_transform`, src/sha256.c:68-128; `SHA512_transform`, src/sha512.c:138-198. -/
def sha2Transform (p : Sha2Code w) (st : Sha2State w) (buffer : Bytes) : Sha2State w :=
  let data := sha2Expand p 64 (wordsOfMem p.wordBytes w (copyAndSwap p.wordBytes buffer))
  let s := ((List.range (p.rounds / 8)).map (8 * ·)).foldl (sha2Eight p data) st
  ⟨st.a + s.a, st.b + s.b, st.c + s.c, st.d + s.d, st.e + s.e, st.f + s.f, st.g + s.g, st.h + s.h⟩

/-- `struct SHA256Context`, src/sha256.h; `struct SHA512Context`, src/sha512.h.
src/sha256.h:25-30, src/sha512.h:26-31. -/
structure Sha2Ctx (w : Nat) where
  buf : MDBuf (Sha2State w)
  hi : BitVec w
  lo : BitVec w
  deriving DecidableEq

/-- `SHA256_init ctx 224`, src/sha256.c:133-142, 159-161. -/
def sha224Init (buf0 : Bytes) : Sha2Ctx 32 :=
  ⟨⟨⟨0xc1059ed8, 0x367cd507, 0x3070dd17, 0xf70e5939, 0xffc00b31, 0x68581511, 0x64f98fa7,
    0xbefa4fa4⟩, 0, buf0⟩, 0, 0⟩
/-- `SHA256_init ctx 256`, src/sha256.c:143-152, 159-161. -/
def sha256Init (buf0 : Bytes) : Sha2Ctx 32 :=
  ⟨⟨⟨0x6A09E667, 0xBB67AE85, 0x3C6EF372, 0xA54FF53A, 0x510E527F, 0x9B05688C, 0x1F83D9AB,
    0x5BE0CD19⟩, 0, buf0⟩, 0, 0⟩
/-- `SHA512_init ctx 512`, src/sha512.c:203-212, 229-231. -/
def sha512Init (buf0 : Bytes) : Sha2Ctx 64 :=
  ⟨⟨⟨0x6a09e667f3bcc908, 0xbb67ae8584caa73b, 0x3c6ef372fe94f82b, 0xa54ff53a5f1d36f1,
    0x510e527fade682d1, 0x9b05688c2b3e6c1f, 0x1f83d9abfb41bd6b, 0x5be0cd19137e2179⟩, 0, buf0⟩, 0, 0⟩
/-- `SHA512_init ctx 384`, src/sha512.c:213-222, 229-231. -/
def sha384Init (buf0 : Bytes) : Sha2Ctx 64 :=
  ⟨⟨⟨0xcbbb9d5dc1059ed8, 0x629a292a367cd507, 0x9159015a3070dd17, 0x152fecd8f70e5939,
    0x67332667ffc00b31, 0x8eb44a8768581511, 0xdb0c2e0d64f98fa7, 0x47b5481dbefa4fa4⟩, 0, buf0⟩, 0, 0⟩

/-- `SHA256_add_data`, src/sha256.c:164-198; `SHA512_add_data`, src/sha512.c:234-268. -/
def sha2Add (p : Sha2Code w) (c : Sha2Ctx w) (data : Bytes) : Option (Sha2Ctx w) :=
  let (hi, lo) := lenAdd w c.hi c.lo data.length
  (mdAdd (16 * p.wordBytes) true (sha2Transform p) c.buf data).map fun b => ⟨b, hi, lo⟩

/-- `SHA256_finish`, src/sha256.c:200-230; `SHA512_finish`, src/sha512.c:270-300, and the stubs;
`k` words of the state are output. -/
def sha2Finish (p : Sha2Code w) (k : Nat) (c : Sha2Ctx w) : Option (Bytes × Sha2Ctx w) :=
  (mdFinish (16 * p.wordBytes) (2 * p.wordBytes) (sha2Transform p) c.buf
    (copyAndSwap p.wordBytes (memOfWords p.wordBytes [c.hi, c.lo]))).map fun b =>
    (copyAndSwap p.wordBytes (memOfWords p.wordBytes (b.h.words.take k)), { c with buf := b })

/-- `wipe_bytes context`. src/cryptokit.ml:1115-1181. -/
def sha2Wipe (c : Sha2Ctx w) : Sha2Ctx w :=
  ⟨⟨⟨0, 0, 0, 0, 0, 0, 0, 0⟩, 0, wipeBytes c.buf.buffer⟩, 0, 0⟩

/-- Class `sha224`, src/cryptokit.ml:1098-1116 (the hash size is the one of the source). -/
def sha224 : HashObj (Sha2Ctx 32) := stubHash 24 (sha2Add sha256Code) (sha2Finish sha256Code 7) sha2Wipe
/-- Class `sha256`, src/cryptokit.ml:1120-1138. -/
def sha256 : HashObj (Sha2Ctx 32) := stubHash 32 (sha2Add sha256Code) (sha2Finish sha256Code 8) sha2Wipe
/-- Class `sha384`, src/cryptokit.ml:1142-1160. -/
def sha384 : HashObj (Sha2Ctx 64) := stubHash 48 (sha2Add sha512Code) (sha2Finish sha512Code 6) sha2Wipe
/-- Class `sha512`, src/cryptokit.ml:1164-1182. -/
def sha512 : HashObj (Sha2Ctx 64) := stubHash 64 (sha2Add sha512Code) (sha2Finish sha512Code 8) sha2Wipe

end Verif
