# A Lean 4 model of cryptokit

This file says what is modelled, how each property of `properties.jsonl` is proved
and what has to be trusted. `MANIFEST.json` gives the theorems of each property.

## 1. Trusted base

* **Lean 4.33.0's kernel.** No axioms of our own, no `sorry`, no `admit`, no
  `native_decide`, no `bv_decide`. `AXIOMS.txt` lists the axioms of every theorem named
  in the manifest (regenerate it with `tools/gen_axioms.py`); they are among `propext`,
  `Classical.choice` and `Quot.sound`, the axioms of Lean's library and of Mathlib.
* **The reading of the source.** The code was not run. Every definition under
  `lean/Verif/Model` has a comment that cites the file and the lines of `/repo` that it
  models, and says where it simplifies. `tools/conformance.py` runs the model on the test
  vectors of `/repo/test/test.ml` (641 checks: AES on both code paths, Blowfish, DES, triple
  DES, ARCfour, ChaCha20, GCM on both code paths, ChaCha20-Poly1305, SHA-1, SHA-2, SHA-3,
  Keccak, RIPEMD-160, BLAKE2, BLAKE3 at three SIMD widths, GHASH, Poly1305 in both
  versions, SipHash, HMAC, CMAC, the modes, Base64, hexadecimal): all agree. This is a test
  of the reading, outside of the proofs.
* **The specifications** under `lean/Verif/Spec`, written from the standards: FIPS 46-3,
  180-4, 197, 202; SP 800-38A, B, D; RFC 2104, 4493, 4648, 7693, 8439; the papers on
  BLAKE3, SipHash, RIPEMD-160, Blowfish. Known-answer `example`s, checked by the kernel,
  guard against a misreading of a standard; they test the specifications, they are not
  the proofs.
* **Contracts of code that is not in the repository**: Zarith, zlib, `getentropy`, `read`,
  RDRAND, channels, x86 intrinsics. They appear as definitions in the model or as explicit
  hypotheses of theorems; see section 5.

## 2. Layout

* `lean/Verif/Model/*` the model of the code (OCaml and C).
* `lean/Verif/Spec/*`  small specifications, independent of the model.
* `lean/Verif/Proof/*` lemmas.
* `lean/Verif/Props/*` the property theorems, each file with `example`s that meet the
  hypotheses of its theorems.
* `seeded/LOG.jsonl`   wrong programs on which the theorems were tried.
* `tools/*`            generators of the manifest, the property list and the imports, and
  the driver of the seeded bugs.

## 3. Conventions

* A byte is `BitVec 8`; OCaml `string` and `bytes` are `List Byte`. C words are `BitVec 32`
  and `BitVec 64`, with their wrap-around. `int64` is `BitVec 64` with signed comparison.
  OCaml `int` is `Int`, without its wrap-around at 63 (or 31) bits. Offsets and lengths are
  `Int`, so negative and out-of-range arguments are covered. `Model/MachineInt` models again, with
  wrap-around, the methods that compute on the caller's offsets and lengths; C82 states when
  this makes a difference.
* A method is a function from the state of the object to an outcome: `ok result state`,
  `exn exception state` (with the state reached when the exception escapes), `ub` (C code
  accesses memory outside a buffer) or `loop`. Nothing is made total silently: an OCaml
  bounds check that fails is `exn invalidArg`, an unchecked C access out of bounds is `ub`.
* Objects of a class are records of methods over their state (`Transform`, `HashObj`,
  `AuthTransform`, `BlockCipher`, `StreamCipher`). Histories of calls are lists of
  operations, run from the state of a new object.
* Aliasing: block and stream transforms take a source that is either distinct from the
  destination or *the destination itself*; in the latter case every read sees earlier
  writes. An object's private buffer passed back to it, and `compose t t`, are not modelled.
* `Sys.max_string_length` and the contents of `Bytes.create` are parameters (`Env`).

## 4. What is modelled

| code | model |
|------|-------|
| cryptokit.ml 18-71 utilities, errors | `Misc`, `Basic` |
| 141-315 transforms, `compose`, channels, `auth_*` | `Transform`, `Combinators`, `Aead`; channels that fail in `ChanFault`, iterated `compose` in `Pipeline` |
| 319-436 `buffered_output`, `transform_then_hash`, `transform_and_hash` | `OBuf`, `Combinators`; the number of bytes copied in `BufCost`, a memory of several buffers in `BufHeap` |
| 440-488 paddings | `Padding` |
| 492-766 block ciphers and modes | `Block`, `Checked`, `Aes`, `Aesni`, `Des`, `Blowfish` |
| 770-981 `Block.cipher`, padded variants, `mac`, `mac_final_triple`, `cmac` | `Transform`, `Mac` |
| 994-1068 stream ciphers | `Stream` |
| 1076-1337 hashes | `SHA`, `Ripemd`, `Keccak`, `Blake2`, `Blake3` |
| 1343-1406 `Cipher` | `Cipher` |
| 1410-1530 `HMAC`, `MAC` | `Hmac`, `MacEntry`, `SipHash`; the key string as a memory cell in `SharedKey` |
| 1543-1807 `AEAD` | `Aead`, `Ghash`, `Poly1305` |
| 1813-1951 `Random` | `Random`; the seed string as a memory cell in `SharedSeed` |
| 1955-2236 `RSA`, `Paillier`, `DH` | `Pubkey`; with a memory of numbers and strings in `NumHeap`; histories of calls on private secrets in `SecretUse`; sums of encrypted numbers in `Tally` |
| 2240-2487 `Base64`, `Hexa` | `Codec` |
| 2491-2623 `Zlib` | `Zlib`; with machine integers in `ZlibW` |
| 2626-2639 checked `xor_bytes`, `xor_string` | `Misc` |
| cryptokitBignum.ml | `Bignum` |
| arithmetic of OCaml's `int` in the methods, on 63 or 31 bits | `MachineInt` |
| rijndael-alg-fst.c, aesni.c, d3des.c, blowfish.c | `Aes`, `Aesni`, `Des`, `Blowfish`, tables included (`AesTables`, `DesTables`, `BlowfishTables`); words and bytes in `Words` |
| arcfour.c, chacha20.c | `Stream` |
| stubs-rng.c for Windows and for systems without a source | `SystemRng` |
| errors built by stubs-zlib.c, stubs-zlib.c without zlib, constructors passed to C | `Interop` |
| `input_block_size`, `output_block_size` of every class | `Sizes` |
| the code under `ARCH_BIG_ENDIAN` | `Endian` |
| sha1.c, sha256.c, sha512.c, ripemd160.c, keccak.c, blake2.c | `Hash`, `SHA`, `Ripemd`, `Keccak`, `Blake2` |
| blake3.c, blake3_dispatch.c, blake3_portable.c | `Blake3`, for any `MAX_SIMD_DEGREE` |
| siphash.c, poly1305-donna-64.h, poly1305-donna-32.h, ghash.c, pclmul.c | `SipHash`, `Poly1305`, `Poly1305w32`, `Ghash` |
| stubs-*.c | with the classes that use them; their use of the garbage collector in `Gc`, their detection variables in `Dispatch`, their C heap in `Lifetime`; stubs-md5.c in `Md5` |

## 5. What is not modelled, and what is assumed

* **OCaml runtime**: compilation, `Out_of_memory`. Signals whose handler raises an exception are
  modelled for C115 to C118, in the ciphers, the authenticated ciphers, the MACs, the hash functions,
  the pseudo-random generators, `Zlib`, `Base64`, `Hexa`, `compose`,
  `transform_then_hash` and `transform_and_hash`. The garbage collector is modelled for
  C66, as an adversary that moves what it knows of and spoils the rest of the heap, and for C71,
  as an adversary that finalizes objects. Threads are modelled for C70 only.
* **MD5**: the code belongs to the OCaml runtime; C69 assumes that it is right. The stub, which
  declares the length as an `unsigned`, is modelled as passing its 32 low bits, as compilers do.
* **Zarith**: numbers are `Int`. `Z.to_bits` gives whole digits of 8 or 4 bytes;
  `Z.powm_sec` raises `Invalid_argument` unless the exponent is positive and the modulus
  odd, `Z.invert` raises `Division_by_zero` when there is no inverse. `Z.nextprime` is a parameter; where a theorem needs it to return a prime, it
  says so. In the model with references (C77) a result may be one of the arguments, as the
  environment chooses, except for `powm_sec` and `of_bits`, whose results are always new. cryptokitBignumOld.ml is not compiled and not modelled.
* **zlib**: an arbitrary engine; the theorems state the contract they need (`Spec.Zlib`).
* **Entropy**: `getentropy`, the device and RDRAND are arbitrary sources, with an arbitrary
  schedule of failures and short reads. On Windows, a call with a released handle fails, and a failing call writes nothing (`SystemRng`).
* **x86 intrinsics** (AES-NI, PCLMULQDQ): modelled after Intel's description.
* **BLAKE3**: the SSE and AVX variants are not part of the build (src/dune).
* **Big-endian machines**: the code under `ARCH_BIG_ENDIAN` is modelled in `Endian`, with the byte
  order as a parameter; C73 proves that it makes no difference. The other models are those of a
  little-endian machine.
* **Timing**: C39 is about the sequence of memory accesses of the model, not about time.
* **Buffers that are abandoned**: `ensure_capacity` replaces the output buffer without
  erasing it, and the channel functions leave their buffer as it is when an exception
  escapes; C63 says nothing about such memory, C81 and C111 do.

