# A Lean 4 model of cryptokit

This file says what is modelled, how each property of `properties.jsonl` is proved
and what has to be trusted. `MANIFEST.json` gives the theorems of each property.

## 1. Trusted base

* **Lean 4.33.0's kernel.** No axioms of our own, no `sorry`, no `admit`, no
  `native_decide`, no `bv_decide`. `AXIOMS.txt` lists the axioms of every theorem named
  in the manifest (regenerate it with `tools/gen_axioms.py`); they are among `propext`,
  `Classical.choice` and `Quot.sound`, the axioms of Lean's library and of Mathlib.
* **The reading of the source.** The code was not run. Every definition under
  `lean/Verif/Model` has a comment that cites the file and the lines of `/repo` that it
  models, and says where it simplifies. `tools/conformance.py` runs the model on the test
  vectors of `/repo/test/test.ml` (641 checks: AES on both code paths, Blowfish, DES, triple
  DES, ARCfour, ChaCha20, GCM on both code paths, ChaCha20-Poly1305, SHA-1, SHA-2, SHA-3,
  Keccak, RIPEMD-160, BLAKE2, BLAKE3 at three SIMD widths, GHASH, Poly1305 in both
  versions, SipHash, HMAC, CMAC, the modes, Base64, hexadecimal): all agree. This is a test
  of the reading, outside of the proofs.
* **The specifications** under `lean/Verif/Spec`, written from the standards: FIPS 46-3,
  180-4, 197, 202; SP 800-38A, B, D; RFC 2104, 4493, 4648, 7693, 8439; the papers on
  BLAKE3, SipHash, RIPEMD-160, Blowfish. Known-answer `example`s, checked by the kernel,
  guard against a misreading of a standard; they test the specifications, they are not
  the proofs.
* **Contracts of code that is not in the repository**: Zarith, zlib, `getentropy`, `read`,
  RDRAND, channels, x86 intrinsics. They appear as definitions in the model or as explicit
  hypotheses of theorems; see section 5.

## 2. Layout

* `lean/Verif/Model/*` the model of the code (OCaml and C).
* `lean/Verif/Spec/*`  small specifications, independent of the model.
* `lean/Verif/Proof/*` lemmas.
* `lean/Verif/Props/*` the property theorems, each file with `example`s that meet the
  hypotheses of its theorems.
* `seeded/LOG.jsonl`   wrong programs on which the theorems were tried.
* `tools/*`            generators of the manifest, the property list and the imports, and
  the driver of the seeded bugs.

## 3. Conventions

* A byte is `BitVec 8`; OCaml `string` and `bytes` are `List Byte`. C words are `BitVec 32`
  and `BitVec 64`, with their wrap-around. `int64` is `BitVec 64` with signed comparison.
  OCaml `int` is `Int`, without its wrap-around at 63 (or 31) bits. Offsets and lengths are
  `Int`, so negative and out-of-range arguments are covered. `Model/MachineInt` models again, with
  wrap-around, the methods that compute on the caller's offsets and lengths; C82 states when
  this makes a difference.
* A method is a function from the state of the object to an outcome: `ok result state`,
  `exn exception state` (with the state reached when the exception escapes), `ub` (C code
  accesses memory outside a buffer) or `loop`. Nothing is made total silently: an OCaml
  bounds check that fails is `exn invalidArg`, an unchecked C access out of bounds is `ub`.
* Objects of a class are records of methods over their state (`Transform`, `HashObj`,
  `AuthTransform`, `BlockCipher`, `StreamCipher`). Histories of calls are lists of
  operations, run from the state of a new object.
* Aliasing: block and stream transforms take a source that is either distinct from the
  destination or *the destination itself*; in the latter case every read sees earlier
  writes. An object's private buffer passed back to it, and `compose t t`, are not modelled.
* `Sys.max_string_length` and the contents of `Bytes.create` are parameters (`Env`).

## 4. What is modelled

| code | model |
|------|-------|
| cryptokit.ml 18-71 utilities, errors | `Misc`, `Basic` |
| 141-315 transforms, `compose`, channels, `auth_*` | `Transform`, `Combinators`, `Aead`; channels that fail in `ChanFault`, iterated `compose` in `Pipeline` |
| 319-436 `buffered_output`, `transform_then_hash`, `transform_and_hash` | `OBuf`, `Combinators`; the number of bytes copied in `BufCost`, a memory of several buffers in `BufHeap` |
| 440-488 paddings | `Padding` |
| 492-766 block ciphers and modes | `Block`, `Checked`, `Aes`, `Aesni`, `Des`, `Blowfish` |
| 770-981 `Block.cipher`, padded variants, `mac`, `mac_final_triple`, `cmac` | `Transform`, `Mac` |
| 994-1068 stream ciphers | `Stream` |
| 1076-1337 hashes | `SHA`, `Ripemd`, `Keccak`, `Blake2`, `Blake3` |
| 1343-1406 `Cipher` | `Cipher` |
| 1410-1530 `HMAC`, `MAC` | `Hmac`, `MacEntry`, `SipHash`; the key string as a memory cell in `SharedKey` |
| 1543-1807 `AEAD` | `Aead`, `Ghash`, `Poly1305` |
| 1813-1951 `Random` | `Random`; the seed string as a memory cell in `SharedSeed` |
| 1955-2236 `RSA`, `Paillier`, `DH` | `Pubkey`; with a memory of numbers and strings in `NumHeap`; histories of calls on private secrets in `SecretUse`; sums of encrypted numbers in `Tally` |
| 2240-2487 `Base64`, `Hexa` | `Codec` |
| 2491-2623 `Zlib` | `Zlib`; with machine integers in `ZlibW` |
| 2626-2639 checked `xor_bytes`, `xor_string` | `Misc` |
| cryptokitBignum.ml | `Bignum` |
| arithmetic of OCaml's `int` in the methods, on 63 or 31 bits | `MachineInt` |
| rijndael-alg-fst.c, aesni.c, d3des.c, blowfish.c | `Aes`, `Aesni`, `Des`, `Blowfish`, tables included (`AesTables`, `DesTables`, `BlowfishTables`); words and bytes in `Words` |
| arcfour.c, chacha20.c | `Stream` |
| stubs-rng.c for Windows and for systems without a source | `SystemRng` |
| errors built by stubs-zlib.c, stubs-zlib.c without zlib, constructors passed to C | `Interop` |
| `input_block_size`, `output_block_size` of every class | `Sizes` |
| the code under `ARCH_BIG_ENDIAN` | `Endian` |
| sha1.c, sha256.c, sha512.c, ripemd160.c, keccak.c, blake2.c | `Hash`, `SHA`, `Ripemd`, `Keccak`, `Blake2` |
| blake3.c, blake3_dispatch.c, blake3_portable.c | `Blake3`, for any `MAX_SIMD_DEGREE` |
| siphash.c, poly1305-donna-64.h, poly1305-donna-32.h, ghash.c, pclmul.c | `SipHash`, `Poly1305`, `Poly1305w32`, `Ghash` |
| stubs-*.c | with the classes that use them; their use of the garbage collector in `Gc`, their detection variables in `Dispatch`, their C heap in `Lifetime`; stubs-md5.c in `Md5` |

## 5. What is not modelled, and what is assumed

* **OCaml runtime**: compilation, `Out_of_memory`. Signals whose handler raises an exception are
  modelled for C115 to C118, in the ciphers, the authenticated ciphers, the MACs, the hash functions,
  the pseudo-random generators, `Zlib`, `Base64`, `Hexa`, `compose`,
  `transform_then_hash` and `transform_and_hash`. The garbage collector is modelled for
  C66, as an adversary that moves what it knows of and spoils the rest of the heap, and for C71,
  as an adversary that finalizes objects. Threads are modelled for C70 only.
* **MD5**: the code belongs to the OCaml runtime; C69 assumes that it is right. The stub, which
  declares the length as an `unsigned`, is modelled as passing its 32 low bits, as compilers do.
* **Zarith**: numbers are `Int`. `Z.to_bits` gives whole digits of 8 or 4 bytes;
  `Z.powm_sec` raises `Invalid_argument` unless the exponent is positive and the modulus
  odd, `Z.invert` raises `Division_by_zero` when there is no inverse. `Z.nextprime` is a parameter; where a theorem needs it to return a prime, it
  says so. In the model with references (C77) a result may be one of the arguments, as the
  environment chooses, except for `powm_sec` and `of_bits`, whose results are always new. cryptokitBignumOld.ml is not compiled and not modelled.
* **zlib**: an arbitrary engine; the theorems state the contract they need (`Spec.Zlib`).
* **Entropy**: `getentropy`, the device and RDRAND are arbitrary sources, with an arbitrary
  schedule of failures and short reads. On Windows, a call with a released handle fails, and a failing call writes nothing (`SystemRng`).
* **x86 intrinsics** (AES-NI, PCLMULQDQ): modelled after Intel's description.
* **BLAKE3**: the SSE and AVX variants are not part of the build (src/dune).
* **Big-endian machines**: the code under `ARCH_BIG_ENDIAN` is modelled in `Endian`, with the byte
  order as a parameter; C73 proves that it makes no difference. The other models are those of a
  little-endian machine.
* **Timing**: C39 is about the sequence of memory accesses of the model, not about time.
* **Buffers that are abandoned**: `ensure_capacity` replaces the output buffer without
  erasing it, and the channel functions leave their buffer as it is when an exception
  escapes; C63 says nothing about such memory, C81 and C111 do.

## 6. Plan and status per property

| id | property | modelled | proof | status |
|----|----------|----------|-------|--------|
| C01 | Output buffering is a FIFO queue | `buffered_output`: byte array, `obeg`, `oend`, growth loop | refinement to a queue, induction over histories | proved |
| C02 | Block-cipher transforms do not depend on how input is cut | `Block.cipher` over an abstract block cipher | invariant: bytes processed ++ bytes pending = input; induction over histories | proved |
| C03 | Wrong_data_length is raised exactly on incomplete blocks | same | same invariant: `finish`/`flush` raise iff the pending part is not empty | proved |
| C04 | Padding schemes are unambiguous | both padding classes on byte arrays | case analysis, list induction | proved |
| C05 | Padded encryption followed by padded decryption is the identity | padded encryption and decryption classes | from C02 and C04, for every history of the two transforms | proved |
| C06 | Padded decryption rejects exactly malformed input | padded decryption | from C02 and C04 | proved |
| C07 | CBC mode is CBC and its two directions are inverse | `cbc_encrypt`, `cbc_decrypt` | induction over blocks, refinement to SP 800-38A; equal blocks of source and destination allowed | proved |
| C08 | CFB-n mode is CFB and its two directions are inverse | `cfb_encrypt`, `cfb_decrypt`, any segment size | same | proved |
| C09 | OFB-n mode is OFB and is its own inverse | `ofb` | same | proved |
| C10 | Counter mode encrypts IV, IV+1, IV+2, ... and is its own inverse | `ctr`, `increment_counter`, any counter size | same | proved |
| C11 | Counter mode never reuses a counter block | `max_transf` | invariant over histories, injectivity of counters | proved |
| C12 | Block transforms give the same result in place | all transforms with source = destination | the run in place and the run on a copy give the same bytes | proved |
| C13 | Block transforms check their bounds | all transforms with integer offsets | case analysis; witness of UB for `cbc_encrypt` | partial |
| C14 | Key and IV size validation | constructors and entry points | decision logic: exact condition of success, exact exception otherwise | proved |
| C15 | CBC-MAC is CBC-MAC for every chunking | `Block.mac`, `MAC.*` | refinement to CBC-MAC, induction over histories | proved |
| C16 | mac_final_triple super-enciphers the CBC-MAC | `mac_final_triple` | same | proved |
| C17 | AES-CMAC conforms to NIST SP 800-38B | `cmac`, `MAC.aes_cmac` | refinement to SP 800-38B | proved |
| C18 | Stream-cipher transforms do not depend on how input is cut and are involutive | `Stream.cipher` | induction over histories, position in the keystream | proved |
| C19 | ARCfour is RC4 | arcfour.c | refinement to RC4 | proved |
| C20 | ChaCha20 conforms to RFC 8439 and to the original variant | chacha20.c | refinement to RFC 8439 and to the 64-bit counter variant | proved |
| C21 | ChaCha20 keystream blocks are not reused | chacha20.c counter | distinctness within the period; witness of reuse beyond | partial |
| C22 | SHA-1 conforms to FIPS 180-4 | sha1.c | buffering invariant, compression = FIPS 180-4, padding | proved |
| C23 | SHA-224 and SHA-256 conform to FIPS 180-4 | sha256.c | same | proved |
| C24 | SHA-384 and SHA-512 conform to FIPS 180-4 | sha512.c | same | proved |
| C25 | hash_size is the length of the result | `hash_size` of every class | per class; witnesses for sha224, ripemd160 | partial |
| C26 | RIPEMD-160 conforms to its specification | ripemd160.c | as C22 | proved |
| C27 | SHA-3 and Keccak conform to FIPS 202 / the Keccak submission | keccak.c | sponge invariant, permutation = FIPS 202 | proved |
| C28 | BLAKE2b and BLAKE2s conform to RFC 7693 | blake2.c | last block kept back: invariant; RFC 7693 | proved |
| C29 | BLAKE3 conforms to its specification | blake3.c | invariant of the stack of chaining values against the recursive tree, for any SIMD degree | proved |
| C30 | SipHash conforms to its specification | siphash.c | partial word invariant | proved |
| C31 | HMAC conforms to RFC 2104 | `HMAC` over an abstract hash, and instances | list algebra | proved |
| C32 | Poly1305 conforms to RFC 8439 | both versions of poly1305-donna | bounds on limbs, congruence modulo 2^130 - 5 | proved |
| C33 | GHASH multiplication is multiplication in GF(2^128) | ghash.c, pclmul.c | linearity over GF(2); both equal multiplication in the field of SP 800-38D | proved |
| C34 | AES-GCM conforms to SP 800-38D | AES-GCM classes | refinement to SP 800-38D, every history | proved |
| C35 | ChaCha20-Poly1305 conforms to RFC 8439 | ChaCha20-Poly1305 classes | refinement to RFC 8439, every history | proved |
| C36 | Authenticated decryption inverts authenticated encryption | both AEADs | from C34, C35 | proved |
| C37 | auth_check_transform_string releases data only when the tag matches | `auth_check_transform_string` | exact condition of acceptance | proved |
| C38 | AEAD message-length limits prevent counter reuse | length checks of both AEADs | no block of keystream used twice, exact limit; witness of reuse | partial |
| C39 | Constant-time equality decides equality and its access pattern ignores contents | `seq_equal` | result and trace of accesses, induction | proved |
| C40 | xor_bytes / xor_string | xor stubs, with aligned word loop | induction; exact condition of `Invalid_argument` | proved |
| C41 | AES conforms to FIPS 197 and decryption inverts encryption | rijndael-alg-fst.c with its tables | T-table identities over all bytes, induction over rounds, FIPS 197 | proved |
| C42 | Hardware and table-based AES agree | aesni.c | lanes against words; both key schedules | proved |
| C43 | DES and Triple-DES conform to FIPS 46-3 | d3des.c with its tables | linear maps on a basis, S-boxes over all inputs, FIPS 46-3 | proved |
| C44 | Blowfish decryption inverts encryption | blowfish.c with its tables | Feistel inverse; the tables are the digits of pi (`Real.pi`) | proved |
| C45 | Base64 decoding inverts Base64 encoding | `Base64.encode`, `decode` | induction over input | proved |
| C46 | Base64 multiline layout | `Base64.encode_multiline` | induction over input | proved |
| C47 | Base64 decoding rejects exactly ill-formed text | `Base64.decode` | exact set of accepted strings | proved |
| C48 | Hexadecimal encoding round-trips and decoding rejects exactly ill-formed text | `Hexa` | same | proved |
| C49 | compose is function composition | `compose` over abstract transforms | induction over histories | proved |
| C50 | transform_string and transform_channel agree | `transform_channel`, arbitrary sizes of reads | induction on what remains to be read | proved |
| C51 | hash_string and hash_channel agree | `hash_channel` | same | proved |
| C52 | transform_then_hash and transform_and_hash | `transform_then_hash`, `transform_and_hash` | induction over histories | proved |
| C53 | RSA decryption inverts encryption; signatures unwrap | `RSA` over arbitrary keys and `new_key` | Mathlib: Fermat, Chinese remainder | proved |
| C54 | RSA rejects messages not smaller than the modulus | `RSA` | decision logic; witnesses | partial |
| C55 | Paillier decryption inverts encryption | `Paillier` | binomial expansion modulo n^2 | partial |
| C56 | Paillier addition is homomorphic | `Paillier.add` | same | partial |
| C57 | Diffie-Hellman agreement | `DH` | commutation of powers | partial |
| C58 | DH.derive_key | `DH.derive_key` | induction over blocks | proved |
| C59 | Big-endian conversions of big integers | `Bn.of_bytes`, `Bn.to_bytes` | exact condition of success; witnesses | partial |
| C60 | mod_power and mod_mult | `RSA.encrypt`-level `mod_power`, `mod_mult` | same | partial |
| C61 | Pseudo-random generators are deterministic streams independent of request sizes | `pseudo_rng`, `pseudo_rng_aes_ctr` | position in the stream, induction over requests | proved |
| C62 | Entropy-source generators fill the whole request or raise | `system_rng`, `device_rng`, `hardware_rng`, `secure_rng` | arbitrary source and schedule of failures | proved |
| C63 | wipe erases buffers and key material and leaves the object memory-safe | every `wipe` | state after `wipe`; witnesses | partial |
| C64 | Zlib transforms feed all input and collect all output | `Zlib` classes over any engine | induction on the progress of the engine; witnesses | partial |
| C65 | Substring arguments are validated before any memory access | every method of every class | an invariant per class, arbitrary histories of legal and illegal calls; witnesses | partial |
| C66 | Context-creating stubs survive garbage collection | stubs under a moving collector | every behaviour of the collector; witnesses | partial |
| C67 | Cipher entry points decrypt what they encrypt | `Cipher` | composition of C05-C10, C41-C44 | proved |
| C68 | Flushing does not change what a transform means | `flush` of every transform | induction over histories; witness | partial |
| C69 | MD5 is that of RFC 1321 and HMAC-MD5 that of RFC 2104 | stubs-md5.c, class `md5`, HMAC-MD5, over any implementation of the runtime's MD5 | history of additions, refinement to RFC 1321; witness of truncation | partial |
| C70 | Results do not depend on the race to detect processor instructions | detection variables and key preparation, as a transition system of any number of threads | invariant over interleavings; both implementations equal the standard (C33, C41, C42) | proved |
| C71 | Memory outside the OCaml heap is freed once and never used afterwards | C heap, custom blocks, finalizers | ownership invariant over histories; witness of a leak for Zlib | partial |
| C72 | input_block_size and output_block_size tell which messages are accepted and the length of the result | methods input_block_size and output_block_size of every class | from the theorems on whole messages; witnesses for compose and empty padded decryption | partial |
| C73 | Results do not depend on the byte order of the machine | the code under ARCH_BIG_ENDIAN, with the byte order as a parameter | the objects for the two byte orders are equal | proved |
| C74 | Keys may be erased once the object is created | HMAC objects with the caller's key string as a shared memory cell | exact result of every session in which the key is erased; witness | partial |
| C75 | A modified ciphertext, header or tag is accepted under few keys only | nothing new: the AEAD models of C34 and C35 | 2^130 - 5 is prime (Pratt certificate), x^128 + x^7 + x^2 + x + 1 irreducible (trace), number of roots of a polynomial over a field | proved |
| C76 | Data of any length goes through a transform when the output is retrieved as it comes | nothing new: the transforms and `transform_channel` of C02-C06, C18, C34, C35, C45-C49 | invariant on the data pending since the last retrieval, with a bound on the output per input byte | proved |
| C77 | Erasing temporaries and private keys never changes a result | Model/NumHeap: the public-key functions again, on references to numbers and strings, with every erasure and every possible sharing | simulation: each step in memory refines the step on values; provenance of the result of `mod_power_CRT` | proved |
| C78 | Random secrets are uniformly distributed, given uniform random bytes | nothing new: `bnRandom` of C57-C60 | closed form of the number in terms of the bytes; residue classes have equal sizes | proved |
| C79 | A collision of a hash function is a collision of its compression function | nothing new: the hash objects of C22-C26, C69 | Merkle-Damgard theorem: induction on the blocks from the last one; injectivity of the padding and of the digest | proved |
| C80 | The byte array returned by get_substring can be read until more output is produced, and even modified | `buffered_output` with references to buffers (Model/BufHeap.lean) | simulation by the model without references; frame conditions | proved |
| C81 | wipe erases all the output buffers that the object has used | the same | invariant on the number of buffers; direct computation for the negative part | partial |
| C82 | Extreme offsets and lengths are handled as other illegal ones, despite the wrap-around of integers | the methods doing arithmetic on the caller's offsets and lengths, once more, with w-bit integers (Model/MachineInt, Model/ZlibW) | simulation by the methods on mathematical integers, on all reachable states; closed form of the doubled sizes for the infinite loop | partial |
| C83 | Generated keys and parameters have the requested size and kind | key generation and DH parameters (Model/Pubkey, Bignum) | inversion of the retry loops; bounds of products; concrete runs with proved 64-bit primes for the falsity | partial |
| C84 | RSA.new_key returns matching keys or raises an exception for every fixed exponent | RSA.new_key with a fixed exponent | gcd with p - 1, which is even; Bezout and Euler's theorem for negative exponents | partial |
| C85 | Keys derived from different data are different | DH.derive_key | C58, injectivity of concatenation and of decimal notation, Merkle-Damgard theorem of C79 | partial |
| C86 | A call that raises an exception has no effect | Stream.cipher, Block.cipher, cipher_padded_encrypt, cipher_padded_decrypt, the authenticated ciphers, the MACs built on block ciphers, Base64, Hexa, buffered_output, compose | the result and the effect of every call, legal or not, depend only on the abstract state (position or cipher state, pending input, pending output); failed calls keep it | partial |
| C87 | The memory that a transform holds for its output is at most twice the output | buffered_output with a count of the bytes moved (Model/BufCost) | invariant on the size of the buffer and the longest queue so far | proved |
| C88 | The time spent to manage the output is proportional to the output | the same | amortised analysis of doubling; closed form of the count for the negative part | partial |
| C89 | Messages encrypted under the same key with different IVs never share a keystream block | the models of C16, C20, C34 and C35 | dependence of the results on the block cipher; roots of the difference of two GHASH polynomials; injectivity of ChaCha20 states | partial |
| C90 | DES keys: parity bits are ignored, 16-byte keys stand for k1 k2 k1, equal keys reduce triple DES to DES | d3des.c (key schedule), the classes of DES and triple DES, the entry points of Cipher and MAC | masks of the table pc1 checked over the whole table; inverse property of C43 | proved |
| C91 | Errors in the ciphertext damage a bounded part of the decrypted text | the models of C07-C11 and C67 | induction on the list of blocks | proved |
| C92 | Collisions of BLAKE2, BLAKE3 and HMAC objects are collisions of what they are built on | the BLAKE2, BLAKE3 and HMAC objects (Model/Blake2, Model/Blake3, Model/Hmac); lists of applications of the compression functions in Spec/CallCollision | from C28, C29, C31: chains of compressions are injective unless two applications collide; counters, start, parent and root flags separate the kinds of applications; induction on the tree of BLAKE3 | proved |
| C93 | Pseudo-random generators: the part of the seed that counts, and the period of the output | the generators of C61 | from C61; AES is injective (C41) and so is the encoding of counters; congruences modulo the period | proved |
| C94 | The other party cannot force the Diffie-Hellman shared secret | DH.shared_secret (Model/Pubkey) | arithmetic modulo p; order of an element of the multiplicative group, which divides p - 1 (Mathlib) | partial |
| C95 | Nothing is revealed past the maximal length of a message | Aead, Transform, Stream: the state an exception leaves | Spec/Released: output of a trace in which exceptions are caught; invariant relating the count of bytes, the pending output and what was released, kept by every call whether it returns or raises; counterexamples by following the two or three calls from a state described exactly | partial |
| C96 | Keys, parameters and secrets are made of the first suitable numbers drawn from the generator | Bn.random, Bn.random_prime, RSA.new_key, Paillier.new_key, Paillier.encrypt, DH.new_parameters, DH.private_secret (Model/Bignum, Model/Pubkey) | Spec/Draw: an inductive relation for the first suitable draw; induction on the number of attempts, numbers made of strings as in C78 | proved |
| C97 | Results never depend on uninitialised memory | all the classes of ciphers, codecs, hashes and MACs, with an environment that gives the contents of fresh memory | Spec/Uninit; two runs in lockstep (Proof/Sim), related by the equality of the initialised parts of their buffers; for block ciphers, both runs follow the same abstract run | partial |
| C98 | The system generator fills the request or raises on every system | the three versions of the stubs, with the system's source as an environment | case analysis; `Model/SystemRng` | partial |
| C99 | Errors and commands keep their meaning between OCaml and C | the representation of OCaml constructors, the blocks that the C code builds, the two versions of stubs-zlib.c | injectivity of the representation by induction over type declarations; `Model/Interop` | partial |
| C100 | Which keys are interchangeable | the constructors of ciphers, hashes and MACs, as functions of the key | induction over the key schedules for ARCfour and Blowfish, C31 for HMAC, injectivity of the encodings of words and of the AES key expansion | proved |
| C101 | CBC-MACs distinguish messages of one length, CMAC messages of all lengths | MacEntry and Mac, as in C14-C17 | through the values given by C15-C17: algebra of the CBC chain (appending, one-to-one in the chaining value because the cipher is), padding functions one-to-one, doubling in GF(2^128) zero only at zero | proved |
| C102 | Public-key ciphertexts correspond to messages one to one, and multiply | Pubkey: RSA and Paillier | rsa_inverse for the two directions; Paillier: the n-th power is one to one modulo n because n has an inverse modulo the exponent of the private key, and (r + kn)^n = r^n modulo n^2 | proved |
| C103 | Secrets drawn until they are suitable are uniform among the suitable ones | Pubkey, Bignum: the loops that draw again | generator that reads a tape of numbers; an involution of the tapes exchanges the strings that give two suitable numbers and commutes with the loop, so that both have as many tapes; for primes, count of the random strings between two consecutive primes | partial |
| C104 | The functions on whole strings and channels wipe the object before they return | Transform, Hash, Aead: the seven functions on whole strings and channels | inversion of a run that returns: its last step is the method wipe; combined with C63 (states that wipe leaves); an exception leaves the key, followed explicitly for strings shorter than a block | proved |
| C105 | Chaining modes can be stacked on each other | Block, Cipher (chained), Transform | Each mode class is proved to run over any block cipher object described by a state-dependent function that may raise (Proof/Tower, BlockRuns); by induction on the list of modes the object tracks the machine of Spec/Tower and counts blocks; inversion by a bisimulation between the encrypting and the decrypting machines, by induction on the list of modes. | proved |
| C106 | Every generator made from a seed string gives the stream of that seed, and the string is left alone | SharedSeed, Random | the seed string is a memory cell next to all the generators made from it; refinement, by induction on the list of calls, of a specification in which each generator is a stream and a position | partial |
| C107 | DH.shared_secret destroys the private secret, which can no longer be used | SecretUse, Pubkey | the secrets are memory cells that shared_secret overwrites; the outcome of each call is a function of the calls before it, by induction on the history | partial |
| C108 | What two messages encrypted with the same key and IV reveal about each other | Cipher, Block, Stream, Aead | from the conformance theorems C67, C34, C35: OFB, CTR, GCM and the stream ciphers are xors with a keystream that does not depend on the message; the modes commute with taking a prefix and are injective; block by block equations for CBC and CFB | proved |
| C109 | Sums of any number of encrypted numbers | Tally, Pubkey | induction on the binary tree of additions, with the homomorphism of C56; the value of a tree is the product of its leaves modulo n2 | partial |
| C110 | transform_channel and hash_channel over channels that fail | ChanFault | the channels fail when the environment says so; by induction on the loop, the calls made on the object are always those of some history, and what was written is a beginning of what this history delivers | proved |
| C111 | The buffer through which a channel is read is erased | ChanFault | the buffer is part of the state; same induction, and a run that ends with End_of_file | partial |
| C112 | Pipelines of any number of transforms, in any grouping | Pipeline, Combinators | induction on the tree of compositions, with C49 at each node; the function of a tree depends only on its leaves | proved |
| C113 | Digests can be extended without the message | SHA, Ripemd, Md5 | the functions that extend digests are in Spec/Extension.lean; the iteration splits at a multiple of the block size, and the chaining value is read off the digest; C22-C24, C26 and C69 carry this to the objects | proved |
| C114 | A collision of SHA-3 or Keccak is a collision inside the sponge | Keccak | the padding is unambiguous on bits; each step of the permutation is injective: for theta, the mixing of column parities repeated 64 times loses its rotations, and what is left is injective; a case distinction on the last blocks | proved |
| C115 | Calls interrupted by signals leave the objects safe | Interrupt, InterruptAead, InterruptMac, InterruptZlib, InterruptCodec, InterruptCompose, InterruptAuth | the methods again, with a point between any two statements where an adversary may raise; the invariant of C65 is weakened to what holds at every point (the end of the output is within the buffer, whatever its beginning), and is enough | proved |
| C116 | Counter blocks stay fresh when calls are interrupted | Interrupt, InterruptAead | one call from counter v returns with v + 1 or raises with v, v + 1 or, if a carry is due, anything; induction on the history; the counter-examples are evaluated by the kernel | partial |
| C117 | Pseudo-random bytes are not given twice when requests are interrupted | InterruptRng, Random | the position in the stream never goes back, at any point of a call, unless a carry is due; induction on the blocks of a request and on the history; the run that repeats its first bytes is constructed for every seed | partial |
| C118 | Additions to a hash are all or nothing when calls are interrupted | InterruptHash, Hash, Hmac | each method makes one call to C code, with an interruption point before and one after; an interrupted call has either changed nothing or done all its work; induction on the history, from the theorems on whole histories (C22-C31) | proved |

Notes on the properties that are not proved as stated:

* **C13** False of the code for Block.cbc_encrypt: it xors the source through an unchecked C stub before any bounds check (C13_cbc_encrypt_source_unchecked). Proved for every other cipher and mode.
* **C21** False of the code: with a 12-byte IV the 32-bit block counter wraps silently and the keystream repeats after 2^38 bytes (C21_chacha20_reuses_keystream). Proved: block inputs are distinct within 2^32 (2^64 with an 8-byte IV) blocks.
* **C25** False of the code: hash_size is 24 for SHA-224 (digest of 28 bytes) and 32 for RIPEMD-160 and HMAC-RIPEMD-160 (20 bytes). Proved for all the others.
* **C38** Proved for AES-GCM. False of the code for ChaCha20-Poly1305 with 12-byte IVs: messages of 2^38 - 63 to 2^38 bytes are accepted and their end is encrypted with the block that gives the Poly1305 key (C38_chapoly_leaks_poly1305_key).
* **C54** Message_too_long is raised exactly as stated, for every key. The result has ceil(size/8) bytes for keys whose size is a number of machine words; for others the code raises Invalid_argument (C54_rsa_unaligned_fails), and new_key itself fails for most sizes that are not multiples of 128 bits (C54_rsa_new_key_sizes).
* **C55** All messages except 0, for which encrypt raises Invalid_argument (C55_paillier_zero_fails).
* **C56** All messages except 0, which cannot be encrypted.
* **C57** Complete for the parameters returned by new_parameters; for parameters supplied by the user, the length of p must be a number of machine words, otherwise the code may raise Invalid_argument (C57_dh_unaligned_fails).
* **C59** to_bytes with a size fails on numbers that fit when the size in bytes is not a number of machine words (C59_to_bytes_unaligned_fails); C59_to_bytes_exact says exactly when it succeeds.
* **C60** Results are right whenever there is one; there is none for short moduli, even moduli and exponent 0.
* **C63** Erasure holds of every class but AES-GCM (C63_gcm_wipe_incomplete) and pseudo_rng_aes_ctr (C63_pseudo_rng_aes_ctr_wipe_ineffective). Use after wipe stays in bounds (the theorems C65_* whose set of calls is anyCall) except with AES, whose wipe sets 16 rounds (C63_aes_encrypt_after_wipe_out_of_bounds), SHA-3 and BLAKE3, whose context is freed. Buffers replaced by larger ones are never erased (C81).
* **C64** Every engine that keeps to the documented behaviour of zlib, whatever it uses and produces at each call. For calls that put less than 4 GiB, and less than 2 GiB of output waiting: either in total, or, for streams of any length, between two calls that take the output (the _streaming theorems). A longer string loses 4 GiB of data (C64_compress_large_string): avail_in has 32 bits. So has avail_out: once 4 GiB of output are waiting, 4 GiB of garbage are inserted in the output (C64_compress_large_output, C64_compress_large_output_reached). A truncated stream is accepted if a space completes it.
* **C65** Every class, every reachable state and all arguments, except: put_substring of AEAD.chacha20_poly1305 Decrypt and of Zlib does not check its arguments and reads out of bounds (C65_chapoly_decrypt_out_of_bounds, C65_zlib_out_of_bounds); AES, SHA-3 and BLAKE3 objects must not be used after wipe (C63). For offsets and lengths close to max_int see C82.
* **C66** Proved, for every behaviour of a moving collector, for every stub that creates a context from a key or reads a result, except two. caml_siphash_init and caml_ghash_init (software path) do not register the key: the property is false of them, with witnesses, and holds when the collector does not move the key.
* **C68** False of the code for padded decryption: flushing after the last complete block makes finish raise Wrong_data_length (C68_padded_decrypt_flush_then_finish_raises).
* **C69** The MD5 of the OCaml runtime is a parameter of the model, assumed to be right. The stub passes the length as an unsigned int: additions of 4 GiB or more are truncated, and the property is false of them (C69_md5_large, C69_md5_collision). C69_md5_exact says what is computed in every case.
* **C71** Complete for SHA-3, BLAKE3 and GHASH. For Zlib there is no use after free, but the state allocated by zlib leaks if the object is dropped before finish (C71_zlib_leak).
* **C72** Block ciphers with and without padding, stream ciphers, Base64 and hexadecimal. False of compose, which announces the input size of its first part although the second may refuse what the first gives (C72_compose_refuses); C72_compose_partial says when it holds. transform_then_hash and transform_and_hash inherit the contract of their transform. False of padded decryption for the empty message (C72_padded_decrypt_empty). The AEAD and Zlib transforms announce 1 and 1: covered by C34, C35, C64.
* **C74** False of HMAC, which reads the key string again in result: C74_hmac_erased says what it computes then, C74_hmac_sha1_wrong is a witness. In the model the state of the other classes is built from the contents of the key and holds no reference to it, as in the code; C66 treats the stubs that copy it.
* **C81** False of the code: ensure_capacity drops the old buffer without erasing it (C81_replaced_not_erased). True as long as the output available never reaches the initial size of the buffer, 256 bytes (C81_erased_partial).
* **C82** Wrap-around has no effect on any history of legal calls, nor on calls whose arguments are at most max_int / 4 in absolute value; block ciphers (padded or not), MACs and AES-GCM behave with all arguments. False of stream ciphers, which loop forever on lengths above max_int / 2 (C82_stream_hangs), and of the encoders and decoders, which ignore some illegal ranges (C82_codec_ignores) and process the string when the length is min_int (C82_codec_min_int). Zlib gives the arguments of put_substring to C code unchecked (C65_zlib_out_of_bounds), so that C82_zlib_partial covers legal ranges only.
* **C83** False of the code for the moduli of RSA and Paillier, which can have one bit less than requested (C83_rsa_short_modulus, C83_paillier_short_modulus), and for the base of DH parameters, any random number, which need not be a generator (C83_dh_not_generator). All the rest is proved.
* **C84** True of positive odd exponents. False of even ones, on which new_key never returns (C84_even_exponent, C84_even_exponent_diverges), and of negative ones, which give keys that do not match: decrypting an encrypted message gives its inverse modulo n (C84_negative_exponent).
* **C85** Proved when only the diversification or only the secret differs. If both differ the claim is false: the two strings are simply concatenated, and a part can move from one to the other (C85_ambiguous_concatenation).
* **C86** True of all calls of the stream ciphers, and of the calls other than put_substring and put_string of the unpadded block ciphers (for modes that do not raise by themselves), of the padded ones except finish, and of Hexa and Base64, except for Output_buffer_overflow and finish of Base64 decoding. False of put_substring of block ciphers (C86_block_put_substring), of finish of padded decryption (C86_padded_decrypt_finish), of finish of Base64 decoding (C86_base64_decode_finish), of put_string of decoders (C86_hex_decode_put_string), of Output_buffer_overflow in Base64 encoding (C86_base64_encode_overflow). True of all calls of ChaCha20-Poly1305 decryption and, except for Message_too_long (see C95), of all calls of ChaCha20-Poly1305 encryption, and of the calls of AES-GCM other than put_substring and put_string, except finish_and_get_tag of decryption, of which it is false (C86_gcm_decrypt_finish). For hashes, see C65 (RangeRejected). True of the calls of MACs other than add_substring, of which it is false (C86_mac_add_substring, C86_cmac_add_substring). False of compositions, even of transforms of which it is true (C86_compose_put_char). False of put_string of Zlib.uncompress (C86_zlib_garbage); true of the calls of Zlib that do not reach the C library (C86_zlib_partial).
* **C88** True if the output is retrieved by get_string and get_substring. False with get_char and get_byte: when the buffer is full, retrieving two bytes and producing two moves the whole buffer, so that the work can be quadratic (C88_char_quadratic, C88_char_not_linear).
* **C89** True of counter mode, of AES-GCM with 12-byte IVs, of ChaCha20 with IVs of the same length. With AES-GCM IVs of other lengths counters collide for at most 2^32 n hash subkeys out of 2^128 (C89_gcm_any_iv). False of ChaCha20 and ChaCha20-Poly1305 when IVs of 8 and 12 bytes are mixed: v and 0000v give the same keystream (C89_chacha20_mixed, C89_chapoly_mixed). The empty IV of AES-GCM is accepted although the standard forbids it, and then the tag of the empty message is the hash subkey (C89_gcm_empty_iv).
* **C94** False of the code: messages that are 0, 1 or -1 modulo p are accepted and force the secret (C94_forced_secret). In general two private secrets give the same shared secret if and only if they are equal modulo the order of the message (C94_same_secret_iff); for safe primes and other messages the property holds (C94_shared_secret_partial).
* **C95** False of the code: finish_and_get_tag of AES-GCM appends the ciphertext of the last bytes before it raises Message_too_long and, called again, appends them encrypted with the block that masks the tag (C95_gcm_reveals_mask); after a put method has raised the exception, finish_and_get_tag of both ciphers may return a tag (C95_gcm_tag_after_error, C95_chapoly_tag_after_error). Proved: the other methods never release more than the maximal length, whatever the calls and the exceptions caught, within 2^63 bytes given.
* **C97** Padding schemes: those of the library. BLAKE3: histories of less than 2^64 bytes. get_substring: the bytes within the range that it returns (the buffer itself, which the caller could inspect elsewhere, does contain uninitialised memory). MD5 has no such memory in the model. False of Zlib: 4 GiB of uninitialised memory appear in the output when the output waiting reaches 4 GiB (C97_zlib_leaks); it holds as long as at most 1 GiB of output is waiting after each call.
* **C98** True with getentropy (C62_system_rng) and, on Windows, of requests of less than 2^32 bytes. False of longer ones on Windows: the length is truncated to 32 bits, and Random.string (Random.system_rng ()) 4294967296 returns uninitialised memory, without one random byte (C98_win32_string).
* **C99** False in two cases: if the version of zlib does not match, the message is read from a field that has not been initialised (C99_version_mismatch); levels are truncated to 32 bits, so that invalid ones can be accepted (C99_level_truncated).
* **C103** True of the exponent of RSA. False of the blinding numbers of Paillier: only those of exactly size-1 bits are used, uniformly (C103_blinding_partial); for example 1 never is (C103_blinding_fails). False of primes: they are found by searching upwards from a random odd number, so that a prime is as likely as the gap before it is wide (C103_prime_gap, for the first draw).
* **C106** False of the code: wipe overwrites the seed string of the caller, and a generator made from it afterwards delivers the stream of the all-zero seed, whatever the seed was (C106_*_predictable, C106_pseudo_rng_fails). True if all generators are created before the first wipe (_partial); the _exact theorems say what happens in every case.
* **C107** True of private secrets of 63 bits or more (the default is 160), in every history. False of shorter ones, which are never destroyed (C107_short_secret_survives, C107_secret_use_fails); C107_secret_use_exact says what happens in every case. A call that raises leaves the secrets as they are (C107_exception_keeps).
* **C109** All terms except 0, which cannot be encrypted (C55_paillier_zero_fails). The independence of the order holds for all strings.
* **C111** True if the function returns. False if reading raises an exception: the last bytes read stay in the buffer (C111_hash_channel_keeps, with End_of_file).
* **C116** False as stated: C116_reuse is a run of Cipher.des in counter mode in which an interrupted carry makes two blocks use the same key stream; C116_limit shows that the limit on the number of blocks is not kept. C116_ctr_partial: it holds if no call is interrupted when the last byte of the counter is 0xFF and the calls, completed or not, are no more than the values of the counter. C116_gcm_partial and C116_gcm_reuse are the same for AES-GCM, where no block may use the mask of the tag either.
* **C117** False as stated for pseudo_rng_aes_ctr: C117_repeats constructs, for every seed, a run in which an interrupted carry makes the generator give its first 16 bytes twice. C117_aes_ctr_partial: it holds if no call is interrupted that may increment a counter whose last byte is 0xFF. C117_pseudo_rng: it holds for pseudo_rng without restriction. C117_quiet: without interruptions these are the generators of C61.

## 7. What the proofs found

Each entry is a theorem about the model, with a concrete witness, and is a defect or a
surprise of the code as it stands.

1. `Hash.sha224` and `Hash.ripemd160` announce 24 and 32 bytes but return 28 and 20
   (`C25_sha224_wrong_size`, `C25_ripemd160_wrong_size`, `C25_hmac_ripemd160_wrong_size`). With
   them `auth_check_transform_string` never accepts (`C52_sha224_never_accepted`).
2. `aes#wipe` sets the number of rounds to 16: the next `transform` reads past the key
   schedule (`C63_aes_encrypt_after_wipe_out_of_bounds`).
3. `Block.cbc_encrypt#transform` reads the source before any bounds check
   (`C13_cbc_encrypt_source_unchecked`).
4. `AEAD.chacha20_poly1305 Decrypt`: `put_substring` with a bad range reads out of bounds
   (`C65_chapoly_decrypt_out_of_bounds`). The same for `Zlib` (`C65_zlib_out_of_bounds`).
5. ChaCha20-Poly1305 accepts messages whose last 64 bytes use the keystream block that gives the
   Poly1305 key (`C38_chapoly_leaks_poly1305_key`).
6. ChaCha20 with a 12-byte IV reuses its keystream after 2^38 bytes
   (`C21_chacha20_reuses_keystream`).
7. `Bn.to_bytes ~numbits` raises `Invalid_argument` when the size is not a whole number of digits
   (`C59_to_bytes_unaligned_fails`), hence so do RSA, DH and Paillier operations on such sizes
   (`C54_rsa_unaligned_fails`, `C54_rsa_new_key_sizes`, `C57_dh_unaligned_fails`, `C60_*_fails`).
8. `Paillier.encrypt` refuses 0 (`C55_paillier_zero_fails`); `DH.shared_secret` erases the private
   secret, so that a second use fails (`C57_dh_secret_used_once`); `mod_power` refuses even moduli
   and exponent 0 (`C60_mod_power_even_fails`, `C60_mod_power_zero_fails`).
9. `Base64.encode_multiline` makes lines of 72 characters, not 76, and omits the last newline in
   some cases (`C46_lines`, `C46_newlines`). `flush` of the Base64 classes always raises
   (`C45_flush`).
10. `caml_siphash_init` and `caml_ghash_init` use the key after an allocation without having
    registered it (`C66_siphash_moved`, `C66_ghash_moved`).
11. SHA-3 and BLAKE3 objects dereference a null pointer after `wipe` (`C63_sha3_after_wipe`,
    `C63_blake3_after_wipe`).
12. `Zlib.compress`: two `flush` in a row raise an error (`C64_compress_flush_twice`); a string of
    2^32 + k bytes loses 2^32 bytes (`C64_compress_large_string`). `Zlib.uncompress` accepts some
    truncated streams (`C64_uncompress_garbage`).
13. Padded decryption: `flush` before `finish` makes `finish` raise
    (`C68_padded_decrypt_flush_then_finish_raises`).
14. `wipe` of AES-GCM leaves the hash key, the counter and the last keystream block
    (`C63_gcm_wipe_incomplete`); `wipe` of `pseudo_rng_aes_ctr` leaves the key schedule and the
    counter, so that the generator goes on with the same stream
    (`C63_pseudo_rng_aes_ctr_wipe_ineffective`).
15. `DH.derive_key` uses SHA-256; the documentation says SHA-1 (`C58_derive_key`).
16. `Hash.md5`: a string of 2^32 + k bytes counts for its first k bytes, because the stub passes the
    length as an `unsigned` (`C69_md5_large`, `C69_md5_collision`).
17. A `Zlib` object dropped before `finish` leaks the state allocated by zlib (`C71_zlib_leak`).
18. `compose` announces the `input_block_size` of its first part although its second part may
    refuse messages of such lengths (`C72_compose_refuses`); padded decryption refuses the empty
    message, whose length is a multiple of its `input_block_size` (`C72_padded_decrypt_empty`).
19. HMAC objects read the key string again in `result`: erasing it before (with `wipe_string`)
    gives wrong tags, whose outer hash is unkeyed (`C74_hmac_erased`, `C74_hmac_sha1_wrong`).
20. When an output buffer grows, the old one is dropped without being erased, so that `wipe` leaves
    output data (decrypted text, for instance) in memory (`C81_replaced_not_erased`).
21. `put_substring` of a stream cipher with a length above `max_int / 2` does not raise an exception
    but loops forever: in `ensure_capacity` the doubled size wraps around to 0 (`C82_stream_hangs`).
    `put_substring` of the Base64 and hexadecimal transforms ignores an illegal range when
    `ofs + len - 1` wraps around (`C82_codec_ignores`), and processes the whole string when the
    length is `min_int` (`C82_codec_min_int`).
22. The modulus of the keys that `RSA.new_key numbits` and `Paillier.new_key numbits` return may have
    `numbits - 1` bits: the product of two numbers of `numbits / 2` bits is not adjusted
    (`C83_rsa_short_modulus`, `C83_paillier_short_modulus`).
23. The component `g` of DH parameters is documented as a generator of `Z/pZ` but is any random number
    of `numbits - 1` bits (`C83_dh_not_generator`).
24. `RSA.new_key ~e` never returns if `e` is even, 0 included (`C84_even_exponent_diverges`), and
    returns keys that do not match if `e` is negative (`C84_negative_exponent`).
25. `DH.derive_key` concatenates the diversification string and the secret without separation: a part
    can be moved from one to the other (`C85_ambiguous_concatenation`).
26. `put_substring` of block ciphers processes the blocks that precede the end of the string before it
    raises `Invalid_argument` for an illegal range: their image is output and the chaining value has
    changed (`C86_block_put_substring`).
27. When the output is retrieved byte by byte (`get_char`, `get_byte`) from a full buffer while more is
    produced, `ensure_capacity` moves the whole buffer every second byte: the time is quadratic
    (`C88_char_quadratic`).
28. ChaCha20 and ChaCha20-Poly1305 accept IVs of 8 and 12 bytes; the 8-byte IV `v` and the 12-byte IV
    made of four null bytes and `v` give the same keystream, ciphertext and tag
    (`C89_chacha20_mixed`, `C89_chapoly_mixed`).
29. AES-GCM accepts the empty IV, which SP 800-38D forbids: the tag of the empty message is then the
    hash subkey, with which tags can be forged (`C89_gcm_empty_iv`).
30. Padded decryption: when `finish` raises `Bad_padding` the last block has been decrypted in place;
    a second `finish` decrypts it again, and may succeed (`C86_padded_decrypt_finish`).
31. `Base64.decode`: a `finish` that raises `Bad_encoding` leaves the decoder marked as finished
    (`C86_base64_decode_finish`).
32. `Base64.encode`: after `Output_buffer_overflow` the encoder is unusable: every further character
    raises `Invalid_argument`, even if the output is retrieved (`C86_base64_encode_overflow`).
33. `Zlib`: `avail_out` has 32 bits. When 4 GiB of output are waiting, the buffer is enlarged to 8 GiB, zlib
    is told that there are less than 256 bytes of room, and `used_out` comes out 4 GiB too large: 4 GiB
    of uninitialized memory are inserted in the output (`C64_compress_large_output`, `C97_zlib_leaks`).
34. `DH.shared_secret` accepts any message: 0, 1 and -1 modulo p force the shared secret to 0, 1, or
    one of 1 and -1, whatever the private secret (C94).
35. After `Message_too_long`, `finish_and_get_tag` is not safe: that of AES-GCM, called twice, reveals
    the block that masks the tag; both authenticated ciphers may return a tag (C95).
36. AES-GCM decryption: `finish_and_get_tag` hashes the last block before it asks for room for its
    plaintext. After `Output_buffer_overflow`, retrieving the output and calling it again hashes the
    block twice and gives a wrong tag (`C86_gcm_decrypt_finish`).
37. `add_substring` of the MACs built on block ciphers absorbs the whole blocks of the string before it
    raises `Invalid_argument` for an illegal range (`C86_mac_add_substring`). In CMAC, a call that can
    add nothing changes the tag: after a whole block, `add_substring "" 0 1` raises
    `Invalid_argument`, and the tag is then that of another message (`C86_cmac_add_substring`).
38. `compose`: if the second transform refuses what the first produces, the first has consumed the
    input and its output is lost (`C86_compose_put_char`).
39. `Random.system_rng` on Windows: the length is converted to 32 bits. A request of 2^32 bytes or more
    returns normally with only `len mod 2^32` bytes filled; `Random.string` then returns
    uninitialised memory (`C98_win32_truncated`, `C98_win32_string`).
40. stubs-zlib.c does not initialise the field `msg` of the stream: if zlib reports a version mismatch,
    the error is built from a wild pointer (`C99_version_mismatch`). Compression levels are
    truncated to 32 bits (`C99_level_truncated`).
41. ARCfour and Blowfish accept a key and the same key written twice as two names of the same key
    (`C100_key_twice`); HMAC accepts a key and the same key followed by zero bytes (`C100_hmac_block`).
    This is how these algorithms are defined; the documentation does not mention it.
42. `put_string` of `Zlib.uncompress` with garbage after the compressed data raises `Compression_error`
    after the data has been uncompressed: the output is available, and the transform can no more be
    used (`C86_zlib_garbage`).
43. The tags of `MAC.aes`, `MAC.des` and `MAC.triple_des` can be forged if the length of messages is not
    fixed, and padding does not help (`C101_forgery`). The documentation warns of this for `MAC.aes`, and says
    that the other two are made in the same way.
44. The blinding number of `Paillier.encrypt` is not uniform among the invertible numbers below `n`: it always
    has exactly `size - 1` bits (`C103_blinding_range`), which for a modulus of `size` bits leaves at most half
    of the candidates, and for a modulus close to `2^(size-2)` only a small interval. The ciphertext blinded by
    1 is never returned (`C103_blinding_fails`).
45. Random primes are not uniform: `random_prime` takes the prime that follows a random odd number, so that a
    prime is as likely as the gap before it is wide (`C103_prime_gap`, `C103_prime_fails`).
46. The functions on whole strings and channels (`transform_string`, ...) are documented to wipe the object
    before returning; they do, but not when they raise: the key schedule and the pending data then stay in
    memory, and a program that follows the documentation never calls `wipe` (`C104_exception_keeps_key`).
47. `wipe` of `Random.pseudo_rng` and `Random.pseudo_rng_aes_ctr` overwrites the seed string of the caller, an
    immutable value; the interface says that it "erases the internal state of the generator". A generator
    made from the same string afterwards is accepted and delivers the stream of the all-zero seed,
    which everybody can compute (`C106_pseudo_rng_predictable`).
48. `DH.shared_secret` is documented to destroy the private secret, which "can no longer be used afterwards". Secrets
    of at most 62 bits are OCaml integers, not memory blocks, and survive (`C107_short_secret_survives`).
49. `transform_channel` and `hash_channel` erase the buffer through which they have read the data, unless an
    exception is raised while they read: then the last bytes read stay in memory (`C111_hash_channel_keeps`).
50. A `put_string` interrupted by an exception of a signal handler cannot be repeated: the key stream may
    have advanced (`C115_not_atomic`). If `ensure_capacity` was at work, the output that was pending
    can be lost: `available_output` is negative (`C115_output_lost`). Nothing in the documentation says
    so. No memory is accessed out of bounds. With an authenticated cipher the tag is then wrong
    (`C115_aead_rejected`). A MAC is wrong too when `add_string` or `result` was interrupted and is called
    again: data added before the interrupted call may count twice (`C115_mac_wrong`,
    `C115_mac_result_wrong`). Hash functions behave better: additions are all or nothing (C118), but
    `result` interrupted and called again returns a wrong hash (`C118_result_again`). When `finish` of
    `Zlib.compress` is interrupted and called again, it returns, but the end of the compressed data may be
    missing (`C115_zlib_lost`). A `put_char` of `Base64.encode`, `Base64.decode` or `Hexa.decode` interrupted
    before `ipos <- 0` (src/cryptokit.ml:2269, 2363, 2463) makes the object unusable for ever: every later
    `put_char` of data raises `Invalid_argument`, even after `wipe` (`C115_codecs_unusable`); `finish` of
    `Base64.encode` returns, and the data of the incomplete group is lost (`C115_base64_lost`).
    `compose` loses what is on the way from one transform to the other (src/cryptokit.ml:212-214) when it is
    interrupted there, data given by earlier calls included (`C115_compose_lost`). When `put_string` of
    `transform_and_hash` is interrupted between its two statements (src/cryptokit.ml:416-417), and the program
    goes on, the output contains data that the tag does not authenticate (`C115_not_authenticated`).
51. `increment_counter` (src/cryptokit.ml:735-740) is a loop, at each turn of which a signal handler may run.
    An exception raised there loses the carry: the counter goes back by 256 blocks, and a program that
    goes on uses key stream blocks again (`C116_reuse`). The counter is also incremented before
    `max_transf` is decremented (758-761), so that interrupted calls do not count towards the limit and the
    counter can wrap around without `Message_too_long` (`C116_limit`). GCM (line 1611) and the
    AES-CTR generator (line 1935) call the same function. In GCM the counter can go back to the block that
    masks the tag: the program then gives away this mask, and uses the key stream of its first blocks
    again (`C116_gcm_reuse`). The generator gives its first bytes again, whatever the seed
    (`C117_repeats`).

## 8. Seeded bugs

`seeded/LOG.jsonl` has one line per wrong program: the definition edited, the edit, the claim it
breaks, the theorems that failed and those that were tightened. `tools/seed.py` applies a batch of
edits, one at a time, to a copy of the project and rebuilds it.
`tools/automut.py` draws one random edit for each definition of the model (a literal, a comparison, a
sign, a dropped statement, swapped arguments) and does the same; its lines have `"automatic": true`.
