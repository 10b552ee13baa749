#!/usr/bin/env python3
"""DESIGN.md = tools/design_head.md + one line per property + tools/design_tail.md."""
import json, os
R = "/verif"
HOW = {
"C01": ("`buffered_output`: byte array, `obeg`, `oend`, growth loop", "refinement to a queue, induction over histories"),
"C02": ("`Block.cipher` over an abstract block cipher", "invariant: bytes processed ++ bytes pending = input; induction over histories"),
"C03": ("same", "same invariant: `finish`/`flush` raise iff the pending part is not empty"),
"C04": ("both padding classes on byte arrays", "case analysis, list induction"),
"C05": ("padded encryption and decryption classes", "from C02 and C04, for every history of the two transforms"),
"C06": ("padded decryption", "from C02 and C04"),
"C07": ("`cbc_encrypt`, `cbc_decrypt`", "induction over blocks, refinement to SP 800-38A; equal blocks of source and destination allowed"),
"C08": ("`cfb_encrypt`, `cfb_decrypt`, any segment size", "same"),
"C09": ("`ofb`", "same"),
"C10": ("`ctr`, `increment_counter`, any counter size", "same"),
"C11": ("`max_transf`", "invariant over histories, injectivity of counters"),
"C12": ("all transforms with source = destination", "the run in place and the run on a copy give the same bytes"),
"C13": ("all transforms with integer offsets", "case analysis; witness of UB for `cbc_encrypt`"),
"C14": ("constructors and entry points", "decision logic: exact condition of success, exact exception otherwise"),
"C15": ("`Block.mac`, `MAC.*`", "refinement to CBC-MAC, induction over histories"),
"C16": ("`mac_final_triple`", "same"),
"C17": ("`cmac`, `MAC.aes_cmac`", "refinement to SP 800-38B"),
"C18": ("`Stream.cipher`", "induction over histories, position in the keystream"),
"C19": ("arcfour.c", "refinement to RC4"),
"C20": ("chacha20.c", "refinement to RFC 8439 and to the 64-bit counter variant"),
"C21": ("chacha20.c counter", "distinctness within the period; witness of reuse beyond"),
"C22": ("sha1.c", "buffering invariant, compression = FIPS 180-4, padding"),
"C23": ("sha256.c", "same"),
"C24": ("sha512.c", "same"),
"C25": ("`hash_size` of every class", "per class; witnesses for sha224, ripemd160"),
"C26": ("ripemd160.c", "as C22"),
"C27": ("keccak.c", "sponge invariant, permutation = FIPS 202"),
"C28": ("blake2.c", "last block kept back: invariant; RFC 7693"),
"C29": ("blake3.c", "invariant of the stack of chaining values against the recursive tree, for any SIMD degree"),
"C30": ("siphash.c", "partial word invariant"),
"C31": ("`HMAC` over an abstract hash, and instances", "list algebra"),
"C32": ("both versions of poly1305-donna", "bounds on limbs, congruence modulo 2^130 - 5"),
"C33": ("ghash.c, pclmul.c", "linearity over GF(2); both equal multiplication in the field of SP 800-38D"),
"C34": ("AES-GCM classes", "refinement to SP 800-38D, every history"),
"C35": ("ChaCha20-Poly1305 classes", "refinement to RFC 8439, every history"),
"C36": ("both AEADs", "from C34, C35"),
"C37": ("`auth_check_transform_string`", "exact condition of acceptance"),
"C38": ("length checks of both AEADs", "no block of keystream used twice, exact limit; witness of reuse"),
"C39": ("`seq_equal`", "result and trace of accesses, induction"),
"C40": ("xor stubs, with aligned word loop", "induction; exact condition of `Invalid_argument`"),
"C41": ("rijndael-alg-fst.c with its tables", "T-table identities over all bytes, induction over rounds, FIPS 197"),
"C42": ("aesni.c", "lanes against words; both key schedules"),
"C43": ("d3des.c with its tables", "linear maps on a basis, S-boxes over all inputs, FIPS 46-3"),
"C44": ("blowfish.c with its tables", "Feistel inverse; the tables are the digits of pi (`Real.pi`)"),
"C45": ("`Base64.encode`, `decode`", "induction over input"),
"C46": ("`Base64.encode_multiline`", "induction over input"),
"C47": ("`Base64.decode`", "exact set of accepted strings"),
"C48": ("`Hexa`", "same"),
"C49": ("`compose` over abstract transforms", "induction over histories"),
"C50": ("`transform_channel`, arbitrary sizes of reads", "induction on what remains to be read"),
"C51": ("`hash_channel`", "same"),
"C52": ("`transform_then_hash`, `transform_and_hash`", "induction over histories"),
"C53": ("`RSA` over arbitrary keys and `new_key`", "Mathlib: Fermat, Chinese remainder"),
"C54": ("`RSA`", "decision logic; witnesses"),
"C55": ("`Paillier`", "binomial expansion modulo n^2"),
"C56": ("`Paillier.add`", "same"),
"C57": ("`DH`", "commutation of powers"),
"C58": ("`DH.derive_key`", "induction over blocks"),
"C59": ("`Bn.of_bytes`, `Bn.to_bytes`", "exact condition of success; witnesses"),
"C60": ("`RSA.encrypt`-level `mod_power`, `mod_mult`", "same"),
"C61": ("`pseudo_rng`, `pseudo_rng_aes_ctr`", "position in the stream, induction over requests"),
"C62": ("`system_rng`, `device_rng`, `hardware_rng`, `secure_rng`", "arbitrary source and schedule of failures"),
"C63": ("every `wipe`", "state after `wipe`; witnesses"),
"C64": ("`Zlib` classes over any engine", "induction on the progress of the engine; witnesses"),
"C65": ("every method of every class", "an invariant per class, arbitrary histories of legal and illegal calls; witnesses"),
"C66": ("stubs under a moving collector", "every behaviour of the collector; witnesses"),
"C67": ("`Cipher`", "composition of C05-C10, C41-C44"),
"C68": ("`flush` of every transform", "induction over histories; witness"),
"C69": ("stubs-md5.c, class `md5`, HMAC-MD5, over any implementation of the runtime's MD5", "history of additions, refinement to RFC 1321; witness of truncation"),
"C70": ("detection variables and key preparation, as a transition system of any number of threads", "invariant over interleavings; both implementations equal the standard (C33, C41, C42)"),
"C71": ("C heap, custom blocks, finalizers", "ownership invariant over histories; witness of a leak for Zlib"),
"C72": ("methods input_block_size and output_block_size of every class", "from the theorems on whole messages; witnesses for compose and empty padded decryption"),
"C73": ("the code under ARCH_BIG_ENDIAN, with the byte order as a parameter", "the objects for the two byte orders are equal"),
"C74": ("HMAC objects with the caller's key string as a shared memory cell", "exact result of every session in which the key is erased; witness"),
"C75": ("nothing new: the AEAD models of C34 and C35", "2^130 - 5 is prime (Pratt certificate), x^128 + x^7 + x^2 + x + 1 irreducible (trace), number of roots of a polynomial over a field"),
"C76": ("nothing new: the transforms and `transform_channel` of C02-C06, C18, C34, C35, C45-C49", "invariant on the data pending since the last retrieval, with a bound on the output per input byte"),
"C77": ("Model/NumHeap: the public-key functions again, on references to numbers and strings, with every erasure and every possible sharing", "simulation: each step in memory refines the step on values; provenance of the result of `mod_power_CRT`"),
"C78": ("nothing new: `bnRandom` of C57-C60", "closed form of the number in terms of the bytes; residue classes have equal sizes"),
"C79": ("nothing new: the hash objects of C22-C26, C69", "Merkle-Damgard theorem: induction on the blocks from the last one; injectivity of the padding and of the digest"),
"C80": ("`buffered_output` with references to buffers (Model/BufHeap.lean)", "simulation by the model without references; frame conditions"),
"C81": ("the same", "invariant on the number of buffers; direct computation for the negative part"),
"C82": ("the methods doing arithmetic on the caller's offsets and lengths, once more, with w-bit integers (Model/MachineInt, Model/ZlibW)", "simulation by the methods on mathematical integers, on all reachable states; closed form of the doubled sizes for the infinite loop"),
"C83": ("key generation and DH parameters (Model/Pubkey, Bignum)", "inversion of the retry loops; bounds of products; concrete runs with proved 64-bit primes for the falsity"),
"C84": ("RSA.new_key with a fixed exponent", "gcd with p - 1, which is even; Bezout and Euler's theorem for negative exponents"),
"C85": ("DH.derive_key", "C58, injectivity of concatenation and of decimal notation, Merkle-Damgard theorem of C79"),
"C86": ("Stream.cipher, Block.cipher, cipher_padded_encrypt, cipher_padded_decrypt, the authenticated ciphers, the MACs built on block ciphers, Base64, Hexa, buffered_output, compose", "the result and the effect of every call, legal or not, depend only on the abstract state (position or cipher state, pending input, pending output); failed calls keep it"),
"C87": ("buffered_output with a count of the bytes moved (Model/BufCost)", "invariant on the size of the buffer and the longest queue so far"),
"C88": ("the same", "amortised analysis of doubling; closed form of the count for the negative part"),
"C89": ("the models of C16, C20, C34 and C35", "dependence of the results on the block cipher; roots of the difference of two GHASH polynomials; injectivity of ChaCha20 states"),
"C90": ("d3des.c (key schedule), the classes of DES and triple DES, the entry points of Cipher and MAC", "masks of the table pc1 checked over the whole table; inverse property of C43"),
"C91": ("the models of C07-C11 and C67", "induction on the list of blocks"),
    "C92": ("the BLAKE2, BLAKE3 and HMAC objects (Model/Blake2, Model/Blake3, Model/Hmac); lists of applications of the compression functions in Spec/CallCollision", "from C28, C29, C31: chains of compressions are injective unless two applications collide; counters, start, parent and root flags separate the kinds of applications; induction on the tree of BLAKE3"),
    "C93": ("the generators of C61", "from C61; AES is injective (C41) and so is the encoding of counters; congruences modulo the period"),
    "C94": ("DH.shared_secret (Model/Pubkey)", "arithmetic modulo p; order of an element of the multiplicative group, which divides p - 1 (Mathlib)"),
    "C96": ("Bn.random, Bn.random_prime, RSA.new_key, Paillier.new_key, Paillier.encrypt, DH.new_parameters, DH.private_secret (Model/Bignum, Model/Pubkey)", "Spec/Draw: an inductive relation for the first suitable draw; induction on the number of attempts, numbers made of strings as in C78"),
    "C97": ("all the classes of ciphers, codecs, hashes and MACs, with an environment that gives the contents of fresh memory", "Spec/Uninit; two runs in lockstep (Proof/Sim), related by the equality of the initialised parts of their buffers; for block ciphers, both runs follow the same abstract run"),
    "C98": ("the three versions of the stubs, with the system's source as an environment", "case analysis; `Model/SystemRng`"),
    "C99": ("the representation of OCaml constructors, the blocks that the C code builds, the two versions of stubs-zlib.c", "injectivity of the representation by induction over type declarations; `Model/Interop`"),
    "C100": ("the constructors of ciphers, hashes and MACs, as functions of the key", "induction over the key schedules for ARCfour and Blowfish, C31 for HMAC, injectivity of the encodings of words and of the AES key expansion"),
    "C101": ("MacEntry and Mac, as in C14-C17", "through the values given by C15-C17: algebra of the CBC chain (appending, one-to-one in the chaining value because the cipher is), padding functions one-to-one, doubling in GF(2^128) zero only at zero"),
    "C102": ("Pubkey: RSA and Paillier", "rsa_inverse for the two directions; Paillier: the n-th power is one to one modulo n because n has an inverse modulo the exponent of the private key, and (r + kn)^n = r^n modulo n^2"),
    "C103": ("Pubkey, Bignum: the loops that draw again", "generator that reads a tape of numbers; an involution of the tapes exchanges the strings that give two suitable numbers and commutes with the loop, so that both have as many tapes; for primes, count of the random strings between two consecutive primes"),
    "C104": ("Transform, Hash, Aead: the seven functions on whole strings and channels", "inversion of a run that returns: its last step is the method wipe; combined with C63 (states that wipe leaves); an exception leaves the key, followed explicitly for strings shorter than a block"),
    "C105": ("Block, Cipher (chained), Transform", "Each mode class is proved to run over any block cipher object described by a state-dependent function that may raise (Proof/Tower, BlockRuns); by induction on the list of modes the object tracks the machine of Spec/Tower and counts blocks; inversion by a bisimulation between the encrypting and the decrypting machines, by induction on the list of modes."),
    "C108": ("Cipher, Block, Stream, Aead", "from the conformance theorems C67, C34, C35: OFB, CTR, GCM and the stream ciphers are xors with a keystream that does not depend on the message; the modes commute with taking a prefix and are injective; block by block equations for CBC and CFB"),
    "C113": ("SHA, Ripemd, Md5", "the functions that extend digests are in Spec/Extension.lean; the iteration splits at a multiple of the block size, and the chaining value is read off the digest; C22-C24, C26 and C69 carry this to the objects"),
    "C117": ("InterruptRng, Random", "the position in the stream never goes back, at any point of a call, unless a carry is due; induction on the blocks of a request and on the history; the run that repeats its first bytes is constructed for every seed"),
    "C118": ("InterruptHash, Hash, Hmac", "each method makes one call to C code, with an interruption point before and one after; an interrupted call has either changed nothing or done all its work; induction on the history, from the theorems on whole histories (C22-C31)"),
    "C116": ("Interrupt, InterruptAead", "one call from counter v returns with v + 1 or raises with v, v + 1 or, if a carry is due, anything; induction on the history; the counter-examples are evaluated by the kernel"),
    "C115": ("Interrupt, InterruptAead, InterruptMac, InterruptZlib, InterruptCodec, InterruptCompose, InterruptAuth", "the methods again, with a point between any two statements where an adversary may raise; the invariant of C65 is weakened to what holds at every point (the end of the output is within the buffer, whatever its beginning), and is enough"),
    "C114": ("Keccak", "the padding is unambiguous on bits; each step of the permutation is injective: for theta, the mixing of column parities repeated 64 times loses its rotations, and what is left is injective; a case distinction on the last blocks"),
    "C112": ("Pipeline, Combinators", "induction on the tree of compositions, with C49 at each node; the function of a tree depends only on its leaves"),
    "C110": ("ChanFault", "the channels fail when the environment says so; by induction on the loop, the calls made on the object are always those of some history, and what was written is a beginning of what this history delivers"),
    "C111": ("ChanFault", "the buffer is part of the state; same induction, and a run that ends with End_of_file"),
    "C109": ("Tally, Pubkey", "induction on the binary tree of additions, with the homomorphism of C56; the value of a tree is the product of its leaves modulo n2"),
    "C107": ("SecretUse, Pubkey", "the secrets are memory cells that shared_secret overwrites; the outcome of each call is a function of the calls before it, by induction on the history"),
    "C106": ("SharedSeed, Random", "the seed string is a memory cell next to all the generators made from it; refinement, by induction on the list of calls, of a specification in which each generator is a stream and a position"),
 "C95": ("Aead, Transform, Stream: the state an exception leaves",
            "Spec/Released: output of a trace in which exceptions are caught; invariant relating the count of bytes, the pending output and what was released, kept by every call whether it returns or raises; counterexamples by following the two or three calls from a state described exactly"),
}
props = [json.loads(l) for l in open(R + "/properties.jsonl")]
claims = {c["property"]: c for c in json.load(open(R + "/MANIFEST.json"))["claims"]}
out = [open(R + "/tools/design_head.md").read().rstrip() + "\n"]
out.append("## 6. Plan and status per property\n")
out.append("| id | property | modelled | proof | status |")
out.append("|----|----------|----------|-------|--------|")
for p in props:
    m, h = HOW[p["id"]]
    out.append(f"| {p['id']} | {p['title']} | {m} | {h} | {claims[p['id']]['status']} |")
out.append("")
out.append("Notes on the properties that are not proved as stated:\n")
for p in props:
    c = claims[p["id"]]
    if c["status"] != "proved" and c["note"]:
        out.append(f"* **{p['id']}** {c['note']}")
out.append("")
out.append(open(R + "/tools/design_tail.md").read())
open(R + "/DESIGN.md", "w").write("\n".join(out))
