#!/usr/bin/env python3
# Regenerates /verif/properties.jsonl.
import json
P=[]
def p(title, statement, quantifier, why, anchors):
    P.append(dict(id="C%02d"%(len(P)+1), title=title, statement=statement,
                  quantifier=quantifier, why_tests_cant=why, anchors=anchors))
ML="src/cryptokit.ml"
p("Output buffering is a FIFO queue",
  "For every transform, the bytes returned by get_string/get_substring/get_char/get_byte, concatenated in call order, followed by the bytes still available, are exactly the bytes the transform produced, in order, with none lost, duplicated or altered; available_output is the number of bytes produced and not yet returned; get_char/get_byte raise End_of_file exactly when nothing is available; producing output raises Output_buffer_overflow exactly when the pending output would exceed the maximal string length.",
  "every history of output productions of any sizes interleaved with any get calls, every initial buffer size >= 1 and every maximal string length",
  "the buffer has three growth regimes (fits, compact, grow by doubling, clamp) whose combination depends on the whole history of puts and gets; tests sample a few sizes",
  [ML+":buffered_output"])
p("Block-cipher transforms do not depend on how input is cut",
  "Feeding a block-cipher transform a message through any sequence of put_substring, put_string, put_char, put_byte calls, interleaved with any get calls, yields the same output byte stream as feeding the message at once; after flush/finish that stream is the block function applied to the successive blocks of the message.",
  "every block cipher object, every message, every split into put calls of any kind and length (including empty ones), every interleaving with get calls",
  "the number of ways to cut an input is exponential and the pending-block state is part of the behaviour",
  [ML+":Block.cipher.put_substring", ML+":Block.cipher.put_char", ML+":Block.cipher.flush"])
p("Wrong_data_length is raised exactly on incomplete blocks",
  "For an unpadded block-cipher transform, flush and finish raise Error Wrong_data_length if and only if the number of bytes put so far is not a multiple of the block size; otherwise they succeed and every byte put has been processed.",
  "every history of put calls", "depends on the residue of an arbitrary total length over an arbitrary history",
  [ML+":Block.cipher.flush", ML+":Block.cipher.finish"])
p("Padding schemes are unambiguous",
  "For both padding schemes, stripping a block padded from any number of used bytes returns that number; stripping any block returns n only if the block is exactly what padding its first n bytes yields; on every other block it raises Error Bad_padding.",
  "every block of every size from 1 to 255 (length scheme) or any positive size (8000 scheme), every number of used bytes less than the size",
  "the acceptance set is a set of arbitrary byte blocks; tests cannot enumerate the rejected ones",
  [ML+":Padding.length", ML+":Padding._8000"])
p("Padded encryption followed by padded decryption is the identity",
  "For every block cipher pair that is inverse block by block, every padding scheme of the library, every message and every chunking on both sides, decrypting the output of the padded encryption transform returns the message; the ciphertext length is the message length rounded up to the next strictly larger multiple of the block size.",
  "every message of every length, every chunking on both sides, both schemes, every inverse pair of block ciphers with block size 1..255",
  "needs all message lengths, all chunkings and all blocks", [ML+":Block.cipher_padded_encrypt", ML+":Block.cipher_padded_decrypt"])
p("Padded decryption rejects exactly malformed input",
  "Finishing a padded decryption raises Wrong_data_length exactly when the ciphertext is empty or its length is not a multiple of the block size, raises Bad_padding exactly when the last decrypted block is not a padded block, and otherwise outputs the decrypted bytes with the padding removed.",
  "every ciphertext, every chunking", "quantifies over arbitrary, possibly hostile ciphertexts", [ML+":Block.cipher_padded_decrypt.finish"])
p("CBC mode is CBC and its two directions are inverse",
  "Encrypting in CBC mode computes C_i = E(P_i xor C_{i-1}) with C_0 = IV (all zeroes by default); decrypting computes P_i = D(C_i) xor C_{i-1}; decryption with the same IV inverts encryption.",
  "every block cipher, IV and sequence of blocks", "unbounded sequences of blocks with carried state", [ML+":Block.cbc_encrypt", ML+":Block.cbc_decrypt"])
p("CFB-n mode is CFB and its two directions are inverse",
  "For 1 <= n <= blocksize, CFB encryption xors each n-byte segment with the first n bytes of E(shift register) and shifts the ciphertext segment into the register; decryption with the same IV inverts encryption.",
  "every block cipher, IV, n and sequence of segments", "unbounded sequences with a shift register", [ML+":Block.cfb_encrypt", ML+":Block.cfb_decrypt"])
p("OFB-n mode is OFB and is its own inverse",
  "The OFB keystream segment i is the first n bytes of E^i(IV), independent of the data; applying OFB twice with the same IV is the identity.",
  "every block cipher, IV, n and sequence of segments", "unbounded sequences", [ML+":Block.ofb"])
p("Counter mode encrypts IV, IV+1, IV+2, ... and is its own inverse",
  "The i-th keystream block in counter mode is E of the IV whose last inc bytes, read as a big-endian integer, are increased by i modulo 2^(8 inc), the other bytes unchanged; applying it twice with the same IV is the identity.",
  "every block cipher, IV, inc in 1..blocksize, any number of blocks", "carry propagation occurs only after 256^k blocks; tests cannot reach wrap-around",
  [ML+":Block.ctr", ML+":Block.increment_counter"])
p("Counter mode never reuses a counter block",
  "Within one counter-mode cipher, two successful block transforms never use the same counter value: before the counter can return to a used value the transform raises Error Message_too_long and keeps raising it. (For inc < 8 the exception is raised by the 2^(8 inc)-th block.)",
  "every history of block transforms of any length", "needs 2^8 to 2^64 operations to be observed", [ML+":Block.ctr.transform"])
p("Block transforms give the same result in place",
  "A block transform whose source and destination are the same byte sequence, at any pair of legal offsets including overlapping ones, stores at the destination the same block as when source and destination are distinct, and changes no other byte of the destination.",
  "every cipher and mode, every pair of buffers and offsets", "aliasing patterns of offsets are unbounded", [ML+":Block", "src/stubs-aes.c", "src/stubs-des.c", "src/stubs-blowfish.c"])
p("Block transforms check their bounds",
  "A block transform called with offsets that do not leave a whole block in source or destination raises Invalid_argument; it never reads or writes outside the given byte sequences.",
  "every integer offset (including negative and huge ones), every buffer size, every cipher and mode", "out-of-range reads are silent in tests", [ML+":Block.aes_encrypt", ML+":Block.cbc_encrypt", ML+":Block.cfb_encrypt", "src/stubs-misc.c:caml_xor_string"])
p("Key and IV size validation",
  "Each cipher, MAC and hash constructor succeeds exactly on the documented key, IV and hash sizes and raises Error Wrong_key_size or Wrong_IV_size on every other size.",
  "keys and IVs of every length, every size argument", "infinitely many sizes", [ML+":Block", ML+":Stream", ML+":Hash", ML+":MAC"])
p("CBC-MAC is CBC-MAC for every chunking",
  "The result of the block-cipher MAC is the last CBC ciphertext block of the (padded) data, independent of how data was added; without padding, result raises Wrong_data_length exactly when the data length is not a multiple of the block size.",
  "every block cipher, IV, padding, message, chunking", "unbounded messages and chunkings", [ML+":Block.mac"])
p("mac_final_triple super-enciphers the CBC-MAC",
  "The result of mac_final_triple c1 c2 c3 is c3(c2(CBC-MAC with c1)); construction raises Incompatible_block_size exactly when the block sizes differ.",
  "every three block ciphers, message, chunking", "unbounded messages", [ML+":Block.mac_final_triple", ML+":MAC.des_final_triple_des"])
p("AES-CMAC conforms to NIST SP 800-38B",
  "MAC.aes_cmac key returns the CMAC of the added data as specified in SP 800-38B / RFC 4493 (subkeys by doubling in GF(2^128)), for every key size, message and chunking.",
  "every key of 16/24/32 bytes, every message, every chunking", "subkey carry paths and partial final blocks over all keys and messages", [ML+":Block.cmac", ML+":MAC.aes_cmac", ML+":shl1_bytes"])
p("Stream-cipher transforms do not depend on how input is cut and are involutive",
  "A stream-cipher transform's output is the xor of the message with the cipher's keystream, whatever the split into put calls; running the output through a second transform with the same key material returns the message.",
  "every stream cipher given by a keystream, every message, every chunking", "unbounded chunkings", [ML+":Stream.cipher"])
p("ARCfour is RC4",
  "For every key of 1 to 256 bytes, the transform xors the data with the RC4 keystream of that key, for any division of the data into calls and for in-place operation.",
  "every key, data, split into calls", "unbounded keystream positions", [ML+":Stream.arcfour", "src/arcfour.c"])
p("ChaCha20 conforms to RFC 8439 and to the original variant",
  "The keystream of Stream.chacha20 is the concatenation of the ChaCha20 blocks for counters ctr, ctr+1, ...: with a 12-byte IV a 32-bit counter and RFC 8439 block function, with an 8-byte IV a 64-bit counter; 16-byte keys use the 128-bit constants. Each byte of the keystream is used once, in order, whatever the split into calls.",
  "every key, IV, counter, length, split into calls, in place or not", "unbounded stream positions, carry into the high counter word after 2^32 blocks", ["src/chacha20.c", ML+":Stream.chacha20"])
p("ChaCha20 keystream blocks are not reused",
  "A ChaCha20 transform never uses the same keystream block twice without raising an error.",
  "every history of transform calls", "needs 2^32 blocks", ["src/chacha20.c:chacha20_transform", ML+":Stream.chacha20"])
p("SHA-1 conforms to FIPS 180-4",
  "For every message shorter than 2^61 bytes and every split into add calls, the SHA-1 object returns the FIPS 180-4 SHA-1 digest of the concatenation.",
  "every message, every chunking", "padding boundary cases times chunk boundaries times all blocks", ["src/sha1.c", ML+":Hash.sha1"])
p("SHA-224 and SHA-256 conform to FIPS 180-4",
  "For every message shorter than 2^61 bytes and every split into add calls, the objects return the FIPS 180-4 SHA-224 / SHA-256 digest of the concatenation.",
  "every message, every chunking", "as for SHA-1", ["src/sha256.c", ML+":Hash.sha256", ML+":Hash.sha224"])
p("SHA-384 and SHA-512 conform to FIPS 180-4",
  "For every message shorter than 2^61 bytes and every split into add calls, the objects return the FIPS 180-4 SHA-384 / SHA-512 digest of the concatenation.",
  "every message, every chunking", "as for SHA-1", ["src/sha512.c", ML+":Hash.sha512", ML+":Hash.sha384"])
p("hash_size is the length of the result",
  "For every hash object, the string returned by result has length hash_size.",
  "every hash, every message", "must hold for every message and every parametrised size", [ML+":Hash", ML+":MAC"])
p("RIPEMD-160 conforms to its specification",
  "For every message shorter than 2^61 bytes and every split into add calls, the object returns the RIPEMD-160 digest (Dobbertin, Bosselaers, Preneel) of the concatenation.",
  "every message, every chunking", "160 hand-unrolled steps over all blocks", ["src/ripemd160.c", ML+":Hash.ripemd160"])
p("SHA-3 and Keccak conform to FIPS 202 / the Keccak submission",
  "For sizes 224, 256, 384, 512, every message and every split into add calls, Hash.sha3 returns the FIPS 202 SHA3 digest and Hash.keccak the Keccak digest with the original padding.",
  "every message, every chunking, all four sizes", "absorption boundaries times permutation over 1600-bit states", ["src/keccak.c", ML+":Hash.sha3"])
p("BLAKE2b and BLAKE2s conform to RFC 7693",
  "For every admissible hash size and key, every message and every split into add calls, the objects return the RFC 7693 digest.",
  "every size 1..64 (1..32), every key, every message, every chunking", "last-block detection depends on chunking", ["src/blake2.c", ML+":Hash.blake2b", ML+":Hash.blake2s", ML+":MAC.blake2b"])
p("BLAKE3 conforms to its specification",
  "For every output size, every message and every split into add calls, the objects return the BLAKE3 (keyed or unkeyed) output of the concatenation as defined by the binary-tree specification.",
  "every message length, every chunking, every output length", "incremental tree merging depends on the whole sequence of chunk lengths", ["src/blake3.c", "src/blake3_portable.c", ML+":Hash.blake3"])
p("SipHash conforms to its specification",
  "MAC.siphash and MAC.siphash128 return the SipHash-2-4 value of the added data for every key, message and chunking.",
  "every key, message, chunking", "partial-word buffering", ["src/siphash.c", ML+":MAC.siphash"])
p("HMAC conforms to RFC 2104",
  "Each hmac_* object returns H(K xor opad, H(K xor ipad, data)) where K is the key zero-padded to the block size, or its hash if longer, for every key length, message and chunking.",
  "every key of every length, every message, every chunking", "unbounded keys and messages", [ML+":HMAC"])
p("Poly1305 conforms to RFC 8439",
  "The Poly1305 authenticator computed by the library equals ((sum of blocks * r^i) mod 2^130-5 + s) mod 2^128, for every one-time key, message and chunking; no intermediate limb overflows.",
  "every 32-byte key, every message, every chunking", "carries that occur with probability 2^-64 are never hit by tests", ["src/poly1305-donna.c", "src/poly1305-donna-64.h", "src/poly1305-donna-32.h"])
p("GHASH multiplication is multiplication in GF(2^128)",
  "The table-driven and the carry-less-multiply implementations of GHASH multiplication both compute the product in GF(2^128) of SP 800-38D, hence agree with each other.",
  "every multiplier and block", "2^256 pairs", ["src/ghash.c", "src/pclmul.c", "src/stubs-ghash.c"])
p("AES-GCM conforms to SP 800-38D",
  "AEAD.aes_gcm returns the ciphertext and tag specified by SP 800-38D for every key, IV length, header and message (within the length limit), whatever the chunking.",
  "every key, IV of every length, header, message, chunking", "unbounded IVs, headers, messages", [ML+":AEAD.aes_gcm_encrypt", ML+":AEAD.aes_gcm_decrypt"])
p("ChaCha20-Poly1305 conforms to RFC 8439",
  "AEAD.chacha20_poly1305 with a 32-byte key and a 12-byte IV returns the ciphertext and tag specified by RFC 8439 section 2.8, whatever the chunking.",
  "every key, IV, header, message, chunking", "unbounded headers and messages", [ML+":AEAD.chapoly_encrypt", ML+":AEAD.chapoly_decrypt"])
p("Authenticated decryption inverts authenticated encryption",
  "For both AEAD algorithms, auth_check_transform_string with a Decrypt transform of the same key, IV and header applied to auth_transform_string of a message returns Some of that message.",
  "every key, IV, header, message within limits", "unbounded messages", [ML+":auth_transform_string", ML+":auth_check_transform_string", ML+":AEAD"])
p("auth_check_transform_string releases data only when the tag matches",
  "auth_check_transform_string t s raises Wrong_data_length exactly when s is shorter than the tag; otherwise it returns Some text exactly when the trailing bytes of s equal the tag computed by t on the rest, and None in every other case.",
  "every authenticated transform, every string", "arbitrary hostile strings", [ML+":auth_check_transform_string"])
p("AEAD message-length limits prevent counter reuse",
  "AES-GCM encryption raises Message_too_long before the 32-bit counter can repeat; ChaCha20-Poly1305 encryption with a 12-byte IV raises Message_too_long before a keystream block (including the one used as Poly1305 key) is reused.",
  "every message length", "limits are at 2^36 and 2^38 bytes", [ML+":AEAD.aes_gcm_encrypt", ML+":AEAD.chapoly_encrypt"])
p("Constant-time equality decides equality and its access pattern ignores contents",
  "string_equal and bytes_equal return true exactly on equal sequences, and the sequence of positions they read depends only on the two lengths.",
  "all pairs of byte strings", "all contents", [ML+":seq_equal"])
p("xor_bytes / xor_string",
  "Within bounds, xor_bytes src spos dst dpos len replaces dst[dpos+i] by dst[dpos+i] xor src[spos+i] for i < len and changes nothing else (also in place with equal offsets); out of bounds it raises Invalid_argument and changes nothing; doing it twice restores dst.",
  "every buffer, offset, length", "all integers including overflow-prone ones; word-at-a-time loop and alignment", [ML+":xor_bytes", "src/stubs-misc.c:caml_xor_string"])
p("AES conforms to FIPS 197 and decryption inverts encryption",
  "For keys of 16, 24 and 32 bytes the AES block ciphers compute the FIPS 197 Cipher and InvCipher; decrypting an encrypted block with the same key returns it.",
  "every key and block", "2^128 blocks times 2^256 keys", ["src/rijndael-alg-fst.c", "src/stubs-aes.c", ML+":Block.aes_encrypt"])
p("Hardware and table-based AES agree",
  "The AES-NI implementation and the table implementation produce the same ciphertext for every key and block, so results do not depend on the processor.",
  "every key, block, both directions", "tests run on one processor", ["src/aesni.c", "src/rijndael-alg-fst.c"])
p("DES and Triple-DES conform to FIPS 46-3",
  "The DES block ciphers compute the FIPS 46-3 DES function; decryption inverts encryption; the low bit of each key byte is irrelevant; Triple-DES is E-D-E with two or three keys and a 16-byte key k1k2 behaves as k1k2k1.",
  "every key and block", "2^64 blocks times 2^64 keys", ["src/d3des.c", "src/stubs-des.c", ML+":Block.des", ML+":Block.triple_des_encrypt"])
p("Blowfish decryption inverts encryption",
  "For every key of 4 to 56 bytes, the Blowfish block ciphers are inverse of each other and follow the 16-round Feistel structure of the specification with the key-dependent boxes produced by the specified key schedule.",
  "every key and block", "2^64 blocks times all keys", ["src/blowfish.c", "src/stubs-blowfish.c"])
p("Base64 decoding inverts Base64 encoding",
  "Decoding the output of any of the three encoders returns the original bytes, for every chunking on both sides; the encoded text is the RFC 4648 encoding (with '=' padding in the padded variants).",
  "every byte string, every chunking", "unbounded strings and chunkings", [ML+":Base64"])
p("Base64 multiline layout",
  "The multiline encoder never emits a line longer than 76 characters, emits lines of 72 characters except the last, and removing newlines gives the compact padded encoding.",
  "every byte string", "unbounded strings", [ML+":Base64.encode"])
p("Base64 decoding rejects exactly ill-formed text",
  "The decoder raises Bad_encoding exactly when the input contains a character outside the alphabet, blanks and '=', or a data character after '=', or leaves a single data character in the last group.",
  "every byte string", "arbitrary hostile text", [ML+":Base64.decode"])
p("Hexadecimal encoding round-trips and decoding rejects exactly ill-formed text",
  "Hexa.decode inverts Hexa.encode for every chunking; encoding doubles the length using lowercase digits; decoding ignores blanks and raises Bad_encoding exactly on other characters or an odd number of digits.",
  "every byte string, every chunking", "unbounded strings", [ML+":Hexa"])
p("compose is function composition",
  "Running data through compose t1 t2 outputs what t2 outputs on what t1 outputs, for every chunking, including data released by flush and finish.",
  "every pair of transforms, every sequence of operations", "quantifies over transforms and histories", [ML+":compose"])
p("transform_string and transform_channel agree",
  "transform_channel writes to the output channel exactly transform_string of the bytes read, whatever the sizes of the individual reads; with ~len it consumes exactly len bytes or raises End_of_file if the channel has fewer.",
  "every transform that is chunking-independent, every channel content, every schedule of short reads", "schedules of short reads are environment choices", [ML+":transform_string", ML+":transform_channel"])
p("hash_string and hash_channel agree",
  "hash_channel returns hash_string of the bytes read whatever the sizes of individual reads; with ~len it consumes exactly len bytes or raises End_of_file.",
  "every chunking-independent hash, channel content, read schedule", "schedules of short reads", [ML+":hash_string", ML+":hash_channel"])
p("transform_then_hash and transform_and_hash",
  "transform_then_hash outputs the transformed data and its tag is the hash of the transformed data; transform_and_hash outputs the transformed data and its tag is the hash of the input data; for every chunking.",
  "every transform, hash, sequence of operations", "quantifies over transforms and histories", [ML+":transform_then_hash", ML+":transform_and_hash"])
p("RSA decryption inverts encryption; signatures unwrap",
  "For every key pair produced by RSA.new_key, decrypt (and decrypt_CRT) of encrypt of a message smaller than n is the message as a number, and unwrap_signature of sign (and sign_CRT) is the message.",
  "every pair of primes and exponents that new_key can choose, every message smaller than n", "all primes, exponents, messages, including those not coprime to n", [ML+":RSA", "src/cryptokitBignum.ml"])
p("RSA rejects messages not smaller than the modulus",
  "RSA operations raise Message_too_long exactly when the message, as a big-endian number, is at least n; otherwise they return a string of exactly ceil(size/8) bytes.",
  "every key and message", "all numbers", [ML+":RSA.encrypt", ML+":RSA.decrypt"])
p("Paillier decryption inverts encryption",
  "For every key pair produced by Paillier.new_key and every message smaller than n, decrypt of encrypt is the message as a number, whatever the random blinding.",
  "every pair of primes, message, random choice", "all primes, messages and random choices", [ML+":Paillier"])
p("Paillier addition is homomorphic",
  "decrypt (add (encrypt m1) (encrypt m2)) is (m1 + m2) mod n.",
  "every key, pair of messages, random choices", "as above", [ML+":Paillier.add"])
p("Diffie-Hellman agreement",
  "Both parties obtain the same shared secret, a string of the length of p, for all parameters and private secrets.",
  "every p, g, pair of secrets", "all numbers", [ML+":DH"])
p("DH.derive_key",
  "derive_key produces exactly numbytes bytes, the first numbytes bytes of H(div ^ secret ^ \"1\") ^ H(div ^ secret ^ \"2\") ^ ...; a shorter derived key is a prefix of a longer one.",
  "every secret, diversification, length", "unbounded lengths", [ML+":DH.derive_key"])
p("Big-endian conversions of big integers",
  "of_bytes/to_bytes convert between strings and numbers in big-endian notation: of_bytes (to_bytes n) = n, and to_bytes with a bit size returns exactly ceil(size/8) bytes when the number fits.",
  "every number, string, size", "all numbers", ["src/cryptokitBignum.ml"])
p("mod_power and mod_mult",
  "mod_power a b c and mod_mult a b c return, as a string of the length of c, a^b mod c and a*b mod c.",
  "all strings in the documented domain", "all numbers", [ML+":mod_power", ML+":mod_mult"])
p("Pseudo-random generators are deterministic streams independent of request sizes",
  "pseudo_rng returns successive bytes of the ChaCha20 keystream of the seed; pseudo_rng_aes_ctr returns successive bytes of AES(seed,0), AES(seed,1), ...; the bytes obtained depend only on the seed and position, not on how requests are cut, and exactly positions [pos, pos+len) of the buffer are written.",
  "every seed, every history of requests", "unbounded histories", [ML+":Random.pseudo_rng", ML+":Random.pseudo_rng_aes_ctr"])
p("Entropy-source generators fill the whole request or raise",
  "system_rng, device_rng and hardware_rng either fill exactly the requested range with bytes from their source, in order, or raise an exception (Entropy_source_closed when the source ends or fails; the exception of the Unix library when reading a device fails); once wiped, device_rng delivers nothing; secure_rng selects the first available source in the documented order.",
  "every schedule of short reads and failures of the source, every request", "environment schedules", [ML+":Random.device_rng", ML+":Random.system_rng", ML+":Random.secure_rng", "src/stubs-rng.c"])
p("wipe erases buffers and key material and leaves the object memory-safe",
  "After wipe, all buffers of the object (pending input, output buffer, IV, key schedule) contain only zeroes, and calling a method afterwards may give meaningless results but does not access memory outside the object's buffers.",
  "every reachable state of the object", "memory contents are not observable by tests", [ML+":wipe_bytes", ML+":Block.aes_encrypt.wipe", ML+":Block.cipher.wipe"])
p("Zlib transforms feed all input and collect all output",
  "compress and uncompress pass every input byte to the compression engine exactly once and in order, append every byte it produces, whatever amounts the engine consumes and produces at each call; finish continues until the engine reports the end of stream; trailing garbage is reported; uncompress inverts compress.",
  "every engine behaviour satisfying the zlib contract, every input, every chunking", "the engine's partial progress schedule is arbitrary", [ML+":Zlib", "src/stubs-zlib.c"])
p("Substring arguments are validated before any memory access",
  "put_substring / add_substring / random_bytes with an illegal offset/length pair raise Invalid_argument (or ignore non-positive lengths) and never access memory outside the given byte sequence.",
  "every integer offset and length, every object kind", "out-of-range reads are silent", [ML+":Hash", ML+":Stream.cipher", ML+":AEAD.chapoly_decrypt", ML+":Zlib.compress"])
p("Context-creating stubs survive garbage collection",
  "Creating a hash, MAC or cipher context uses the key passed by the caller even if the allocation of the context triggers a garbage collection that moves the key.",
  "every garbage-collection schedule", "moves happen only under memory pressure", ["src/stubs-siphash.c", "src/stubs-ghash.c", "src/stubs-aes.c"])
p("Cipher entry points decrypt what they encrypt",
  "For aes, des, triple_des and blowfish, every chaining mode, IV, optional padding, key and message (of suitable length if unpadded), transform_string of the Decrypt transform applied to transform_string of the Encrypt transform is the message; likewise chacha20 and arcfour.",
  "every key, mode, IV, padding, message", "product of all of the above", [ML+":Cipher"])
p("Flushing does not change what a transform means",
  "Calling flush at a block boundary in the middle of a message does not change the total output of block-cipher and stream-cipher transforms after finish.",
  "every history with flushes", "histories", [ML+":Block.cipher.flush", ML+":Block.cipher_padded_decrypt"])
p("MD5 is that of RFC 1321 and HMAC-MD5 that of RFC 2104",
  "Hash.md5 and MAC.hmac_md5 return, whatever the cut of the data into additions, the MD5 digest of the data and its HMAC, given that the MD5 functions of the OCaml runtime are right.",
  "every key, message and history of additions, of any size", "sizes beyond 4 GiB", [ML+":Hash.md5", ML+":MAC.hmac_md5", "src/stubs-md5.c"])
p("Results do not depend on the race to detect processor instructions",
  "Whatever the interleaving of threads that create and use AES and GHASH keys for the first time, every result is the one of the standard: no key prepared for the special instructions is used by the portable code or the reverse.",
  "every processor, every number of threads, every interleaving", "schedules", ["src/stubs-aes.c:aesni_available", "src/stubs-ghash.c:pclmul_available", "src/aesni.c:aesni_check_available", "src/pclmul.c:pclmul_check_available"])
p("Memory outside the OCaml heap is freed once and never used afterwards",
  "The contexts of SHA-3, BLAKE3, GHASH and Zlib, which live outside of the OCaml heap, are used only while allocated, freed at most once, erased before being freed by wipe, and freed when their object is collected.",
  "every history of creations, uses, wipes and collections of any number of objects", "double frees, leaks and uses after free are not observable by tests", ["src/stubs-sha3.c", "src/stubs-blake3.c", "src/stubs-ghash.c", "src/stubs-zlib.c"])
p("input_block_size and output_block_size tell which messages are accepted and the length of the result",
  "A transform given a whole message whose length is a multiple of its input_block_size does not complain about the length of the data, and the length of its whole output is a multiple of its output_block_size.",
  "every class of transform, every message, every history of calls", "every length, every chunking, every composition of transforms", [ML+":transform", ML+":compose", ML+":Block.cipher", ML+":Block.cipher_padded_encrypt", ML+":Block.cipher_padded_decrypt"])
p("Results do not depend on the byte order of the machine",
  "On big-endian and little-endian machines alike, SHA-1, SHA-2, RIPEMD-160, ChaCha20 and Blowfish give the results of their standards.",
  "machines of both kinds, every key, every message, every history", "tests run on one kind of machine", ["src/sha1.c:SHA1_copy_and_swap", "src/sha256.c:SHA256_copy_and_swap", "src/sha512.c:SHA512_copy_and_swap", "src/ripemd160.c:RIPEMD160_copy_and_swap", "src/chacha20.c:U32TO8_LITTLE", "src/stubs-blowfish.c:COPY4BYTES"])
p("Keys may be erased once the object is created",
  "After a cipher, MAC or generator has been created from a key, the caller may overwrite the key string (wipe_string) without changing the results of the object.",
  "every key, every history of calls, erasure at any point of it", "interleavings of the caller's actions with the object's", [ML+":HMAC.hmac", ML+":wipe_string", ML+":MAC"])
p("A modified ciphertext, header or tag is accepted under few keys only",
  "Given two different pairs of a header and an authenticated ciphertext, the keys under which auth_check_transform_string accepts both (with the same IV) are few: with ChaCha20-Poly1305 at most 2^25 n of the 2^128 one-time keys that accept the first pair, with AES-GCM at most n of the 2^128 values of the hash subkey, n being the number of 16-byte blocks.",
  "every two pairs of header and ciphertext of any lengths, every key and IV", "counts over all keys", [ML+":auth_check_transform_string", ML+":AEAD", "src/stubs-poly1305.c", "src/poly1305-donna-64.h", "src/stubs-ghash.c", "src/ghash.c", "src/pclmul.c"])
p("Data of any length goes through a transform when the output is retrieved as it comes",
  "The result of a transform does not depend on the total length of the data exceeding the maximal length of strings: if the data put between two retrievals of the output fits in a string, with a small margin, the result is the specified one; in particular transform_channel processes channels of any length.",
  "every block cipher (padded or not), stream cipher, authenticated, Base64 and hexadecimal transform, every history of calls, every channel, total lengths without bound", "data longer than Sys.max_string_length", [ML+":buffered_output", ML+":transform_channel", ML+":Block.cipher", ML+":Cipher", ML+":AEAD", ML+":Base64", ML+":Hexa"])
p("Erasing temporaries and private keys never changes a result",
  "The public-key functions erase the numbers they used, and wipe_key erases private keys, in place; whatever the sharing between the numbers of the big-integer library, this changes neither the results, nor the public key created with a private key, nor any number or string that the caller had before (apart from the private secret given to DH.shared_secret).",
  "every key, message and initial memory, every choice by the big-integer library to return an argument instead of a new number", "depends on the memory layout chosen by a library", [ML+":RSA", ML+":Paillier", ML+":DH", "src/cryptokitBignum.ml:mod_power_CRT", "src/cryptokitBignum.ml:wipe", "src/stubs-misc.c:caml_wipe_z"])
p("Random secrets are uniformly distributed, given uniform random bytes",
  "Given random bytes that take all values equally often, DH.private_secret takes every number of exactly privlen bits equally often, and no other; so do the numbers from which RSA exponents, Paillier blinding factors and primes are made (odd numbers for primes).",
  "every size, every number of that size", "counts over all random strings", [ML+":DH.private_secret", "src/cryptokitBignum.ml:random"])
p("A collision of a hash function is a collision of its compression function",
  "If two objects of the same class among Hash.sha1, sha256, sha512, ripemd160 and md5 return the same digest although the data added differ, then while these data were hashed the compression function of the standard gave the same result for two different pairs of a chaining value and a block. Any weakness beyond that of the compression function (ambiguous padding, a length counted wrongly, blocks skipped) is excluded.",
  "every two histories of additions, of less than 2^61 bytes (2^125 for SHA-512)", "nobody can enumerate messages", [ML+":Hash", "src/sha1.c", "src/sha256.c", "src/sha512.c", "src/ripemd160.c", "src/stubs-md5.c"])
p("The byte array returned by get_substring can be read until more output is produced, and even modified",
  "get_substring returns the output buffer of the object itself. The substring designates the output available at the time of the call and stays so as long as the object produces no output; if the user modifies the byte array when no output is available, later output is not changed; once another byte array has been returned, the object does not touch the first one any more.",
  "every history of productions, retrievals and modifications by the user", "aliasing between caller and object over unbounded histories", [ML+":buffered_output", "src/cryptokit.mli:get_substring"])
p("wipe erases all the output buffers that the object has used",
  "After wipe, none of the output buffers that a transform has allocated holds output data, even those that it has replaced by larger ones.",
  "every history of productions and retrievals", "memory contents are not observable by tests", [ML+":buffered_output", ML+":buffered_output.ensure_capacity", ML+":buffered_output.wipe"])
p("Extreme offsets and lengths are handled as other illegal ones, despite the wrap-around of integers",
  "Offsets and lengths close to max_int or min_int, for which the sums computed by put_substring and add_substring wrap around, are treated as other illegal ranges are: the call terminates, and raises an exception or (length not positive) does nothing. On all other arguments wrap-around has no effect.",
  "every OCaml integer as offset and length, every history of calls, 63-bit and 31-bit integers", "2^126 pairs of arguments", [ML+":buffered_output.ensure_capacity", ML+":Stream.cipher", ML+":Block.cipher", ML+":Block.mac", ML+":Base64", ML+":Hexa"])
p("Generated keys and parameters have the requested size and kind",
  "RSA.new_key n and Paillier.new_key n return a modulus of exactly n bits, the product of two different primes of n/2 bits; DH.new_parameters n returns a prime modulus of exactly n bits and a generator g of its multiplicative group, 1 < g < p; DH.private_secret returns a number of exactly privlen bits.",
  "every size, every exponent, every random generator", "the factors are random", [ML+":RSA.new_key", ML+":Paillier.new_key", ML+":DH.new_parameters", ML+":DH.private_secret", "src/cryptokitBignum.ml:random_prime", "src/cryptokit.mli:DH"])
p("RSA.new_key returns matching keys or raises an exception for every fixed exponent",
  "For every integer e, RSA.new_key ~e n terminates (with a random generator that does not fail, with probability 1), and either raises an exception or returns a key pair with this exponent such that decrypt inverts encrypt.",
  "every exponent (positive, negative, even, odd), every size, every random generator", "non-termination, and all exponents", [ML+":RSA.new_key"])
p("Keys derived from different data are different",
  "If two calls of DH.derive_key, with different diversification strings or different secrets, return the same key of at least 32 bytes, then a collision of SHA-256 occurs in the computation; likewise if two 32-byte blocks of one derived key are equal.",
  "every two secrets, diversification strings and lengths", "nobody can enumerate secrets", [ML+":DH.derive_key", "src/cryptokit.mli:derive_key"])
p("A call that raises an exception has no effect",
  "If a method of a transform raises an exception (illegal range, incomplete block, no room for the output) and the caller catches it, then whatever calls follow, their results are those they would have had if the failed call had not been made.",
  "every history of calls before, every failed call, every history of calls after", "products of histories", [ML+":Stream.cipher", ML+":Block.cipher", ML+":buffered_output.ensure_capacity"])
p("The memory that a transform holds for its output is at most twice the output",
  "The output buffer of a transform is never larger than its initial size, or twice the longest output that has been pending at some point.",
  "every history of productions and retrievals of output", "unbounded histories", [ML+":buffered_output", ML+":buffered_output.ensure_capacity"])
p("The time spent to manage the output is proportional to the output",
  "Besides the copy of each byte into the buffer and out of it, the number of bytes moved by the management of the output buffer, in any history, is at most four times the number of bytes output.",
  "every history of productions and retrievals of output", "unbounded histories", [ML+":buffered_output", ML+":buffered_output.ensure_capacity", ML+":buffered_output.get_char"])
p("Messages encrypted under the same key with different IVs never share a keystream block",
  "For counter mode, AES-GCM, ChaCha20 and ChaCha20-Poly1305: if two messages are encrypted under the same key with different IVs, then no block that is encrypted to produce the keystream of the one is used for the other (for counter mode: unless one IV is among the counter values used for the other message), and the IV does not reveal secrets.",
  "every key, every pair of different IVs of legal lengths, every pair of messages", "pairs of IVs and messages cannot be enumerated", [ML+":AEAD.aes_gcm", ML+":AEAD.chacha20_poly1305", ML+":Stream.chacha20", ML+":Block.ctr", "src/chacha20.c:chacha20_init"])
p("DES keys: parity bits are ignored, 16-byte keys stand for k1 k2 k1, equal keys reduce triple DES to DES",
  "DES and triple DES keys that differ only in the least significant bits of their bytes give objects with the same behaviour, for ciphers and MACs; a triple DES key k1 k2 of 16 bytes gives the same object as k1 k2 k1; with keys k k k' or k' k k, triple DES encrypts and decrypts as DES with key k'.",
  "every key, mode, padding, IV and message", "2^64 keys (2^192 for triple DES)", ["src/d3des.c:d3des_cook_key", ML+":Cipher.des", ML+":Cipher.triple_des", ML+":MAC.des", ML+":MAC.triple_des", ML+":MAC.des_final_triple_des", "src/cryptokit.mli:triple_des"])
p("Errors in the ciphertext damage a bounded part of the decrypted text",
  "When the ciphertext is modified (without change of length), decryption without padding gives the right text for every block whose ciphertext block, and the r ciphertext blocks before it, are intact: r is 0 for ECB, OFB and counter mode, 1 for CBC and ceil(n/k) for CFB with k-byte segments of n-byte blocks. Thus decryption recovers after errors.",
  "every cipher, key, mode, IV, every two ciphertexts of the same length, every history of calls on both", "pairs of ciphertexts cannot be enumerated", [ML+":Block.cbc_decrypt", ML+":Block.cfb_decrypt", ML+":Block.ofb", ML+":Block.ctr", "src/cryptokit.mli:chaining_mode"])
p("Collisions of BLAKE2, BLAKE3 and HMAC objects are collisions of what they are built on",
  "If two BLAKE2 or BLAKE3 objects with the same size of result give the same result although the data added or the keys differ, then two different applications of the compression function in the two computations collide: before the last application on the whole chaining value, in the last one on as many bytes as the result has (all of it for BLAKE2b-512, BLAKE2s-256 and BLAKE3 of 256 bits or more). If two HMAC objects with the same key give the same result for different data, then two different strings given to the hash function in the two computations have the same hash.",
  "all keys, sizes, messages (below the length limits of the standards), ways to cut them into calls, and uninitialised memory contents",
  "no collision is known to test with; the padding, counters and flags must make the encoding of keys and messages injective for all pairs of inputs",
  ["src/cryptokit.ml: Hash.blake2b, Hash.blake2s, Hash.blake3, MAC.blake2b, MAC.blake2s, MAC.blake3, HMAC", "src/blake2.c", "src/blake3.c: blake3_hasher_update, blake3_hasher_finalize", "src/stubs-blake2.c", "src/stubs-blake3.c"])

p("Pseudo-random generators: the part of the seed that counts, and the period of the output",
  "pseudo_rng uses only the first 32 characters of its seed (a shorter seed, except one of 16 characters, is equivalent to the same seed followed by zeroes) and pseudo_rng_aes_ctr only the first 16. The 16-byte blocks output by pseudo_rng_aes_ctr are all different until 2^132 bytes have been obtained, and then the output repeats; the output of pseudo_rng is a sequence of ChaCha20 blocks computed from inputs that are all different until 2^70 bytes have been obtained, and then repeats.",
  "every seed, every history of requests", "pairs of seeds, and lengths beyond reach", [ML+":Random.pseudo_rng", ML+":Random.pseudo_rng_aes_ctr", "src/cryptokit.mli:pseudo_rng", "src/cryptokit.mli:pseudo_rng_aes_ctr"])
p("The other party cannot force the Diffie-Hellman shared secret",
  "DH.shared_secret, given any message from the other party, raises an exception or returns a secret that depends on the private secret of the present party: different private secrets give different shared secrets, and the shared secret is neither 0 nor 1.",
  "every parameters, private secret and message", "messages chosen by an adversary", [ML+":DH.shared_secret", "src/cryptokit.mli:DH"])

p("Nothing is revealed past the maximal length of a message",
  "Once AES-GCM or ChaCha20-Poly1305 encryption has been given more bytes than the maximal length (2^36 - 32, or 2^38 with a 12-byte IV) and has raised Message_too_long, no output past the maximal length and no tag can be obtained from the object, whatever methods are called next.",
  "every key, IV, header and sequence of method calls with any arguments, the exceptions being caught",
  "no test encrypts 64 gigabytes and then goes on using the object; the claim is about every sequence of calls after the failure.",
  [ML + " (AEAD.aes_gcm_encrypt, AEAD.chapoly_encrypt: transform, finish_and_get_tag)", "src/cryptokit.mli (Message_too_long)"])

p("Keys, parameters and secrets are made of the first suitable numbers drawn from the generator",
  "RSA.new_key, Paillier.new_key, Paillier.encrypt, DH.new_parameters and DH.private_secret ask the generator for strings of the length of the number they need, make one number of each string, retain the first ones that are suitable (prime, different, without common factor with the exponent or the modulus) and throw the others away: no string is used twice, no part of a string is lost beyond what the size of the number requires, and nothing else influences the choice.",
  "every generator that returns strings of the right length, every size, exponent and message", "the strings drawn, and the number of draws that are rejected, are unbounded", [ML+":RSA.new_key", ML+":Paillier.new_key", ML+":Paillier.encrypt", ML+":DH.new_parameters", ML+":DH.private_secret", "src/cryptokitBignum.ml:random", "src/cryptokitBignum.ml:random_prime"])

p("Results never depend on uninitialised memory",
  "Buffers are allocated without being initialised. Whatever they contain at that time, every sequence of method calls on an object, exceptions being caught, gives the same results and the same exceptions: what the memory held before never appears in the output of a cipher, codec, hash, MAC, or compressor, and never changes it. The results do not depend either on the implementation chosen at run time (AES-NI or portable, SIMD width).",
  "every two contents of fresh memory, every key, parameter and sequence of method calls with any arguments",
  "the contents of uninitialised memory cannot be enumerated, and are mostly zero in a test process",
  [ML+":buffered_output", ML+":Block.cipher", ML+":Block.mac", ML+":Stream.cipher", ML+":Base64", ML+":Hexa", ML+":Zlib", "src/sha1.c", "src/sha256.c", "src/sha512.c", "src/ripemd160.c", "src/keccak.c", "src/blake2.c", "src/blake3.c", "src/siphash.c"])

p("The system generator fills the request or raises on every system",
  "Whatever the system the library is compiled for (getentropy, Windows, neither): Random.system_rng () returns a generator or raises No_entropy_source; its random_bytes fills the whole range requested with bytes of the system's source, or raises Entropy_source_closed, and never returns normally with a part of the range not filled; after wipe it delivers no more bytes (on Windows); secure_rng is the first source available among the system's, /dev/random, the processor's.",
  "every system, every behaviour of the system's source, every buffer and range", "requests of gigabytes, failures of the source, systems that the tests do not run on",
  [ML+":Random.system_rng", ML+":Random.secure_rng", "src/stubs-rng.c:caml_system_rng_random_bytes", "src/stubs-rng.c:caml_get_system_rng"])

p("Errors and commands keep their meaning between OCaml and C",
  "An error reported by zlib raises Error (Compression_error (f, m)), with the name of the function and the message of zlib. If the library is compiled without zlib, all the compression functions raise Error Compression_not_supported. The values built in C are those of these constructors of the type error and of no other. zlib receives the level and the flush commands that the OCaml code gives, and an invalid level raises Compression_error.",
  "every error, message, level, flush command, and behaviour of zlib", "errors of zlib and builds without it that tests do not produce",
  ["src/stubs-zlib.c:caml_zlib_error", "src/stubs-zlib.c:caml_zlib_not_supported", "src/stubs-zlib.c:caml_zlib_new_stream", ML+":error", ML+":Zlib.flush_command"])

p("Which keys are interchangeable",
  "Different keys give different objects for AES encryption, ChaCha20, SipHash, BLAKE2 and BLAKE3: every bit of the key is used. ARCfour and Blowfish repeat the key up to 256 and 72 bytes: keys that agree once repeated, as a key and the same key written twice, give the same object. HMAC makes a block of the key (its hash if it is longer than a block, completed with zeroes): keys that make the same block compute the same MACs; if keys that make different blocks give one message the same MAC, a collision of the hash function has been found. (For DES keys, see C90; for seeds, C93.)",
  "every two keys of the accepted sizes, every message and sequence of calls", "pairs of keys cannot be enumerated; test vectors use one key at a time",
  ["src/arcfour.c:arcfour_cook_key", "src/blowfish.c:Blowfish_Init", ML+":HMAC.hmac_pad", "src/chacha20.c:chacha20_init", "src/siphash.c:siphash_init", "src/blake2.c:blake2b_init", "src/stubs-blake3.c:caml_blake3_init", "src/rijndael-alg-fst.c:rijndaelKeySetupEnc", "src/aesni.c:aesniKeySetupEnc"])

p("CBC-MACs distinguish messages of one length, CMAC messages of all lengths",
  "MAC.aes, MAC.des, MAC.triple_des and MAC.des_final_triple_des are fine for data of fixed length: messages of the same length that differ inside one block always have different tags, and two messages of the same length with the same tag exhibit a collision of the chaining values. The first three are weak for data of variable length, as documented: from the tag of one message the tag of a longer message is known without the key, with every padding scheme and IV. MAC.aes_cmac is suitable for data of variable length: two different messages of any lengths with the same tag exhibit a collision of the chaining values, or have last blocks that differ by exactly the secret subkeys; and the forgery that breaks the others does not work unless the key encrypts the zero block to itself.",
  "every key, IV, padding scheme, pair of messages and way to cut them into calls", "pairs of messages cannot be enumerated, and test vectors never show that two tags cannot be related",
  [ML+":MAC.aes", ML+":MAC.des", ML+":MAC.triple_des", ML+":MAC.des_final_triple_des", ML+":MAC.aes_cmac", ML+":Block.mac", ML+":Block.cmac", "src/cryptokit.mli:MAC"])

p("Public-key ciphertexts correspond to messages one to one, and multiply",
  "For the keys that new_key returns. RSA.encrypt permutes the strings of the length of the modulus that represent numbers below it: every such string is the ciphertext of exactly one. Two calls of Paillier.encrypt return the same ciphertext exactly if they encrypt the same number with the same blinding number, and every number below n^2 prime with n is a ciphertext. RSA ciphertexts and signatures multiply: from those of two messages, those of their product are known without the private key.",
  "every key that new_key can return, every message, ciphertext, signature and generator", "messages and keys cannot be enumerated; a round trip on samples does not show that all strings are reached",
  [ML+":RSA.encrypt", ML+":RSA.decrypt", ML+":RSA.sign", ML+":RSA.unwrap_signature", ML+":Paillier.encrypt", ML+":Paillier.new_key"])

p("Secrets drawn until they are suitable are uniform among the suitable ones",
  "If the random bytes are uniform and independent, so are the secrets that are drawn again and again until they meet a condition: the random exponent of RSA.new_key among those of the size requested that are prime with p-1 and q-1, the blinding number of Paillier.encrypt among those below the modulus and prime with it, the primes of RSA, Paillier and DH among the primes of the size requested.",
  "every number of random strings consumed, every key and message, every pair of suitable secrets", "distributions cannot be established by sampling; a small bias is invisible",
  [ML+":RSA.new_key", ML+":Paillier.encrypt", ML+":Paillier.new_key", ML+":DH.new_parameters", "src/cryptokitBignum.ml:random", "src/cryptokitBignum.ml:random_prime"])

p("The functions on whole strings and channels wipe the object before they return",
  "When transform_string, transform_channel, hash_string, hash_channel, auth_transform_string, auth_transform_string_detached or auth_check_transform_string returns, the transform or hash it was given has been wiped, whatever it had processed before, whatever the channel delivers, and for the last one also if the tag was wrong: key schedules, intermediate states and buffers contain only zeroes, as after a call of wipe. If an exception is raised instead, nothing is erased.",
  "every transform, hash and authenticated transform, in every state, every string, length and behaviour of the channel", "memory contents are not observable through the interface, and states cannot be enumerated",
  [ML+":transform_string", ML+":transform_channel", ML+":hash_string", ML+":hash_channel", ML+":auth_transform_string", ML+":auth_transform_string_detached", ML+":auth_check_transform_string", "src/cryptokit.mli:transform_string"])

p("Chaining modes can be stacked on each other",
  "The chaining-mode classes of Block take any block cipher, in particular another chaining mode, \"in a Lego-like fashion\". For every list of modes put on top of each other over AES, DES, Triple DES or Blowfish, with suitable IVs and parameters, the object has the block size of the outermost mode and computes the composition of the modes on every history of calls; it raises Message_too_long exactly when one of the counter modes of the tower has used up its counter; and the same tower built for decryption gives back what was encrypted, with or without padding.",
  "all lists of modes (any number, any order), IVs, segment and counter sizes, keys, messages, splittings into calls, both implementations of AES",
  "Towers of modes are unbounded in height, and tests exercise each mode directly over a block cipher only.",
  [ML+":Block.cbc_encrypt", ML+":Block.cbc_decrypt", ML+":Block.cfb_encrypt", ML+":Block.cfb_decrypt", ML+":Block.ofb", ML+":Block.ctr", ML+":Block.cipher"])

p("Every generator made from a seed string gives the stream of that seed, and the string is left alone",
  "Random.pseudo_rng and Random.pseudo_rng_aes_ctr may be applied several times to the same seed string: each generator delivers the stream of the seed, from its beginning, whatever has been done with the other generators, including wiping them; and the seed string, an immutable value of the caller, keeps its contents.",
  "every seed of at least 16 bytes, every interleaving of creations, requests and wipes of any number of generators",
  "There are infinitely many interleavings, and the generators communicate only through the memory of the string.",
  [ML+":Random.pseudo_rng", ML+":Random.pseudo_rng_aes_ctr", ML+":wipe_string"])

p("DH.shared_secret destroys the private secret, which can no longer be used",
  "DH.message may be called any number of times with a private secret, and always gives the same message; DH.shared_secret may be called once with it, and after that every call of message or shared_secret with this secret raises Invalid_argument; other private secrets are not affected.",
  "every parameters from DH.new_parameters, every set of private secrets from DH.private_secret, every history of calls, every message of the other party",
  "The erasure happens in memory and depends on the value of the number; the histories of calls are unbounded.",
  [ML+":DH.shared_secret", ML+":DH.message", "src/cryptokit.mli:DH", "src/stubs-misc.c:caml_wipe_z"])

p("What two messages encrypted with the same key and IV reveal about each other",
  "With arcfour, chacha20, aes_gcm, chacha20_poly1305 and all block ciphers in OFB and CTR modes, the xor of two ciphertexts obtained with the same key, IV and counter is the xor of the messages, up to the length of the shorter one. In every mode of every block cipher the ciphertexts begin with the same blocks exactly as far as the messages do; in CFB mode the xor of the first blocks that differ is also revealed; in ECB mode two blocks of ciphertext are equal exactly when the blocks of message are; in CBC mode two blocks of ciphertext are equal exactly when the xor of the blocks of message is that of the preceding blocks of ciphertext.",
  "every key, IV, mode, padding, pair of messages, pair of histories of calls, both implementations of AES",
  "It relates two runs on arbitrary messages of arbitrary, different lengths.",
  [ML+":Cipher.chacha20", ML+":Cipher.arcfour", ML+":Cipher.make_block_cipher", ML+":AEAD.aes_gcm", ML+":AEAD.chacha20_poly1305", "src/cryptokit.mli:Cipher"])

p("Sums of any number of encrypted numbers",
  "Paillier.add can be iterated: any number of ciphertexts obtained from Paillier.encrypt with one public key, each with its own random generator, can be added in any order and any grouping; the result is the same string whatever the order and grouping, has the length of n2, and decrypts to the sum of the numbers modulo n.",
  "every key pair from Paillier.new_key, every number of terms, every order and grouping, all messages, all random choices",
  "Sums are unbounded in length and their groupings are all binary trees.",
  [ML+":Paillier.add", ML+":Paillier.encrypt", ML+":Paillier.decrypt", ML+":Paillier.new_key"])

p("transform_channel and hash_channel over channels that fail",
  "Whatever reads and writes fail, with whatever exception and after however many bytes, and whatever the sizes of the reads: if transform_channel returns, it has read exactly the data it was asked to read and written exactly what transform_string returns on it, and if hash_channel returns a digest, it is that of all the data. If transform_channel raises an exception, or the program is stopped at that point, what has been written is a beginning of the right output, or, if the data is refused, of the output for every accepted message that begins with the data read up to the last 256 bytes. An exception is raised only if an operation on a channel has raised it, the channel has fewer bytes than ~len (End_of_file), or the data is refused.",
  "every transform and hash whose result does not depend on the cut into calls, every content of the channel, every ~len, every sequence of sizes of reads, every point of failure and number of bytes written by the failing operation",
  "The points of failure and the sizes of reads are chosen by the operating system; there are infinitely many.",
  [ML+":transform_channel", ML+":hash_channel", ML+":transform_string", "src/cryptokit.mli:transform_channel"])

p("The buffer through which a channel is read is erased",
  "When transform_channel or hash_channel ends, normally or by an exception, the 256-byte buffer through which it has read the data, which it allocates itself, contains only zeroes.",
  "every transform and hash, every content of the channel, every ~len, every sequence of sizes of reads, every point of failure",
  "Memory contents are not observable through the interface, and the points of failure cannot be enumerated.",
  [ML+":transform_channel", ML+":hash_channel", ML+":wipe_bytes"])

p("Pipelines of any number of transforms, in any grouping",
  "compose can be iterated: for every list of transforms, composed in any grouping, the object computes the first transform, then the second on its output, and so on, for every cut of the data into calls, every read of the output and every flush; the grouping makes no difference, and transform_channel over the pipeline writes what the transforms give one after the other.",
  "all binary trees of transforms whose results do not depend on the cut into calls, all histories of calls, all sizes of reads",
  "Pipelines are unbounded in length, and their groupings are all binary trees.",
  [ML+":compose", ML+":transform_channel", "src/cryptokit.mli:compose"])

p("Digests can be extended without the message",
  "Hash.sha1, sha256, sha512, ripemd160 and md5 are not message authentication codes of a key followed by a message: from the digest d and the length of some data one can compute, without the data, the digest of the data followed by the padding for that length and by any bytes x. (MAC.hmac_* are the functions for this use.)",
  "all data, all continuations x, all histories of calls that feed the data to the objects",
  "The relation is between the digests of every two messages one of which is the padded other one with a continuation; both are unbounded.",
  [ML+":Hash", "src/cryptokit.mli:Hash", "src/sha1.c:SHA1_finish", "src/sha256.c:SHA256_finish", "src/sha512.c:SHA512_finish", "src/ripemd160.c:RIPEMD160_finish"])

p("A collision of SHA-3 or Keccak is a collision inside the sponge",
  "If two objects made by Hash.sha3 and Hash.keccak, of the same size, yield the same digest although the data added differ, or although one is of each kind, then either two different sequences of blocks lead to states that agree past the bytes into which data is mixed, or the last application of the permutation takes two different states to different states with the same beginning. The permutation itself never takes two states to the same one.",
  "every two histories of additions, every size accepted, both kinds of padding", "nobody can enumerate messages; the permutation has 2^1600 arguments",
  [ML+":Hash", "src/keccak.c:KeccakPermutation", "src/keccak.c:SHA3_absorb", "src/keccak.c:SHA3_extract"])

p("Calls interrupted by signals leave the objects safe",
  "An OCaml program can be interrupted at almost any point by a signal handler that raises an exception (Ctrl-C, a timeout). However many times, and wherever, calls on an object made by Cipher.aes, des, triple_des, blowfish, arcfour or chacha20, or by AEAD.aes_gcm or chacha20_poly1305, or by MAC.aes, des, triple_des, des_final_triple_des or aes_cmac, or by Base64 or Hexa, or on what compose, transform_then_hash or transform_and_hash make of objects of which this is true, are interrupted in this way, every later call returns or raises an exception: it accesses no memory out of bounds and it ends (for AES, in all its uses, as long as wipe is not called, see C63; for decryption with chacha20_poly1305, as long as the ranges given are legal, see C65). With an object made by Zlib.compress or uncompress, and legal ranges, every later call accesses no memory out of bounds; whether it ends depends on the library zlib. No more is promised: an interrupted call may have been done in part.",
  "every object, mode and padding, every sequence of calls with any arguments, any number of interruptions at any points between two statements of the methods",
  "The points of interruption cannot be controlled by a test, and their combinations are unbounded.",
  [ML+":buffered_output", ML+":Block.cipher", ML+":Block.cipher_padded_encrypt", ML+":Block.cipher_padded_decrypt", ML+":Block.cbc_encrypt", ML+":Block.ctr", ML+":Stream.cipher", ML+":AEAD.aes_gcm", ML+":AEAD.chacha20_poly1305", ML+":Block.mac", ML+":Block.mac_final_triple", ML+":Block.cmac", ML+":Zlib.compress", ML+":Zlib.uncompress", ML+":Base64.encode", ML+":Base64.decode", ML+":Hexa.encode", ML+":Hexa.decode", ML+":compose", ML+":transform_then_hash", ML+":transform_and_hash"])

p("Counter blocks stay fresh when calls are interrupted",
  "A program that catches the exception raised by a signal handler and goes on using an object of class Block.ctr (or Cipher.aes ~mode:CTR and the like) relies on no two blocks being encrypted with the same counter block. This is false: an exception raised while the counter propagates a carry loses the carry, and 256 blocks later counter blocks repeat; and interrupted calls are not counted towards the limit after which Message_too_long is raised. It holds for calls interrupted at any point as long as none is interrupted when the last byte of the counter is 0xFF, and for as many calls, interrupted or not, as the counter has values. The same goes for AEAD.aes_gcm, where a counter that goes back also reveals the mask of the tag.",
  "every block cipher, IV and size of counter, every sequence of calls with any buffers, any number of interruptions at any points between two statements",
  "The points of interruption cannot be controlled by a test; the failure needs an interruption at one point in 256 blocks.",
  [ML+":Block.increment_counter", ML+":Block.ctr", ML+":AEAD.aes_gcm", "src/cryptokit.mli:Block.ctr"])

p("Pseudo-random bytes are not given twice when requests are interrupted",
  "A program that catches the exception raised by a signal handler and goes on drawing from the same generator relies on getting fresh bytes. For Random.pseudo_rng: however many times, and wherever, calls to random_bytes are interrupted, the strings given by the calls that return are disjoint parts, in order, of the stream of the seed; bytes may be skipped, none is given twice. For Random.pseudo_rng_aes_ctr this is false: an exception raised while the counter propagates a carry loses the carry, and the generator then gives its first bytes again, whatever the seed. It holds as long as no call is interrupted that may increment a counter whose last byte is 0xFF.",
  "every seed, every sequence of requests with any buffers and legal ranges, any number of interruptions at any points between two statements",
  "The points of interruption cannot be controlled by a test; the failure needs an interruption at one point in 4096 bytes.",
  [ML+":Random.pseudo_rng", ML+":Random.pseudo_rng_aes_ctr", ML+":Block.increment_counter", "src/cryptokit.mli:Random.pseudo_rng_aes_ctr"])

p("Additions to a hash are all or nothing when calls are interrupted",
  "A program that catches the exception raised by a signal handler and goes on using a hash object (Hash.sha1, sha2, sha3, keccak, ripemd160, blake2b, blake2s, blake3, md5, or MAC.blake2b, blake2s, blake3, siphash, siphash128, hmac_md5, hmac_sha1, hmac_sha256, hmac_sha384, hmac_sha512, hmac_ripemd160) relies on knowing what was added. However many times, and wherever, calls that add data are interrupted, what result returns is the hash (or MAC) of the data of all the calls that returned and of some of the interrupted ones, in order, each as a whole: never of part of the data of a call. And interruptions bring no memory error. For BLAKE3 this is for less than 2^64 bytes in all, for MD5 for less than 4 GiB in each call. The method result itself gives no such guarantee, except with BLAKE3: interrupted after its call to C code and called again, that of SHA-1 returns a string that is not the hash of the data.",
  "every history of additions with legal arguments, any number of interruptions at any points between two statements",
  "The points of interruption cannot be controlled by a test, and their combinations are unbounded.",
  [ML+":Hash", ML+":hmac", ML+":siphash", "src/cryptokit.mli:hash"])

with open("/verif/properties.jsonl","w") as f:
    for x in P: f.write(json.dumps(x)+"\n")
print(len(P))
