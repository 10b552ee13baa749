## 7. What the proofs found

Each entry is a theorem about the model, with a concrete witness, and is a defect or a
surprise of the code as it stands.

1. `Hash.sha224` and `Hash.ripemd160` announce 24 and 32 bytes but return 28 and 20
   (`C25_sha224_wrong_size`, `C25_ripemd160_wrong_size`, `C25_hmac_ripemd160_wrong_size`). With
   them `auth_check_transform_string` never accepts (`C52_sha224_never_accepted`).
2. `aes#wipe` sets the number of rounds to 16: the next `transform` reads past the key
   schedule (`C63_aes_encrypt_after_wipe_out_of_bounds`).
3. `Block.cbc_encrypt#transform` reads the source before any bounds check
   (`C13_cbc_encrypt_source_unchecked`).
4. `AEAD.chacha20_poly1305 Decrypt`: `put_substring` with a bad range reads out of bounds
   (`C65_chapoly_decrypt_out_of_bounds`). The same for `Zlib` (`C65_zlib_out_of_bounds`).
5. ChaCha20-Poly1305 accepts messages whose last 64 bytes use the keystream block that gives the
   Poly1305 key (`C38_chapoly_leaks_poly1305_key`).
6. ChaCha20 with a 12-byte IV reuses its keystream after 2^38 bytes
   (`C21_chacha20_reuses_keystream`).
7. `Bn.to_bytes ~numbits` raises `Invalid_argument` when the size is not a whole number of digits
   (`C59_to_bytes_unaligned_fails`), hence so do RSA, DH and Paillier operations on such sizes
   (`C54_rsa_unaligned_fails`, `C54_rsa_new_key_sizes`, `C57_dh_unaligned_fails`, `C60_*_fails`).
8. `Paillier.encrypt` refuses 0 (`C55_paillier_zero_fails`); `DH.shared_secret` erases the private
   secret, so that a second use fails (`C57_dh_secret_used_once`); `mod_power` refuses even moduli
   and exponent 0 (`C60_mod_power_even_fails`, `C60_mod_power_zero_fails`).
9. `Base64.encode_multiline` makes lines of 72 characters, not 76, and omits the last newline in
   some cases (`C46_lines`, `C46_newlines`). `flush` of the Base64 classes always raises
   (`C45_flush`).
10. `caml_siphash_init` and `caml_ghash_init` use the key after an allocation without having
    registered it (`C66_siphash_moved`, `C66_ghash_moved`).
11. SHA-3 and BLAKE3 objects dereference a null pointer after `wipe` (`C63_sha3_after_wipe`,
    `C63_blake3_after_wipe`).
12. `Zlib.compress`: two `flush` in a row raise an error (`C64_compress_flush_twice`); a string of
    2^32 + k bytes loses 2^32 bytes (`C64_compress_large_string`). `Zlib.uncompress` accepts some
    truncated streams (`C64_uncompress_garbage`).
13. Padded decryption: `flush` before `finish` makes `finish` raise
    (`C68_padded_decrypt_flush_then_finish_raises`).
14. `wipe` of AES-GCM leaves the hash key, the counter and the last keystream block
    (`C63_gcm_wipe_incomplete`); `wipe` of `pseudo_rng_aes_ctr` leaves the key schedule and the
    counter, so that the generator goes on with the same stream
    (`C63_pseudo_rng_aes_ctr_wipe_ineffective`).
15. `DH.derive_key` uses SHA-256; the documentation says SHA-1 (`C58_derive_key`).
16. `Hash.md5`: a string of 2^32 + k bytes counts for its first k bytes, because the stub passes the
    length as an `unsigned` (`C69_md5_large`, `C69_md5_collision`).
17. A `Zlib` object dropped before `finish` leaks the state allocated by zlib (`C71_zlib_leak`).
18. `compose` announces the `input_block_size` of its first part although its second part may
    refuse messages of such lengths (`C72_compose_refuses`); padded decryption refuses the empty
    message, whose length is a multiple of its `input_block_size` (`C72_padded_decrypt_empty`).
19. HMAC objects read the key string again in `result`: erasing it before (with `wipe_string`)
    gives wrong tags, whose outer hash is unkeyed (`C74_hmac_erased`, `C74_hmac_sha1_wrong`).
20. When an output buffer grows, the old one is dropped without being erased, so that `wipe` leaves
    output data (decrypted text, for instance) in memory (`C81_replaced_not_erased`).
21. `put_substring` of a stream cipher with a length above `max_int / 2` does not raise an exception
    but loops forever: in `ensure_capacity` the doubled size wraps around to 0 (`C82_stream_hangs`).
    `put_substring` of the Base64 and hexadecimal transforms ignores an illegal range when
    `ofs + len - 1` wraps around (`C82_codec_ignores`), and processes the whole string when the
    length is `min_int` (`C82_codec_min_int`).
22. The modulus of the keys that `RSA.new_key numbits` and `Paillier.new_key numbits` return may have
    `numbits - 1` bits: the product of two numbers of `numbits / 2` bits is not adjusted
    (`C83_rsa_short_modulus`, `C83_paillier_short_modulus`).
23. The component `g` of DH parameters is documented as a generator of `Z/pZ` but is any random number
    of `numbits - 1` bits (`C83_dh_not_generator`).
24. `RSA.new_key ~e` never returns if `e` is even, 0 included (`C84_even_exponent_diverges`), and
    returns keys that do not match if `e` is negative (`C84_negative_exponent`).
25. `DH.derive_key` concatenates the diversification string and the secret without separation: a part
    can be moved from one to the other (`C85_ambiguous_concatenation`).
26. `put_substring` of block ciphers processes the blocks that precede the end of the string before it
    raises `Invalid_argument` for an illegal range: their image is output and the chaining value has
    changed (`C86_block_put_substring`).
27. When the output is retrieved byte by byte (`get_char`, `get_byte`) from a full buffer while more is
    produced, `ensure_capacity` moves the whole buffer every second byte: the time is quadratic
    (`C88_char_quadratic`).
28. ChaCha20 and ChaCha20-Poly1305 accept IVs of 8 and 12 bytes; the 8-byte IV `v` and the 12-byte IV
    made of four null bytes and `v` give the same keystream, ciphertext and tag
    (`C89_chacha20_mixed`, `C89_chapoly_mixed`).
29. AES-GCM accepts the empty IV, which SP 800-38D forbids: the tag of the empty message is then the
    hash subkey, with which tags can be forged (`C89_gcm_empty_iv`).
30. Padded decryption: when `finish` raises `Bad_padding` the last block has been decrypted in place;
    a second `finish` decrypts it again, and may succeed (`C86_padded_decrypt_finish`).
31. `Base64.decode`: a `finish` that raises `Bad_encoding` leaves the decoder marked as finished
    (`C86_base64_decode_finish`).
32. `Base64.encode`: after `Output_buffer_overflow` the encoder is unusable: every further character
    raises `Invalid_argument`, even if the output is retrieved (`C86_base64_encode_overflow`).
33. `Zlib`: `avail_out` has 32 bits. When 4 GiB of output are waiting, the buffer is enlarged to 8 GiB, zlib
    is told that there are less than 256 bytes of room, and `used_out` comes out 4 GiB too large: 4 GiB
    of uninitialized memory are inserted in the output (`C64_compress_large_output`, `C97_zlib_leaks`).
34. `DH.shared_secret` accepts any message: 0, 1 and -1 modulo p force the shared secret to 0, 1, or
    one of 1 and -1, whatever the private secret (C94).
35. After `Message_too_long`, `finish_and_get_tag` is not safe: that of AES-GCM, called twice, reveals
    the block that masks the tag; both authenticated ciphers may return a tag (C95).
36. AES-GCM decryption: `finish_and_get_tag` hashes the last block before it asks for room for its
    plaintext. After `Output_buffer_overflow`, retrieving the output and calling it again hashes the
    block twice and gives a wrong tag (`C86_gcm_decrypt_finish`).
37. `add_substring` of the MACs built on block ciphers absorbs the whole blocks of the string before it
    raises `Invalid_argument` for an illegal range (`C86_mac_add_substring`). In CMAC, a call that can
    add nothing changes the tag: after a whole block, `add_substring "" 0 1` raises
    `Invalid_argument`, and the tag is then that of another message (`C86_cmac_add_substring`).
38. `compose`: if the second transform refuses what the first produces, the first has consumed the
    input and its output is lost (`C86_compose_put_char`).
39. `Random.system_rng` on Windows: the length is converted to 32 bits. A request of 2^32 bytes or more
    returns normally with only `len mod 2^32` bytes filled; `Random.string` then returns
    uninitialised memory (`C98_win32_truncated`, `C98_win32_string`).
40. stubs-zlib.c does not initialise the field `msg` of the stream: if zlib reports a version mismatch,
    the error is built from a wild pointer (`C99_version_mismatch`). Compression levels are
    truncated to 32 bits (`C99_level_truncated`).
41. ARCfour and Blowfish accept a key and the same key written twice as two names of the same key
    (`C100_key_twice`); HMAC accepts a key and the same key followed by zero bytes (`C100_hmac_block`).
    This is how these algorithms are defined; the documentation does not mention it.
42. `put_string` of `Zlib.uncompress` with garbage after the compressed data raises `Compression_error`
    after the data has been uncompressed: the output is available, and the transform can no more be
    used (`C86_zlib_garbage`).
43. The tags of `MAC.aes`, `MAC.des` and `MAC.triple_des` can be forged if the length of messages is not
    fixed, and padding does not help (`C101_forgery`). The documentation warns of this for `MAC.aes`, and says
    that the other two are made in the same way.
44. The blinding number of `Paillier.encrypt` is not uniform among the invertible numbers below `n`: it always
    has exactly `size - 1` bits (`C103_blinding_range`), which for a modulus of `size` bits leaves at most half
    of the candidates, and for a modulus close to `2^(size-2)` only a small interval. The ciphertext blinded by
    1 is never returned (`C103_blinding_fails`).
45. Random primes are not uniform: `random_prime` takes the prime that follows a random odd number, so that a
    prime is as likely as the gap before it is wide (`C103_prime_gap`, `C103_prime_fails`).
46. The functions on whole strings and channels (`transform_string`, ...) are documented to wipe the object
    before returning; they do, but not when they raise: the key schedule and the pending data then stay in
    memory, and a program that follows the documentation never calls `wipe` (`C104_exception_keeps_key`).
47. `wipe` of `Random.pseudo_rng` and `Random.pseudo_rng_aes_ctr` overwrites the seed string of the caller, an
    immutable value; the interface says that it "erases the internal state of the generator". A generator
    made from the same string afterwards is accepted and delivers the stream of the all-zero seed,
    which everybody can compute (`C106_pseudo_rng_predictable`).
48. `DH.shared_secret` is documented to destroy the private secret, which "can no longer be used afterwards". Secrets
    of at most 62 bits are OCaml integers, not memory blocks, and survive (`C107_short_secret_survives`).
49. `transform_channel` and `hash_channel` erase the buffer through which they have read the data, unless an
    exception is raised while they read: then the last bytes read stay in memory (`C111_hash_channel_keeps`).
50. A `put_string` interrupted by an exception of a signal handler cannot be repeated: the key stream may
    have advanced (`C115_not_atomic`). If `ensure_capacity` was at work, the output that was pending
    can be lost: `available_output` is negative (`C115_output_lost`). Nothing in the documentation says
    so. No memory is accessed out of bounds. With an authenticated cipher the tag is then wrong
    (`C115_aead_rejected`). A MAC is wrong too when `add_string` or `result` was interrupted and is called
    again: data added before the interrupted call may count twice (`C115_mac_wrong`,
    `C115_mac_result_wrong`). Hash functions behave better: additions are all or nothing (C118), but
    `result` interrupted and called again returns a wrong hash (`C118_result_again`). When `finish` of
    `Zlib.compress` is interrupted and called again, it returns, but the end of the compressed data may be
    missing (`C115_zlib_lost`). A `put_char` of `Base64.encode`, `Base64.decode` or `Hexa.decode` interrupted
    before `ipos <- 0` (src/cryptokit.ml:2269, 2363, 2463) makes the object unusable for ever: every later
    `put_char` of data raises `Invalid_argument`, even after `wipe` (`C115_codecs_unusable`); `finish` of
    `Base64.encode` returns, and the data of the incomplete group is lost (`C115_base64_lost`).
    `compose` loses what is on the way from one transform to the other (src/cryptokit.ml:212-214) when it is
    interrupted there, data given by earlier calls included (`C115_compose_lost`). When `put_string` of
    `transform_and_hash` is interrupted between its two statements (src/cryptokit.ml:416-417), and the program
    goes on, the output contains data that the tag does not authenticate (`C115_not_authenticated`).
51. `increment_counter` (src/cryptokit.ml:735-740) is a loop, at each turn of which a signal handler may run.
    An exception raised there loses the carry: the counter goes back by 256 blocks, and a program that
    goes on uses key stream blocks again (`C116_reuse`). The counter is also incremented before
    `max_transf` is decremented (758-761), so that interrupted calls do not count towards the limit and the
    counter can wrap around without `Message_too_long` (`C116_limit`). GCM (line 1611) and the
    AES-CTR generator (line 1935) call the same function. In GCM the counter can go back to the block that
    masks the tag: the program then gives away this mask, and uses the key stream of its first blocks
    again (`C116_gcm_reuse`). The generator gives its first bytes again, whatever the seed
    (`C117_repeats`).

## 8. Seeded bugs

`seeded/LOG.jsonl` has one line per wrong program: the definition edited, the edit, the claim it
breaks, the theorems that failed and those that were tightened. `tools/seed.py` applies a batch of
edits, one at a time, to a copy of the project and rebuilds it.
`tools/automut.py` draws one random edit for each definition of the model (a literal, a comparison, a
sign, a dropped statement, swapped arguments) and does the same; its lines have `"automatic": true`.
