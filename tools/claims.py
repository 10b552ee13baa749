claim("C01", "proved", "C01_output_buffer_is_fifo C01_conservation")
claim("C02", "proved", "C02_output_is_blockwise C02_cut_irrelevant")
claim("C03", "proved", "C03_finish_wrong_data_length_iff C03_flush_wrong_data_length_iff")
claim("C04", "proved", "C04_length_pad C04_length_strip_pad C04_length_strip_exact C04_8000_pad C04_8000_strip_pad C04_8000_strip_exact")
claim("C05", "proved", "C05_padded_encrypt C05_round_trip")
claim("C06", "proved", "C06_padded_decrypt")
claim("C68", "partial", "C68_flush_neutral C68_flush_neutral_padded_encrypt C68_flush_neutral_padded_decrypt_partial C68_padded_decrypt_flush_then_finish_raises C64_compress_flush_twice",
  "False of the code for padded decryption: flushing after the last complete block makes finish raise Wrong_data_length (C68_padded_decrypt_flush_then_finish_raises).")
claim("C07", "proved", "C07_cbc_encrypt C07_cbc_decrypt C07_cbc_round_trip")
claim("C08", "proved", "C08_cfb_encrypt C08_cfb_decrypt C08_segment_size C08_cfb_round_trip")
claim("C09", "proved", "C09_ofb C09_ofb_round_trip")
claim("C10", "proved", "C10_ctr C10_ctr_round_trip C10_inc_size")
claim("C11", "proved", "C11_no_counter_reuse")
claim("C12", "proved", "C12_in_place C12_states")
claim("C13", "partial", "C13_ciphers C13_cbc_decrypt C13_cfb_encrypt C13_cfb_decrypt C13_ofb C13_ctr C13_cbc_encrypt_partial C13_cbc_encrypt_source_unchecked",
  "False of the code for Block.cbc_encrypt: it xors the source through an unchecked C stub before any bounds check (C13_cbc_encrypt_source_unchecked). Proved for every other cipher and mode.")
claim("C39", "proved", "C39_equality C39_access_pattern")
claim("C40", "proved", "C40_out_of_bounds C40_xor C40_involutive")
claim("C18", "proved", "C18_stream_transform C18_stream_round_trip C18_direct_calls")
claim("C19", "proved", "C19_arcfour_is_rc4 C19_arcfour_calls")
claim("C20", "proved", "C20_chacha20 C20_chacha20_calls")
claim("C21", "partial", "C21_chacha20_blocks_distinct_partial C21_chacha20_reuses_keystream",
  "False of the code: with a 12-byte IV the 32-bit block counter wraps silently and the keystream repeats after 2^38 bytes (C21_chacha20_reuses_keystream). Proved: block inputs are distinct within 2^32 (2^64 with an 8-byte IV) blocks.")
claim("C22", "proved", "C22_sha1")
claim("C23", "proved", "C23_sha224 C23_sha256 C23_sha256_hash_string")
claim("C24", "proved", "C24_sha384 C24_sha512")
claim("C26", "proved", "C26_ripemd160")
claim("C27", "proved", "C27_sha3 C27_keccak")
claim("C28", "proved", "C28_blake2b C28_blake2s")
claim("C30", "proved", "C30_siphash C30_siphash128")
claim("C31", "proved", "C31_hmac C31_hmac_sha1 C31_hmac_sha256 C31_hmac_sha384 C31_hmac_sha512 C31_hmac_ripemd160",
  "HMAC over every modelled hash. HMAC-MD5 is in C69: the MD5 code belongs to the OCaml runtime, and the stub around it is modelled.")
claim("C25", "partial", "C25_sha1_partial C25_sha256_partial C25_sha384_partial C25_sha512_partial C25_sha3_partial C25_blake2b_partial C25_blake2s_partial C25_blake3_partial C25_siphash_partial C25_siphash128_partial C25_hmac_partial C25_md5_partial C25_sha224_wrong_size C25_ripemd160_wrong_size C25_hmac_ripemd160_wrong_size",
  "False of the code: hash_size is 24 for SHA-224 (digest of 28 bytes) and 32 for RIPEMD-160 and HMAC-RIPEMD-160 (20 bytes). Proved for all the others.")
claim("C15", "proved", "C15_mac C15_mac_padded C14_mac_iv C15_mac_aes C15_mac_des C15_mac_triple_des",
  "Over any block cipher whose blocks are independent of history; the concrete ciphers are instances (C41, C43, C44).")
claim("C16", "proved", "C16_mac_final_triple C16_mac_final_triple_padded C16_block_sizes C16_des_final_triple_des")
claim("C17", "proved", "C17_cmac C17_aes_cmac C17_mac_aes_cmac", "Over any block cipher with 16-byte blocks, and with AES.")
claim("C32", "proved", "C32_poly1305 C32_poly1305_32", "Both the 64-bit and the 32-bit versions of the code.")
claim("C33", "proved", "C33_ghash C33_agree C33_field",
  "Both implementations; the x86 intrinsics are modelled after Intel's description of the instructions.")
claim("C34", "proved", "C34_gcm_encrypt C34_gcm_decrypt C34_aes_gcm_encrypt C34_aes_gcm_decrypt C34_aead_aes_gcm",
  "Over any block cipher with 16-byte blocks whose blocks are independent of history, and with AES. Both GHASH implementations.")
claim("C35", "proved", "C35_chapoly_encrypt C35_chapoly_decrypt C14_chapoly_args")
claim("C36", "proved", "C36_gcm_roundtrip C36_aes_gcm_roundtrip C36_chapoly_roundtrip")
claim("C37", "proved", "C37_too_short C37_check C37_put_exn C37_finish_exn C37_gcm C37_chapoly")
claim("C38", "partial", "C38_gcm_counters C38_gcm_blocks C38_chapoly_blocks_distinct_partial C38_chapoly_leaks_poly1305_key",
  "Proved for AES-GCM. False of the code for ChaCha20-Poly1305 with 12-byte IVs: messages of 2^38 - 63 to 2^38 bytes are accepted and their end is encrypted with the block that gives the Poly1305 key (C38_chapoly_leaks_poly1305_key).")
claim("C45", "proved", "C45_encode_compact C45_round_trip C45_flush",
  "For put_byte of integers that are bytes; others raise Invalid_argument (C48_put_byte_range).")
claim("C46", "proved", "C46_encode_multiline C46_lines C46_newlines",
  "Lines have 72 characters, not 76; the last newline is missing when the last line has only a partial group (the exact text is Spec.Base64.encodeLines).")
claim("C47", "proved", "C47_accepts C47_rejects")
claim("C48", "proved", "C48_encode C48_encode_shape C48_accepts C48_rejects C48_round_trip C48_put_byte_range")
claim("C41", "proved", "C41_aes_encrypt C41_aes_decrypt C41_aes_inverse C41_aes_round_trip C41_spec_inv C14_aes_key_size")
claim("C42", "proved", "C42_aesni_encrypt C42_aesni_decrypt C42_aesni_fips197",
  "The intrinsics are modelled after Intel's description of the instructions.")
claim("C43", "proved", "C43_des C43_triple_des C43_inverse C43_parity C14_des_key_size")
claim("C44", "proved", "C44_blowfish C44_inverse C14_blowfish_key_size")
claim("C67", "proved", "C67_aes C67_des C67_triple_des C67_blowfish C67_arcfour C67_chacha20",
  "Every mode, padding, IV and direction. In counter mode, for messages within the limit of C11.")
claim("C49", "proved", "C49_compose C49_errors C49_hex_identity",
  "For any two transforms that each compute a function of the data put before each flush and before the end. A transform that hands out the internal buffer of the other one (compose t t) is not modelled.")
claim("C50", "proved", "C50_transform_channel C50_end_of_file",
  "The sizes of the reads are an arbitrary function; with ~len larger than the channel, End_of_file is raised after the bytes of the channel have been processed.")
claim("C51", "proved", "C51_hash_channel C51_end_of_file", "")
claim("C52", "proved", "C52_then_hash C52_then_hash_errors C52_and_hash C52_check C52_check_wrong_size C52_sha224_never_accepted",
  "Tags are right for every chunking. With Hash.sha224 or Hash.ripemd160 the announced tag_size is wrong (see C25), so auth_check_transform_string never accepts: C52_check_wrong_size, C52_sha224_never_accepted.")
claim("C29", "proved", "C29_blake3 C29_blake3_incremental C14_blake3_args",
  "For data of less than 2^64 bytes, the domain of BLAKE3; any MAX_SIMD_DEGREE, the portable compression code (the only one compiled). Results longer than an OCaml string (Out_of_memory) are not modelled.")
claim("C14", "proved", "C14_arcfour_key_size C14_blake2b_args C14_blake2s_args C14_blake3_args C14_chacha20_args C14_chapoly_args C14_sha2 C14_sha3_size C14_siphash_key_size C14_mac_iv C14_aes_key_size C14_des_key_size C14_blowfish_key_size C14_cipher_aes C14_cipher_des C14_cipher_triple_des C14_cipher_blowfish C15_mac_aes C15_mac_des C15_mac_triple_des C16_des_final_triple_des C17_mac_aes_cmac C34_aead_aes_gcm C08_segment_size C10_inc_size")
claim("C53", "proved", "C53_rsa_decrypt_encrypt C53_rsa_unwrap_sign C53_rsa_new_key",
  "Assumes that Z.nextprime returns primes (its documentation promises a very high probability). The exponent, if given, is positive.")
claim("C54", "partial", "C54_rsa_encrypt_too_long C54_rsa_decrypt_too_long C54_rsa_decrypt_CRT_too_long C54_rsa_encrypt_partial C53_rsa_decrypt_encrypt C54_rsa_unaligned_fails C54_rsa_new_key_sizes",
  "Message_too_long is raised exactly as stated, for every key. The result has ceil(size/8) bytes for keys whose size is a number of machine words; for others the code raises Invalid_argument (C54_rsa_unaligned_fails), and new_key itself fails for most sizes that are not multiples of 128 bits (C54_rsa_new_key_sizes).")
claim("C55", "partial", "C55_paillier_partial C55_paillier_encrypt_ok C55_paillier_zero_fails",
  "All messages except 0, for which encrypt raises Invalid_argument (C55_paillier_zero_fails).")
claim("C56", "partial", "C56_paillier_add_partial C56_paillier_add_homomorphism C55_paillier_zero_fails",
  "All messages except 0, which cannot be encrypted.")
claim("C57", "partial", "C57_dh_agreement C57_dh_agreement_partial C57_dh_unaligned_fails C57_dh_secret_used_once",
  "Complete for the parameters returned by new_parameters; for parameters supplied by the user, the length of p must be a number of machine words, otherwise the code may raise Invalid_argument (C57_dh_unaligned_fails).")
claim("C58", "proved", "C58_derive_key C58_derive_key_length C58_derive_key_prefix C58_derive_key_refuses",
  "H is SHA-256 (the documentation says SHA-1).")
claim("C59", "partial", "C59_of_bytes C59_to_bytes C59_to_bytes_size C59_to_bytes_size_partial C59_to_bytes_exact C59_to_bytes_unaligned_fails",
  "to_bytes with a size fails on numbers that fit when the size in bytes is not a number of machine words (C59_to_bytes_unaligned_fails); C59_to_bytes_exact says exactly when it succeeds.")
claim("C60", "partial", "C60_mod_power_partial C60_mod_mult_partial C60_mod_power_sound C60_mod_mult_sound C60_mod_power_unaligned_fails C60_mod_mult_unaligned_fails C60_mod_power_zero_fails C60_mod_power_even_fails",
  "Results are right whenever there is one; there is none for short moduli, even moduli and exponent 0.")
claim("C61", "proved", "C61_pseudo_rng C61_pseudo_rng_seed C61_pseudo_rng_range C61_pseudo_rng_aes_ctr C61_pseudo_rng_aes_ctr_seed C61_pseudo_rng_aes_ctr_nothing C61_pseudo_rng_aes_ctr_range C61_random_string",
  "The position in the ChaCha20 keystream is unbounded (the 64-bit block counter wraps as in the specification).")
claim("C62", "proved", "C62_system_rng C62_system_rng_range C62_device_rng C62_device_rng_range C62_device_rng_wiped C62_hardware_rng C62_hardware_rng_range C62_hardware_available C62_secure_rng",
  "A failing read of device_rng raises Unix_error instead of Entropy_source_closed. The Windows generator is the subject of C98.")
claim("C64", "partial", "C64_compress_partial C64_compress_init C64_compress_large_string C64_compress_flush_twice C64_uncompress_partial C64_uncompress_garbage C64_round_trip_partial C64_compress_large_output C64_compress_large_output_reached C64_compress_streaming_partial C64_uncompress_streaming_partial C64_round_trip_streaming_partial",
  "Every engine that keeps to the documented behaviour of zlib, whatever it uses and produces at each call. For calls that put less than 4 GiB, and less than 2 GiB of output waiting: either in total, or, for streams of any length, between two calls that take the output (the _streaming theorems). A longer string loses 4 GiB of data (C64_compress_large_string): avail_in has 32 bits. So has avail_out: once 4 GiB of output are waiting, 4 GiB of garbage are inserted in the output (C64_compress_large_output, C64_compress_large_output_reached). A truncated stream is accepted if a space completes it.")
claim("C63", "partial", "C63_key_schedules_partial C63_poly1305_finish C63_modes C63_block_transform C63_block_transform_forgets C63_stream_keys C63_stream_transform C63_chapoly C63_macs C63_sha1_ripemd160 C63_sha2 C63_blake2 C63_siphash C63_released_partial C63_codecs C63_combinations C63_pseudo_rng C65_cipher_des C65_cipher_triple_des C65_cipher_blowfish C65_cipher_arcfour C65_cipher_chacha20 C65_mac_des C65_mac_triple_des C65_mac_des_final_triple_des C65_chapoly_encrypt C65_codecs C65_sha1 C65_ripemd160 C65_sha2 C65_blake2b C65_blake2s C65_siphash C63_des_after_wipe C63_blowfish_after_wipe C63_gcm_wipe_incomplete C63_aes_wipe_zero C63_aes_encrypt_after_wipe_out_of_bounds C63_blake3_after_wipe C63_sha3_after_wipe C63_pseudo_rng_aes_ctr_wipe_ineffective",
  "Erasure holds of every class but AES-GCM (C63_gcm_wipe_incomplete) and pseudo_rng_aes_ctr (C63_pseudo_rng_aes_ctr_wipe_ineffective). Use after wipe stays in bounds (the theorems C65_* whose set of calls is anyCall) except with AES, whose wipe sets 16 rounds (C63_aes_encrypt_after_wipe_out_of_bounds), SHA-3 and BLAKE3, whose context is freed. Buffers replaced by larger ones are never erased (C81).")
claim("C65", "partial", "C65_cipher_des C65_cipher_triple_des C65_cipher_blowfish C65_cipher_aes_partial C65_cipher_arcfour C65_cipher_chacha20 C65_paddings C65_mac_des C65_mac_triple_des C65_mac_des_final_triple_des C65_mac_aes_partial C65_mac_aes_cmac_partial C65_aes_gcm_partial C65_chapoly_encrypt C65_chapoly_decrypt_partial C65_codecs C65_sha1 C65_ripemd160 C65_sha2 C65_sha3_partial C65_blake2b C65_blake2s C65_blake3_partial C65_siphash C65_hmac_sha1 C65_hmac_ripemd160 C65_hmac_sha256 C65_hmac_sha384 C65_hmac_sha512 C65_compose C65_transform_and_hash C65_transform_then_hash C65_stream_bounds C61_pseudo_rng_range C61_pseudo_rng_aes_ctr_range C62_system_rng_range C62_device_rng_range C62_hardware_rng_range C65_zlib_partial C65_chapoly_decrypt_out_of_bounds C65_zlib_out_of_bounds",
  "Every class, every reachable state and all arguments, except: put_substring of AEAD.chacha20_poly1305 Decrypt and of Zlib does not check its arguments and reads out of bounds (C65_chapoly_decrypt_out_of_bounds, C65_zlib_out_of_bounds); AES, SHA-3 and BLAKE3 objects must not be used after wipe (C63). For offsets and lengths close to max_int see C82.")
claim("C66", "partial", "C66_aes C66_des_blowfish_arcfour C66_chacha20 C66_keyed_hashes C66_results C66_md5 C66_keyless C66_siphash_partial C66_ghash_partial C66_siphash_moved C66_ghash_moved C66_siphash_unrooted C66_ghash_unrooted",
      "Proved, for every behaviour of a moving collector, for every stub that creates a context from a key or reads a result, except two. caml_siphash_init and caml_ghash_init (software path) do not register the key: the property is false of them, with witnesses, and holds when the collector does not move the key.")

claim("C69", "partial", "C69_md5_exact C69_md5_partial C69_md5_large C69_md5_collision C69_hmac_md5_partial C65_md5",
  "The MD5 of the OCaml runtime is a parameter of the model, assumed to be right. The stub passes the length as an unsigned int: additions of 4 GiB or more are truncated, and the property is false of them (C69_md5_large, C69_md5_collision). C69_md5_exact says what is computed in every case.")
claim("C70", "proved", "C70_dispatch C70_aes C70_ghash",
  "Transition system with any number of threads; reads and writes of the variable are atomic.")
claim("C71", "partial", "C71_no_undefined C71_no_leak C71_all_freed C71_wipe_erases C71_zlib_no_undefined C71_zlib_no_leak_partial C71_zlib_leak",
  "Complete for SHA-3, BLAKE3 and GHASH. For Zlib there is no use after free, but the state allocated by zlib leaks if the object is dropped before finish (C71_zlib_leak).")
claim("C72", "partial", "C72_cipher C72_padded_encrypt C72_padded_decrypt_partial C72_padded_decrypt_empty C72_stream C72_base64_encode C72_base64_decode C72_hex_encode C72_hex_decode C72_compose_partial C72_compose_refuses C72_transform_then_hash C72_transform_and_hash",
  "Block ciphers with and without padding, stream ciphers, Base64 and hexadecimal. False of compose, which announces the input size of its first part although the second may refuse what the first gives (C72_compose_refuses); C72_compose_partial says when it holds. transform_then_hash and transform_and_hash inherit the contract of their transform. False of padded decryption for the empty message (C72_padded_decrypt_empty). The AEAD and Zlib transforms announce 1 and 1: covered by C34, C35, C64.")
claim("C73", "proved", "C73_sha1 C73_sha224 C73_sha256 C73_sha384 C73_sha512 C73_ripemd160 C73_chacha20 C73_blowfish",
  "All the code that tests ARCH_BIG_ENDIAN.")
claim("C74", "partial", "C74_hmac_partial C74_hmac_erased C74_hmac_erased_unkeyed C74_hmac_sha1_wrong C66_results",
  "False of HMAC, which reads the key string again in result: C74_hmac_erased says what it computes then, C74_hmac_sha1_wrong is a witness. In the model the state of the other classes is built from the contents of the key and holds no reference to it, as in the code; C66 treats the stubs that copy it.")
claim("C75", "proved", "C75_chapoly C75_poly1305_uniform C75_gcm C75_aes_gcm C75_ghash_field",
  "Counting statements: 2^130 - 5 is proved prime and GF(2^128) a field. That ChaCha20 and AES make the one-time key and the subkey look random is an assumption of cryptography outside of the model.")
claim("C76", "proved", "C76_channel C76_block C76_padded_encrypt C76_padded_decrypt C76_stream C76_gcm_encrypt C76_gcm_decrypt C76_chapoly_encrypt C76_chapoly_decrypt C76_hex_encode C76_hex_decode C76_base64_compact C76_base64_multiline C76_base64_decode",
  "Streams and Paced are defined in Spec/Streaming.lean. Zlib is not covered; compositions are covered by C51 for totals that fit in a string only.")
claim("C77", "proved", "C77_rsa_encrypt C77_rsa_decrypt C77_rsa_decrypt_CRT C77_rsa_new_key C77_rsa_wipe_key C77_paillier_decrypt C77_paillier_new_key C77_paillier_wipe_key C77_dh_message C77_dh_shared_secret",
  "Sharing is limited to what Zarith may do: the functions that go through GMP integers (powm_sec, of_bits) always return a new number, the others may return any argument equal to the result. Of new_key, the part that computes the keys from the random factors is in this model.")
claim("C78", "proved", "C78_private_secret C78_random C78_random_range C78_bytesOf",
  "Counts of random strings. The numbers retained by the search for primes and the tests of primality relative to other numbers are not uniform over all numbers, and nothing is claimed for them.")
claim("C79", "proved", "C79_sha1 C79_sha256 C79_sha512 C79_ripemd160 C79_md5",
  "The collision of the compression function is exhibited in the computation of the two digests (that one exists somewhere is trivial). SHA-224 and SHA-384, whose results are truncated, have no such property. MD5: when no single call adds 4 GiB or more (C69). The example applies the theorem to the MD5 collision of Wang et al.")
claim("C80", "proved", "C80_fifo C80_substring_stable C80_replaced_stable",
  "At the level of the class buffered_output, which all the transforms inherit: productions of output are arbitrary.")
claim("C81", "partial", "C81_wipe C81_erased_partial C81_replaced_not_erased",
  "False of the code: ensure_capacity drops the old buffer without erasing it (C81_replaced_not_erased). True as long as the output available never reaches the initial size of the buffer, 256 bytes (C81_erased_partial).")
claim("C82", "partial", "C82_ensure_capacity C82_loop_model C82_arcfour_partial C82_chacha20_partial C82_block C82_block_aes C82_padded C82_padded_aes C82_mac C82_mac_aes C82_mac_final_triple C82_cmac C82_gcm C82_chapoly_encrypt_partial C82_chapoly_decrypt_partial C82_codec_partial C82_stream_hangs C82_codec_ignores C82_codec_min_int C82_zlib_partial",
  "Wrap-around has no effect on any history of legal calls, nor on calls whose arguments are at most max_int / 4 in absolute value; block ciphers (padded or not), MACs and AES-GCM behave with all arguments. False of stream ciphers, which loop forever on lengths above max_int / 2 (C82_stream_hangs), and of the encoders and decoders, which ignore some illegal ranges (C82_codec_ignores) and process the string when the length is min_int (C82_codec_min_int). Zlib gives the arguments of put_substring to C code unchecked (C65_zlib_out_of_bounds), so that C82_zlib_partial covers legal ranges only.")
claim("C83", "partial", "C83_rsa_partial C83_paillier_partial C83_dh_partial C83_dh_secret C83_rsa_short_modulus C83_paillier_short_modulus C83_dh_not_generator",
  "False of the code for the moduli of RSA and Paillier, which can have one bit less than requested (C83_rsa_short_modulus, C83_paillier_short_modulus), and for the base of DH parameters, any random number, which need not be a generator (C83_dh_not_generator). All the rest is proved.")
claim("C84", "partial", "C84_exponent_partial C84_even_exponent C84_even_exponent_diverges C84_negative_exponent",
  "True of positive odd exponents. False of even ones, on which new_key never returns (C84_even_exponent, C84_even_exponent_diverges), and of negative ones, which give keys that do not match: decrypting an encrypted message gives its inverse modulo n (C84_negative_exponent).")
claim("C85", "partial", "C85_derive_key_partial C85_same_secret C85_same_diversification C85_ambiguous_concatenation C85_blocks_differ",
  "Proved when only the diversification or only the secret differs. If both differ the claim is false: the two strings are simply concatenated, and a part can move from one to the other (C85_ambiguous_concatenation).")
claim("C86", "partial", "C86_arcfour C86_chacha20 C86_block_partial C86_block_put_substring C86_padded_partial C86_padded_decrypt_finish C86_hex_encode_partial C86_hex_decode_partial C86_base64_encode_partial C86_base64_decode_partial C86_base64_decode_finish C86_hex_decode_put_string C86_base64_encode_overflow C86_gcm_encrypt_partial C86_gcm_decrypt_partial C86_gcm_decrypt_finish C86_chapoly_encrypt_partial C86_chapoly_decrypt C86_mac_partial C86_cmac_partial C86_mac_final_triple_partial C86_mac_add_substring C86_cmac_add_substring C86_compose_put_char C86_zlib_garbage C86_zlib_partial",
  "True of all calls of the stream ciphers, and of the calls other than put_substring and put_string of the unpadded block ciphers (for modes that do not raise by themselves), of the padded ones except finish, and of Hexa and Base64, except for Output_buffer_overflow and finish of Base64 decoding. False of put_substring of block ciphers (C86_block_put_substring), of finish of padded decryption (C86_padded_decrypt_finish), of finish of Base64 decoding (C86_base64_decode_finish), of put_string of decoders (C86_hex_decode_put_string), of Output_buffer_overflow in Base64 encoding (C86_base64_encode_overflow). True of all calls of ChaCha20-Poly1305 decryption and, except for Message_too_long (see C95), of all calls of ChaCha20-Poly1305 encryption, and of the calls of AES-GCM other than put_substring and put_string, except finish_and_get_tag of decryption, of which it is false (C86_gcm_decrypt_finish). For hashes, see C65 (RangeRejected). True of the calls of MACs other than add_substring, of which it is false (C86_mac_add_substring, C86_cmac_add_substring). False of compositions, even of transforms of which it is true (C86_compose_put_char). False of put_string of Zlib.uncompress (C86_zlib_garbage); true of the calls of Zlib that do not reach the C library (C86_zlib_partial).")
claim("C87", "proved", "C87_memory",
  "At the level of the class buffered_output, which all the transforms inherit: productions of output are arbitrary.")
claim("C88", "partial", "C88_copying_partial C88_linear_partial C88_char_quadratic C88_char_not_linear",
  "True if the output is retrieved by get_string and get_substring. False with get_char and get_byte: when the buffer is full, retrieving two bytes and producing two moves the whole buffer, so that the work can be quadratic (C88_char_quadratic, C88_char_not_linear).")
claim("C89", "partial", "C89_gcm C89_gcm_any_iv C89_gcm_empty_iv C89_chacha20_partial C89_chacha20_states C89_ctr_depends C89_chacha20_mixed C89_chapoly_mixed C89_ctr",
  "True of counter mode, of AES-GCM with 12-byte IVs, of ChaCha20 with IVs of the same length. With AES-GCM IVs of other lengths counters collide for at most 2^32 n hash subkeys out of 2^128 (C89_gcm_any_iv). False of ChaCha20 and ChaCha20-Poly1305 when IVs of 8 and 12 bytes are mixed: v and 0000v give the same keystream (C89_chacha20_mixed, C89_chapoly_mixed). The empty IV of AES-GCM is accepted although the standard forbids it, and then the tag of the empty message is the hash subkey (C89_gcm_empty_iv).")
claim("C90", "proved", "C90_parity C90_two_keys C90_triple_is_single",
  "C90_parity and C90_two_keys are equalities of the results of the constructors, hence of all later behaviour.")
claim("C91", "proved", "C91_aes C91_des C91_triple_des C91_blowfish",
  "")
claim("C92","proved","C92_blake3 C92_blake3_256 C92_blake2b C92_blake2b_512 C92_blake2s C92_blake2s_256 C92_hmac",
  "Reductions for the digests of the models of the objects. The lists of applications of the compression function are defined in Spec/CallCollision.lean next to the definitions of the standards. HMAC: for any hash object that computes a function (instances: C31); different keys are not separated by HMAC (keys are padded with zeros).")
claim("C93","proved","C93_pseudo_rng_seeds C93_pseudo_rng_aes_ctr_seeds C93_pseudo_rng_aes_ctr_no_repeat C93_pseudo_rng_aes_ctr_period C93_pseudo_rng_period C93_pseudo_rng_blocks",
  "An example shows that a seed of 16 characters is not equivalent to the same seed followed by a zero.")
claim("C94","partial","C94_shared_secret_partial C94_same_secret_iff C94_forced_secret",
  "False of the code: messages that are 0, 1 or -1 modulo p are accepted and force the secret (C94_forced_secret). In general two private secrets give the same shared secret if and only if they are equal modulo the order of the message (C94_same_secret_iff); for safe primes and other messages the property holds (C94_shared_secret_partial).")
claim("C95", "partial", "C95_gcm_reveals_mask C95_gcm_tag_after_error C95_gcm_output_partial C95_chapoly_tag_after_error C95_chapoly_output_partial",
  "False of the code: finish_and_get_tag of AES-GCM appends the ciphertext of the last bytes before it raises Message_too_long and, called again, appends them encrypted with the block that masks the tag (C95_gcm_reveals_mask); after a put method has raised the exception, finish_and_get_tag of both ciphers may return a tag (C95_gcm_tag_after_error, C95_chapoly_tag_after_error). Proved: the other methods never release more than the maximal length, whatever the calls and the exceptions caught, within 2^63 bytes given.")
claim("C96", "proved", "C96_rsa_new_key C96_rsa_new_key_fixed C96_paillier_new_key C96_paillier_encrypt C96_dh_new_parameters C96_dh_private_secret",
  "Partial correctness: about the calls that return (those that wait for suitable numbers may never do). The prime that follows a number is that given by Z.nextprime, an assumed function of the library Zarith. Paillier.encrypt: for messages other than zero and odd moduli, as mod_power requires (see C55).")
claim("C97", "partial", "C97_aes C97_des C97_triple_des C97_blowfish C97_arcfour C97_chacha20 C97_aes_gcm C97_chacha20_poly1305 C97_hex_encode C97_hex_decode C97_base64_encode C97_base64_decode C97_mac_aes C97_mac_des C97_mac_triple_des C97_aes_cmac C97_des_final_triple_des C97_sha1 C97_ripemd160 C97_sha2 C97_sha3 C97_blake2b C97_blake2s C97_siphash C97_hmac_sha1 C97_hmac_ripemd160 C97_hmac_sha256 C97_hmac_sha384 C97_hmac_sha512 C97_blake3 C97_zlib_compress_partial C97_zlib_uncompress_partial C97_zlib_leaks",
  "Padding schemes: those of the library. BLAKE3: histories of less than 2^64 bytes. get_substring: the bytes within the range that it returns (the buffer itself, which the caller could inspect elsewhere, does contain uninitialised memory). MD5 has no such memory in the model. False of Zlib: 4 GiB of uninitialised memory appear in the output when the output waiting reaches 4 GiB (C97_zlib_leaks); it holds as long as at most 1 GiB of output is waiting after each call.")
claim("C98", "partial", "C98_win32_partial C98_win32_range C98_win32_wipe C98_win32_truncated C98_win32_string C98_choice C62_system_rng C62_system_rng_range",
  "True with getentropy (C62_system_rng) and, on Windows, of requests of less than 2^32 bytes. False of longer ones on Windows: the length is truncated to 32 bits, and Random.string (Random.system_rng ()) 4294967296 returns uninitialised memory, without one random byte (C98_win32_string).")
claim("C99", "partial", "C99_compression_error C99_not_supported C99_init_partial C99_version_mismatch C99_flush C99_des_direction C99_level_partial C99_level_truncated",
  "False in two cases: if the version of zlib does not match, the message is read from a field that has not been initialised (C99_version_mismatch); levels are truncated to 32 bits, so that invalid ones can be accepted (C99_level_truncated).")
claim("C100", "proved", "C100_arcfour C100_blowfish C100_key_twice C100_hmac C100_hmac_block C100_hmac_sha256_zero C100_chacha20 C100_siphash C100_blake2 C100_blake3 C100_aes",
  "`Different objects` is about the state of new objects. That different keys give different results cannot be proved without assumptions on the ciphers. ARCfour and Blowfish: the converse (keys that do not agree give different objects) is not claimed; for ARCfour it is false for want of enough permutations.")
claim("C101", "proved", "C101_forgery C101_fixed_length C101_one_block C101_cmac C101_cmac_one_block C101_cmac_subkeys C101_cmac_extension",
  "Padding: none, Padding.length or Padding._8000. That chaining values do not collide, or that the subkeys are unknown, cannot be proved without assumptions on the cipher.")
claim("C102", "proved", "C102_rsa_permutation C102_rsa_product C102_rsa_forgery C102_paillier_unique C102_paillier_every_ciphertext",
  "Z.nextprime is assumed to return primes. C102_paillier_every_ciphertext is about the part of encrypt that follows the choice of the blinding number, since only some of them are chosen (see C103).")
claim("C103", "partial", "C103_rsa_exponent C103_blinding_partial C103_blinding_range C103_blinding_fails C103_prime_gap C103_prime_fails",
  "True of the exponent of RSA. False of the blinding numbers of Paillier: only those of exactly size-1 bits are used, uniformly (C103_blinding_partial); for example 1 never is (C103_blinding_fails). False of primes: they are found by searching upwards from a random odd number, so that a prime is as likely as the gap before it is wide (C103_prime_gap, for the first draw).")
claim("C104", "proved", "C104_transform_string C104_transform_channel C104_hash_string C104_hash_channel C104_auth_transform_string_detached C104_auth_transform_string C104_auth_check_transform_string C104_block_cipher C104_stream_cipher C104_chapoly C104_macs C104_exception_keeps_key C37_too_short",
  "The first seven theorems say that the last action on the object is its method wipe, for every object; the next four combine them with C63 for block and stream ciphers, chacha20_poly1305 and MACs. What wipe leaves behind for other objects is the subject of C63. C104_exception_keeps_key: on a string shorter than a block, transform_string raises and leaves the key and the data.")

claim("C105", "proved", "C105_tower C105_round_trip C105_single C105_aes C105_des C105_triple_des C105_blowfish",
  "Spec/Tower defines each mode as a machine on top of any machine; a tower of one mode is the mode of Spec/Modes (C105_single).")

claim("C106", "partial", "C106_pseudo_rng_exact C106_pseudo_rng_aes_ctr_exact C106_pseudo_rng_partial C106_pseudo_rng_aes_ctr_partial C106_pseudo_rng_predictable C106_pseudo_rng_aes_ctr_predictable C106_pseudo_rng_fails",
  "False of the code: wipe overwrites the seed string of the caller, and a generator made from it afterwards delivers the stream of the all-zero seed, whatever the seed was (C106_*_predictable, C106_pseudo_rng_fails). True if all generators are created before the first wipe (_partial); the _exact theorems say what happens in every case.")

claim("C107", "partial", "C107_secret_use_exact C107_secret_use_partial C107_short_secret_survives C107_secret_use_fails C107_exception_keeps",
  "True of private secrets of 63 bits or more (the default is 160), in every history. False of shorter ones, which are never destroyed (C107_short_secret_survives, C107_secret_use_fails); C107_secret_use_exact says what happens in every case. A call that raises leaves the secrets as they are (C107_exception_keeps).")

claim("C108", "proved", "C108_aes C108_des C108_triple_des C108_blowfish C108_arcfour C108_chacha20 C108_aes_gcm C108_chacha20_poly1305",
  "With padding, the messages are the padded ones. Spec/Reuse says what each mode reveals.")

claim("C109", "partial", "C109_tally_partial C109_tally_order",
  "All terms except 0, which cannot be encrypted (C55_paillier_zero_fails). The independence of the order holds for all strings.")

claim("C110", "proved", "C110_transform_channel C110_hash_channel",
  "For any transform and hash whose result does not depend on the cut into calls (C49-C52 show how to obtain that). Bytes are written when they are given to the channel; what the channel does with them later is not modelled.")

claim("C111", "partial", "C111_transform_channel_partial C111_hash_channel_partial C111_hash_channel_keeps",
  "True if the function returns. False if reading raises an exception: the last bytes read stay in the buffer (C111_hash_channel_keeps, with End_of_file).")

claim("C112", "proved", "C112_pipeline C112_grouping C112_channel",
  "For data that every transform but the last accepts (C49_errors is about the other case). The transforms of a pipeline are distinct objects.")
claim("C113", "proved", "C113_sha1 C113_sha256 C113_sha512 C113_ripemd160 C113_md5",
  "For MD5, as everywhere, OCaml's runtime is assumed to be right, and no call adds 4 GiB or more (finding of C69).")
claim("C114", "proved", "C114_sha3 C114_permutation",
  "InnerCollision and OutputCollision are defined in Spec/SpongeCollision.lean. No collision is known; the example applies the argument to digests cut to one byte.")
claim("C115", "proved", "C115_aes C115_des C115_triple_des C115_blowfish C115_arcfour C115_chacha20 C115_aes_gcm C115_chapoly_encrypt C115_chapoly_decrypt C115_quiet_cipher C115_quiet_modes C115_quiet_stream C115_quiet_aead C115_mac_des C115_mac_triple_des C115_mac_des_final_triple_des C115_mac_aes C115_mac_aes_cmac C115_quiet_mac C115_not_atomic C115_output_lost C115_aead_rejected C115_mac_wrong C115_mac_result_wrong C115_zlib C115_quiet_zlib C115_zlib_lost C115_codecs C115_quiet_codecs C115_codecs_unusable C115_base64_lost C115_compose C115_quiet_compose C115_compose_lost C115_transform_and_hash C115_transform_then_hash C115_quiet_auth C115_not_authenticated",
  "The model has an interruption point between any two statements of the methods, more than OCaml has. C code and single assignments are atomic; the handler raises and does nothing else. C115_quiet_*: without interruptions the model is that of the other theorems. C115_not_atomic, C115_output_lost, C115_aead_rejected, C115_mac_wrong, C115_mac_result_wrong, C115_zlib_lost, C115_codecs_unusable, C115_base64_lost, C115_compose_lost and C115_not_authenticated show what an interruption can spoil. C115_zlib: zlib is any library that keeps within the input and the room that it is given.")
claim("C116", "partial", "C116_ctr_partial C116_reuse C116_limit C116_gcm_partial C116_gcm_reuse",
  "False as stated: C116_reuse is a run of Cipher.des in counter mode in which an interrupted carry makes two blocks use the same key stream; C116_limit shows that the limit on the number of blocks is not kept. C116_ctr_partial: it holds if no call is interrupted when the last byte of the counter is 0xFF and the calls, completed or not, are no more than the values of the counter. C116_gcm_partial and C116_gcm_reuse are the same for AES-GCM, where no block may use the mask of the tag either.")
claim("C117", "partial", "C117_pseudo_rng C117_aes_ctr_partial C117_repeats C117_quiet",
  "False as stated for pseudo_rng_aes_ctr: C117_repeats constructs, for every seed, a run in which an interrupted carry makes the generator give its first 16 bytes twice. C117_aes_ctr_partial: it holds if no call is interrupted that may increment a counter whose last byte is 0xFF. C117_pseudo_rng: it holds for pseudo_rng without restriction. C117_quiet: without interruptions these are the generators of C61.")
claim("C118", "proved", "C118_all_or_nothing C118_sha1 C118_sha224 C118_sha256 C118_sha384 C118_sha512 C118_ripemd160 C118_sha3 C118_keccak C118_blake2b C118_blake2s C118_siphash C118_siphash128 C118_hmac C118_hmac_sha1 C118_hmac_sha256 C118_hmac_sha384 C118_hmac_sha512 C118_hmac_ripemd160 C118_safe C118_hmac_safe C118_result_again C118_quiet C118_hmac_quiet C118_blake3 C118_blake3_result C118_md5 C118_hmac_md5",
  "C118_all_or_nothing is for any object that computes a function when it is not interrupted, the others are its instances. C118_safe, C118_hmac_safe: interruptions bring no memory error. C118_result_again: what is said of result, for SHA-1. C118_quiet, C118_hmac_quiet: without interruptions these are the objects of C22-C31. BLAKE3: less than 2^64 bytes in all. MD5: less than 4 GiB in each call, as for C69.")
