{
 "claims": [
  {
   "property": "C01",
   "status": "proved",
   "theorems": [
    "Verif.C01_output_buffer_is_fifo",
    "Verif.C01_conservation"
   ],
   "note": ""
  },
  {
   "property": "C02",
   "status": "proved",
   "theorems": [
    "Verif.C02_output_is_blockwise",
    "Verif.C02_cut_irrelevant"
   ],
   "note": ""
  },
  {
   "property": "C03",
   "status": "proved",
   "theorems": [
    "Verif.C03_finish_wrong_data_length_iff",
    "Verif.C03_flush_wrong_data_length_iff"
   ],
   "note": ""
  },
  {
   "property": "C04",
   "status": "proved",
   "theorems": [
    "Verif.C04_length_pad",
    "Verif.C04_length_strip_pad",
    "Verif.C04_length_strip_exact",
    "Verif.C04_8000_pad",
    "Verif.C04_8000_strip_pad",
    "Verif.C04_8000_strip_exact"
   ],
   "note": ""
  },
  {
   "property": "C05",
   "status": "proved",
   "theorems": [
    "Verif.C05_padded_encrypt",
    "Verif.C05_round_trip"
   ],
   "note": ""
  },
  {
   "property": "C06",
   "status": "proved",
   "theorems": [
    "Verif.C06_padded_decrypt"
   ],
   "note": ""
  },
  {
   "property": "C07",
   "status": "proved",
   "theorems": [
    "Verif.C07_cbc_encrypt",
    "Verif.C07_cbc_decrypt",
    "Verif.C07_cbc_round_trip"
   ],
   "note": ""
  },
  {
   "property": "C08",
   "status": "proved",
   "theorems": [
    "Verif.C08_cfb_encrypt",
    "Verif.C08_cfb_decrypt",
    "Verif.C08_segment_size",
    "Verif.C08_cfb_round_trip"
   ],
   "note": ""
  },
  {
   "property": "C09",
   "status": "proved",
   "theorems": [
    "Verif.C09_ofb",
    "Verif.C09_ofb_round_trip"
   ],
   "note": ""
  },
  {
   "property": "C10",
   "status": "proved",
   "theorems": [
    "Verif.C10_ctr",
    "Verif.C10_ctr_round_trip",
    "Verif.C10_inc_size"
   ],
   "note": ""
  },
  {
   "property": "C100",
   "status": "proved",
   "theorems": [
    "Verif.C100_arcfour",
    "Verif.C100_blowfish",
    "Verif.C100_key_twice",
    "Verif.C100_hmac",
    "Verif.C100_hmac_block",
    "Verif.C100_hmac_sha256_zero",
    "Verif.C100_chacha20",
    "Verif.C100_siphash",
    "Verif.C100_blake2",
    "Verif.C100_blake3",
    "Verif.C100_aes"
   ],
   "note": "`Different objects` is about the state of new objects. That different keys give different results cannot be proved without assumptions on the ciphers. ARCfour and Blowfish: the converse (keys that do not agree give different objects) is not claimed; for ARCfour it is false for want of enough permutations."
  },
  {
   "property": "C101",
   "status": "proved",
   "theorems": [
    "Verif.C101_forgery",
    "Verif.C101_fixed_length",
    "Verif.C101_one_block",
    "Verif.C101_cmac",
    "Verif.C101_cmac_one_block",
    "Verif.C101_cmac_subkeys",
    "Verif.C101_cmac_extension"
   ],
   "note": "Padding: none, Padding.length or Padding._8000. That chaining values do not collide, or that the subkeys are unknown, cannot be proved without assumptions on the cipher."
  },
  {
   "property": "C102",
   "status": "proved",
   "theorems": [
    "Verif.C102_rsa_permutation",
    "Verif.C102_rsa_product",
    "Verif.C102_rsa_forgery",
    "Verif.C102_paillier_unique",
    "Verif.C102_paillier_every_ciphertext"
   ],
   "note": "Z.nextprime is assumed to return primes. C102_paillier_every_ciphertext is about the part of encrypt that follows the choice of the blinding number, since only some of them are chosen (see C103)."
  },
  {
   "property": "C103",
   "status": "partial",
   "theorems": [
    "Verif.C103_rsa_exponent",
    "Verif.C103_blinding_partial",
    "Verif.C103_blinding_range",
    "Verif.C103_blinding_fails",
    "Verif.C103_prime_gap",
    "Verif.C103_prime_fails"
   ],
   "note": "True of the exponent of RSA. False of the blinding numbers of Paillier: only those of exactly size-1 bits are used, uniformly (C103_blinding_partial); for example 1 never is (C103_blinding_fails). False of primes: they are found by searching upwards from a random odd number, so that a prime is as likely as the gap before it is wide (C103_prime_gap, for the first draw)."
  },
  {
   "property": "C104",
   "status": "proved",
   "theorems": [
    "Verif.C104_transform_string",
    "Verif.C104_transform_channel",
    "Verif.C104_hash_string",
    "Verif.C104_hash_channel",
    "Verif.C104_auth_transform_string_detached",
    "Verif.C104_auth_transform_string",
    "Verif.C104_auth_check_transform_string",
    "Verif.C104_block_cipher",
    "Verif.C104_stream_cipher",
    "Verif.C104_chapoly",
    "Verif.C104_macs",
    "Verif.C104_exception_keeps_key",
    "Verif.C37_too_short"
   ],
   "note": "The first seven theorems say that the last action on the object is its method wipe, for every object; the next four combine them with C63 for block and stream ciphers, chacha20_poly1305 and MACs. What wipe leaves behind for other objects is the subject of C63. C104_exception_keeps_key: on a string shorter than a block, transform_string raises and leaves the key and the data."
  },
  {
   "property": "C105",
   "status": "proved",
   "theorems": [
    "Verif.C105_tower",
    "Verif.C105_round_trip",
    "Verif.C105_single",
    "Verif.C105_aes",
    "Verif.C105_des",
    "Verif.C105_triple_des",
    "Verif.C105_blowfish"
   ],
   "note": "Spec/Tower defines each mode as a machine on top of any machine; a tower of one mode is the mode of Spec/Modes (C105_single)."
  },
  {
   "property": "C106",
   "status": "partial",
   "theorems": [
    "Verif.C106_pseudo_rng_exact",
    "Verif.C106_pseudo_rng_aes_ctr_exact",
    "Verif.C106_pseudo_rng_partial",
    "Verif.C106_pseudo_rng_aes_ctr_partial",
    "Verif.C106_pseudo_rng_predictable",
    "Verif.C106_pseudo_rng_aes_ctr_predictable",
    "Verif.C106_pseudo_rng_fails"
   ],
   "note": "False of the code: wipe overwrites the seed string of the caller, and a generator made from it afterwards delivers the stream of the all-zero seed, whatever the seed was (C106_*_predictable, C106_pseudo_rng_fails). True if all generators are created before the first wipe (_partial); the _exact theorems say what happens in every case."
  },
  {
   "property": "C107",
   "status": "partial",
   "theorems": [
    "Verif.C107_secret_use_exact",
    "Verif.C107_secret_use_partial",
    "Verif.C107_short_secret_survives",
    "Verif.C107_secret_use_fails",
    "Verif.C107_exception_keeps"
   ],
   "note": "True of private secrets of 63 bits or more (the default is 160), in every history. False of shorter ones, which are never destroyed (C107_short_secret_survives, C107_secret_use_fails); C107_secret_use_exact says what happens in every case. A call that raises leaves the secrets as they are (C107_exception_keeps)."
  },
  {
   "property": "C108",
   "status": "proved",
   "theorems": [
    "Verif.C108_aes",
    "Verif.C108_des",
    "Verif.C108_triple_des",
    "Verif.C108_blowfish",
    "Verif.C108_arcfour",
    "Verif.C108_chacha20",
    "Verif.C108_aes_gcm",
    "Verif.C108_chacha20_poly1305"
   ],
   "note": "With padding, the messages are the padded ones. Spec/Reuse says what each mode reveals."
  },
  {
   "property": "C109",
   "status": "partial",
   "theorems": [
    "Verif.C109_tally_partial",
    "Verif.C109_tally_order"
   ],
   "note": "All terms except 0, which cannot be encrypted (C55_paillier_zero_fails). The independence of the order holds for all strings."
  },
  {
   "property": "C11",
   "status": "proved",
   "theorems": [
    "Verif.C11_no_counter_reuse"
   ],
   "note": ""
  },
  {
   "property": "C110",
   "status": "proved",
   "theorems": [
    "Verif.C110_transform_channel",
    "Verif.C110_hash_channel"
   ],
   "note": "For any transform and hash whose result does not depend on the cut into calls (C49-C52 show how to obtain that). Bytes are written when they are given to the channel; what the channel does with them later is not modelled."
  },
  {
   "property": "C111",
   "status": "partial",
   "theorems": [
    "Verif.C111_transform_channel_partial",
    "Verif.C111_hash_channel_partial",
    "Verif.C111_hash_channel_keeps"
   ],
   "note": "True if the function returns. False if reading raises an exception: the last bytes read stay in the buffer (C111_hash_channel_keeps, with End_of_file)."
  },
  {
   "property": "C112",
   "status": "proved",
   "theorems": [
    "Verif.C112_pipeline",
    "Verif.C112_grouping",
    "Verif.C112_channel"
   ],
   "note": "For data that every transform but the last accepts (C49_errors is about the other case). The transforms of a pipeline are distinct objects."
  },
  {
   "property": "C113",
   "status": "proved",
   "theorems": [
    "Verif.C113_sha1",
    "Verif.C113_sha256",
    "Verif.C113_sha512",
    "Verif.C113_ripemd160",
    "Verif.C113_md5"
   ],
   "note": "For MD5, as everywhere, OCaml's runtime is assumed to be right, and no call adds 4 GiB or more (finding of C69)."
  },
  {
   "property": "C114",
   "status": "proved",
   "theorems": [
    "Verif.C114_sha3",
    "Verif.C114_permutation"
   ],
   "note": "InnerCollision and OutputCollision are defined in Spec/SpongeCollision.lean. No collision is known; the example applies the argument to digests cut to one byte."
  },
  {
   "property": "C115",
   "status": "proved",
   "theorems": [
    "Verif.C115_aes",
    "Verif.C115_des",
    "Verif.C115_triple_des",
    "Verif.C115_blowfish",
    "Verif.C115_arcfour",
    "Verif.C115_chacha20",
    "Verif.C115_aes_gcm",
    "Verif.C115_chapoly_encrypt",
    "Verif.C115_chapoly_decrypt",
    "Verif.C115_quiet_cipher",
    "Verif.C115_quiet_modes",
    "Verif.C115_quiet_stream",
    "Verif.C115_quiet_aead",
    "Verif.C115_mac_des",
    "Verif.C115_mac_triple_des",
    "Verif.C115_mac_des_final_triple_des",
    "Verif.C115_mac_aes",
    "Verif.C115_mac_aes_cmac",
    "Verif.C115_quiet_mac",
    "Verif.C115_not_atomic",
    "Verif.C115_output_lost",
    "Verif.C115_aead_rejected",
    "Verif.C115_mac_wrong",
    "Verif.C115_mac_result_wrong",
    "Verif.C115_zlib",
    "Verif.C115_quiet_zlib",
    "Verif.C115_zlib_lost",
    "Verif.C115_codecs",
    "Verif.C115_quiet_codecs",
    "Verif.C115_codecs_unusable",
    "Verif.C115_base64_lost",
    "Verif.C115_compose",
    "Verif.C115_quiet_compose",
    "Verif.C115_compose_lost",
    "Verif.C115_transform_and_hash",
    "Verif.C115_transform_then_hash",
    "Verif.C115_quiet_auth",
    "Verif.C115_not_authenticated"
   ],
   "note": "The model has an interruption point between any two statements of the methods, more than OCaml has. C code and single assignments are atomic; the handler raises and does nothing else. C115_quiet_*: without interruptions the model is that of the other theorems. C115_not_atomic, C115_output_lost, C115_aead_rejected, C115_mac_wrong, C115_mac_result_wrong, C115_zlib_lost, C115_codecs_unusable, C115_base64_lost, C115_compose_lost and C115_not_authenticated show what an interruption can spoil. C115_zlib: zlib is any library that keeps within the input and the room that it is given."
  },
  {
   "property": "C116",
   "status": "partial",
   "theorems": [
    "Verif.C116_ctr_partial",
    "Verif.C116_reuse",
    "Verif.C116_limit",
    "Verif.C116_gcm_partial",
    "Verif.C116_gcm_reuse"
   ],
   "note": "False as stated: C116_reuse is a run of Cipher.des in counter mode in which an interrupted carry makes two blocks use the same key stream; C116_limit shows that the limit on the number of blocks is not kept. C116_ctr_partial: it holds if no call is interrupted when the last byte of the counter is 0xFF and the calls, completed or not, are no more than the values of the counter. C116_gcm_partial and C116_gcm_reuse are the same for AES-GCM, where no block may use the mask of the tag either."
  },
  {
   "property": "C117",
   "status": "partial",
   "theorems": [
    "Verif.C117_pseudo_rng",
    "Verif.C117_aes_ctr_partial",
    "Verif.C117_repeats",
    "Verif.C117_quiet"
   ],
   "note": "False as stated for pseudo_rng_aes_ctr: C117_repeats constructs, for every seed, a run in which an interrupted carry makes the generator give its first 16 bytes twice. C117_aes_ctr_partial: it holds if no call is interrupted that may increment a counter whose last byte is 0xFF. C117_pseudo_rng: it holds for pseudo_rng without restriction. C117_quiet: without interruptions these are the generators of C61."
  },
  {
   "property": "C118",
   "status": "proved",
   "theorems": [
    "Verif.C118_all_or_nothing",
    "Verif.C118_sha1",
    "Verif.C118_sha224",
    "Verif.C118_sha256",
    "Verif.C118_sha384",
    "Verif.C118_sha512",
    "Verif.C118_ripemd160",
    "Verif.C118_sha3",
    "Verif.C118_keccak",
    "Verif.C118_blake2b",
    "Verif.C118_blake2s",
    "Verif.C118_siphash",
    "Verif.C118_siphash128",
    "Verif.C118_hmac",
    "Verif.C118_hmac_sha1",
    "Verif.C118_hmac_sha256",
    "Verif.C118_hmac_sha384",
    "Verif.C118_hmac_sha512",
    "Verif.C118_hmac_ripemd160",
    "Verif.C118_safe",
    "Verif.C118_hmac_safe",
    "Verif.C118_result_again",
    "Verif.C118_quiet",
    "Verif.C118_hmac_quiet",
    "Verif.C118_blake3",
    "Verif.C118_blake3_result",
    "Verif.C118_md5",
    "Verif.C118_hmac_md5"
   ],
   "note": "C118_all_or_nothing is for any object that computes a function when it is not interrupted, the others are its instances. C118_safe, C118_hmac_safe: interruptions bring no memory error. C118_result_again: what is said of result, for SHA-1. C118_quiet, C118_hmac_quiet: without interruptions these are the objects of C22-C31. BLAKE3: less than 2^64 bytes in all. MD5: less than 4 GiB in each call, as for C69."
  },
  {
   "property": "C12",
   "status": "proved",
   "theorems": [
    "Verif.C12_in_place",
    "Verif.C12_states"
   ],
   "note": ""
  },
  {
   "property": "C13",
   "status": "partial",
   "theorems": [
    "Verif.C13_ciphers",
    "Verif.C13_cbc_decrypt",
    "Verif.C13_cfb_encrypt",
    "Verif.C13_cfb_decrypt",
    "Verif.C13_ofb",
    "Verif.C13_ctr",
    "Verif.C13_cbc_encrypt_partial",
    "Verif.C13_cbc_encrypt_source_unchecked"
   ],
   "note": "False of the code for Block.cbc_encrypt: it xors the source through an unchecked C stub before any bounds check (C13_cbc_encrypt_source_unchecked). Proved for every other cipher and mode."
  },
  {
   "property": "C14",
   "status": "proved",
   "theorems": [
    "Verif.C14_arcfour_key_size",
    "Verif.C14_blake2b_args",
    "Verif.C14_blake2s_args",
    "Verif.C14_blake3_args",
    "Verif.C14_chacha20_args",
    "Verif.C14_chapoly_args",
    "Verif.C14_sha2",
    "Verif.C14_sha3_size",
    "Verif.C14_siphash_key_size",
    "Verif.C14_mac_iv",
    "Verif.C14_aes_key_size",
    "Verif.C14_des_key_size",
    "Verif.C14_blowfish_key_size",
    "Verif.C14_cipher_aes",
    "Verif.C14_cipher_des",
    "Verif.C14_cipher_triple_des",
    "Verif.C14_cipher_blowfish",
    "Verif.C15_mac_aes",
    "Verif.C15_mac_des",
    "Verif.C15_mac_triple_des",
    "Verif.C16_des_final_triple_des",
    "Verif.C17_mac_aes_cmac",
    "Verif.C34_aead_aes_gcm",
    "Verif.C08_segment_size",
    "Verif.C10_inc_size"
   ],
   "note": ""
  },
  {
   "property": "C15",
   "status": "proved",
   "theorems": [
    "Verif.C15_mac",
    "Verif.C15_mac_padded",
    "Verif.C14_mac_iv",
    "Verif.C15_mac_aes",
    "Verif.C15_mac_des",
    "Verif.C15_mac_triple_des"
   ],
   "note": "Over any block cipher whose blocks are independent of history; the concrete ciphers are instances (C41, C43, C44)."
  },
  {
   "property": "C16",
   "status": "proved",
   "theorems": [
    "Verif.C16_mac_final_triple",
    "Verif.C16_mac_final_triple_padded",
    "Verif.C16_block_sizes",
    "Verif.C16_des_final_triple_des"
   ],
   "note": ""
  },
  {
   "property": "C17",
   "status": "proved",
   "theorems": [
    "Verif.C17_cmac",
    "Verif.C17_aes_cmac",
    "Verif.C17_mac_aes_cmac"
   ],
   "note": "Over any block cipher with 16-byte blocks, and with AES."
  },
  {
   "property": "C18",
   "status": "proved",
   "theorems": [
    "Verif.C18_stream_transform",
    "Verif.C18_stream_round_trip",
    "Verif.C18_direct_calls"
   ],
   "note": ""
  },
  {
   "property": "C19",
   "status": "proved",
   "theorems": [
    "Verif.C19_arcfour_is_rc4",
    "Verif.C19_arcfour_calls"
   ],
   "note": ""
  },
  {
   "property": "C20",
   "status": "proved",
   "theorems": [
    "Verif.C20_chacha20",
    "Verif.C20_chacha20_calls"
   ],
   "note": ""
  },
  {
   "property": "C21",
   "status": "partial",
   "theorems": [
    "Verif.C21_chacha20_blocks_distinct_partial",
    "Verif.C21_chacha20_reuses_keystream"
   ],
   "note": "False of the code: with a 12-byte IV the 32-bit block counter wraps silently and the keystream repeats after 2^38 bytes (C21_chacha20_reuses_keystream). Proved: block inputs are distinct within 2^32 (2^64 with an 8-byte IV) blocks."
  },
  {
   "property": "C22",
   "status": "proved",
   "theorems": [
    "Verif.C22_sha1"
   ],
   "note": ""
  },
  {
   "property": "C23",
   "status": "proved",
   "theorems": [
    "Verif.C23_sha224",
    "Verif.C23_sha256",
    "Verif.C23_sha256_hash_string"
   ],
   "note": ""
  },
  {
   "property": "C24",
   "status": "proved",
   "theorems": [
    "Verif.C24_sha384",
    "Verif.C24_sha512"
   ],
   "note": ""
  },
  {
   "property": "C25",
   "status": "partial",
   "theorems": [
    "Verif.C25_sha1_partial",
    "Verif.C25_sha256_partial",
    "Verif.C25_sha384_partial",
    "Verif.C25_sha512_partial",
    "Verif.C25_sha3_partial",
    "Verif.C25_blake2b_partial",
    "Verif.C25_blake2s_partial",
    "Verif.C25_blake3_partial",
    "Verif.C25_siphash_partial",
    "Verif.C25_siphash128_partial",
    "Verif.C25_hmac_partial",
    "Verif.C25_md5_partial",
    "Verif.C25_sha224_wrong_size",
    "Verif.C25_ripemd160_wrong_size",
    "Verif.C25_hmac_ripemd160_wrong_size"
   ],
   "note": "False of the code: hash_size is 24 for SHA-224 (digest of 28 bytes) and 32 for RIPEMD-160 and HMAC-RIPEMD-160 (20 bytes). Proved for all the others."
  },
  {
   "property": "C26",
   "status": "proved",
   "theorems": [
    "Verif.C26_ripemd160"
   ],
   "note": ""
  },
  {
   "property": "C27",
   "status": "proved",
   "theorems": [
    "Verif.C27_sha3",
    "Verif.C27_keccak"
   ],
   "note": ""
  },
  {
   "property": "C28",
   "status": "proved",
   "theorems": [
    "Verif.C28_blake2b",
    "Verif.C28_blake2s"
   ],
   "note": ""
  },
  {
   "property": "C29",
   "status": "proved",
   "theorems": [
    "Verif.C29_blake3",
    "Verif.C29_blake3_incremental",
    "Verif.C14_blake3_args"
   ],
   "note": "For data of less than 2^64 bytes, the domain of BLAKE3; any MAX_SIMD_DEGREE, the portable compression code (the only one compiled). Results longer than an OCaml string (Out_of_memory) are not modelled."
  },
  {
   "property": "C30",
   "status": "proved",
   "theorems": [
    "Verif.C30_siphash",
    "Verif.C30_siphash128"
   ],
   "note": ""
  },
  {
   "property": "C31",
   "status": "proved",
   "theorems": [
    "Verif.C31_hmac",
    "Verif.C31_hmac_sha1",
    "Verif.C31_hmac_sha256",
    "Verif.C31_hmac_sha384",
    "Verif.C31_hmac_sha512",
    "Verif.C31_hmac_ripemd160"
   ],
   "note": "HMAC over every modelled hash. HMAC-MD5 is in C69: the MD5 code belongs to the OCaml runtime, and the stub around it is modelled."
  },
  {
   "property": "C32",
   "status": "proved",
   "theorems": [
    "Verif.C32_poly1305",
    "Verif.C32_poly1305_32"
   ],
   "note": "Both the 64-bit and the 32-bit versions of the code."
  },
  {
   "property": "C33",
   "status": "proved",
   "theorems": [
    "Verif.C33_ghash",
    "Verif.C33_agree",
    "Verif.C33_field"
   ],
   "note": "Both implementations; the x86 intrinsics are modelled after Intel's description of the instructions."
  },
  {
   "property": "C34",
   "status": "proved",
   "theorems": [
    "Verif.C34_gcm_encrypt",
    "Verif.C34_gcm_decrypt",
    "Verif.C34_aes_gcm_encrypt",
    "Verif.C34_aes_gcm_decrypt",
    "Verif.C34_aead_aes_gcm"
   ],
   "note": "Over any block cipher with 16-byte blocks whose blocks are independent of history, and with AES. Both GHASH implementations."
  },
  {
   "property": "C35",
   "status": "proved",
   "theorems": [
    "Verif.C35_chapoly_encrypt",
    "Verif.C35_chapoly_decrypt",
    "Verif.C14_chapoly_args"
   ],
   "note": ""
  },
  {
   "property": "C36",
   "status": "proved",
   "theorems": [
    "Verif.C36_gcm_roundtrip",
    "Verif.C36_aes_gcm_roundtrip",
    "Verif.C36_chapoly_roundtrip"
   ],
   "note": ""
  },
  {
   "property": "C37",
   "status": "proved",
   "theorems": [
    "Verif.C37_too_short",
    "Verif.C37_check",
    "Verif.C37_put_exn",
    "Verif.C37_finish_exn",
    "Verif.C37_gcm",
    "Verif.C37_chapoly"
   ],
   "note": ""
  },
  {
   "property": "C38",
   "status": "partial",
   "theorems": [
    "Verif.C38_gcm_counters",
    "Verif.C38_gcm_blocks",
    "Verif.C38_chapoly_blocks_distinct_partial",
    "Verif.C38_chapoly_leaks_poly1305_key"
   ],
   "note": "Proved for AES-GCM. False of the code for ChaCha20-Poly1305 with 12-byte IVs: messages of 2^38 - 63 to 2^38 bytes are accepted and their end is encrypted with the block that gives the Poly1305 key (C38_chapoly_leaks_poly1305_key)."
  },
  {
   "property": "C39",
   "status": "proved",
   "theorems": [
    "Verif.C39_equality",
    "Verif.C39_access_pattern"
   ],
   "note": ""
  },
  {
   "property": "C40",
   "status": "proved",
   "theorems": [
    "Verif.C40_out_of_bounds",
    "Verif.C40_xor",
    "Verif.C40_involutive"
   ],
   "note": ""
  },
  {
   "property": "C41",
   "status": "proved",
   "theorems": [
    "Verif.C41_aes_encrypt",
    "Verif.C41_aes_decrypt",
    "Verif.C41_aes_inverse",
    "Verif.C41_aes_round_trip",
    "Verif.C41_spec_inv",
    "Verif.C14_aes_key_size"
   ],
   "note": ""
  },
  {
   "property": "C42",
   "status": "proved",
   "theorems": [
    "Verif.C42_aesni_encrypt",
    "Verif.C42_aesni_decrypt",
    "Verif.C42_aesni_fips197"
   ],
   "note": "The intrinsics are modelled after Intel's description of the instructions."
  },
  {
   "property": "C43",
   "status": "proved",
   "theorems": [
    "Verif.C43_des",
    "Verif.C43_triple_des",
    "Verif.C43_inverse",
    "Verif.C43_parity",
    "Verif.C14_des_key_size"
   ],
   "note": ""
  },
  {
   "property": "C44",
   "status": "proved",
   "theorems": [
    "Verif.C44_blowfish",
    "Verif.C44_inverse",
    "Verif.C14_blowfish_key_size"
   ],
   "note": ""
  },
  {
   "property": "C45",
   "status": "proved",
   "theorems": [
    "Verif.C45_encode_compact",
    "Verif.C45_round_trip",
    "Verif.C45_flush"
   ],
   "note": "For put_byte of integers that are bytes; others raise Invalid_argument (C48_put_byte_range)."
  },
  {
   "property": "C46",
   "status": "proved",
   "theorems": [
    "Verif.C46_encode_multiline",
    "Verif.C46_lines",
    "Verif.C46_newlines"
   ],
   "note": "Lines have 72 characters, not 76; the last newline is missing when the last line has only a partial group (the exact text is Spec.Base64.encodeLines)."
  },
  {
   "property": "C47",
   "status": "proved",
   "theorems": [
    "Verif.C47_accepts",
    "Verif.C47_rejects"
   ],
   "note": ""
  },
  {
   "property": "C48",
   "status": "proved",
   "theorems": [
    "Verif.C48_encode",
    "Verif.C48_encode_shape",
    "Verif.C48_accepts",
    "Verif.C48_rejects",
    "Verif.C48_round_trip",
    "Verif.C48_put_byte_range"
   ],
   "note": ""
  },
  {
   "property": "C49",
   "status": "proved",
   "theorems": [
    "Verif.C49_compose",
    "Verif.C49_errors",
    "Verif.C49_hex_identity"
   ],
   "note": "For any two transforms that each compute a function of the data put before each flush and before the end. A transform that hands out the internal buffer of the other one (compose t t) is not modelled."
  },
  {
   "property": "C50",
   "status": "proved",
   "theorems": [
    "Verif.C50_transform_channel",
    "Verif.C50_end_of_file"
   ],
   "note": "The sizes of the reads are an arbitrary function; with ~len larger than the channel, End_of_file is raised after the bytes of the channel have been processed."
  },
  {
   "property": "C51",
   "status": "proved",
   "theorems": [
    "Verif.C51_hash_channel",
    "Verif.C51_end_of_file"
   ],
   "note": ""
  },
  {
   "property": "C52",
   "status": "proved",
   "theorems": [
    "Verif.C52_then_hash",
    "Verif.C52_then_hash_errors",
    "Verif.C52_and_hash",
    "Verif.C52_check",
    "Verif.C52_check_wrong_size",
    "Verif.C52_sha224_never_accepted"
   ],
   "note": "Tags are right for every chunking. With Hash.sha224 or Hash.ripemd160 the announced tag_size is wrong (see C25), so auth_check_transform_string never accepts: C52_check_wrong_size, C52_sha224_never_accepted."
  },
  {
   "property": "C53",
   "status": "proved",
   "theorems": [
    "Verif.C53_rsa_decrypt_encrypt",
    "Verif.C53_rsa_unwrap_sign",
    "Verif.C53_rsa_new_key"
   ],
   "note": "Assumes that Z.nextprime returns primes (its documentation promises a very high probability). The exponent, if given, is positive."
  },
  {
   "property": "C54",
   "status": "partial",
   "theorems": [
    "Verif.C54_rsa_encrypt_too_long",
    "Verif.C54_rsa_decrypt_too_long",
    "Verif.C54_rsa_decrypt_CRT_too_long",
    "Verif.C54_rsa_encrypt_partial",
    "Verif.C53_rsa_decrypt_encrypt",
    "Verif.C54_rsa_unaligned_fails",
    "Verif.C54_rsa_new_key_sizes"
   ],
   "note": "Message_too_long is raised exactly as stated, for every key. The result has ceil(size/8) bytes for keys whose size is a number of machine words; for others the code raises Invalid_argument (C54_rsa_unaligned_fails), and new_key itself fails for most sizes that are not multiples of 128 bits (C54_rsa_new_key_sizes)."
  },
  {
   "property": "C55",
   "status": "partial",
   "theorems": [
    "Verif.C55_paillier_partial",
    "Verif.C55_paillier_encrypt_ok",
    "Verif.C55_paillier_zero_fails"
   ],
   "note": "All messages except 0, for which encrypt raises Invalid_argument (C55_paillier_zero_fails)."
  },
  {
   "property": "C56",
   "status": "partial",
   "theorems": [
    "Verif.C56_paillier_add_partial",
    "Verif.C56_paillier_add_homomorphism",
    "Verif.C55_paillier_zero_fails"
   ],
   "note": "All messages except 0, which cannot be encrypted."
  },
  {
   "property": "C57",
   "status": "partial",
   "theorems": [
    "Verif.C57_dh_agreement",
    "Verif.C57_dh_agreement_partial",
    "Verif.C57_dh_unaligned_fails",
    "Verif.C57_dh_secret_used_once"
   ],
   "note": "Complete for the parameters returned by new_parameters; for parameters supplied by the user, the length of p must be a number of machine words, otherwise the code may raise Invalid_argument (C57_dh_unaligned_fails)."
  },
  {
   "property": "C58",
   "status": "proved",
   "theorems": [
    "Verif.C58_derive_key",
    "Verif.C58_derive_key_length",
    "Verif.C58_derive_key_prefix",
    "Verif.C58_derive_key_refuses"
   ],
   "note": "H is SHA-256 (the documentation says SHA-1)."
  },
  {
   "property": "C59",
   "status": "partial",
   "theorems": [
    "Verif.C59_of_bytes",
    "Verif.C59_to_bytes",
    "Verif.C59_to_bytes_size",
    "Verif.C59_to_bytes_size_partial",
    "Verif.C59_to_bytes_exact",
    "Verif.C59_to_bytes_unaligned_fails"
   ],
   "note": "to_bytes with a size fails on numbers that fit when the size in bytes is not a number of machine words (C59_to_bytes_unaligned_fails); C59_to_bytes_exact says exactly when it succeeds."
  },
  {
   "property": "C60",
   "status": "partial",
   "theorems": [
    "Verif.C60_mod_power_partial",
    "Verif.C60_mod_mult_partial",
    "Verif.C60_mod_power_sound",
    "Verif.C60_mod_mult_sound",
    "Verif.C60_mod_power_unaligned_fails",
    "Verif.C60_mod_mult_unaligned_fails",
    "Verif.C60_mod_power_zero_fails",
    "Verif.C60_mod_power_even_fails"
   ],
   "note": "Results are right whenever there is one; there is none for short moduli, even moduli and exponent 0."
  },
  {
   "property": "C61",
   "status": "proved",
   "theorems": [
    "Verif.C61_pseudo_rng",
    "Verif.C61_pseudo_rng_seed",
    "Verif.C61_pseudo_rng_range",
    "Verif.C61_pseudo_rng_aes_ctr",
    "Verif.C61_pseudo_rng_aes_ctr_seed",
    "Verif.C61_pseudo_rng_aes_ctr_nothing",
    "Verif.C61_pseudo_rng_aes_ctr_range",
    "Verif.C61_random_string"
   ],
   "note": "The position in the ChaCha20 keystream is unbounded (the 64-bit block counter wraps as in the specification)."
  },
  {
   "property": "C62",
   "status": "proved",
   "theorems": [
    "Verif.C62_system_rng",
    "Verif.C62_system_rng_range",
    "Verif.C62_device_rng",
    "Verif.C62_device_rng_range",
    "Verif.C62_device_rng_wiped",
    "Verif.C62_hardware_rng",
    "Verif.C62_hardware_rng_range",
    "Verif.C62_hardware_available",
    "Verif.C62_secure_rng"
   ],
   "note": "A failing read of device_rng raises Unix_error instead of Entropy_source_closed. The Windows generator is the subject of C98."
  },
  {
   "property": "C63",
   "status": "partial",
   "theorems": [
    "Verif.C63_key_schedules_partial",
    "Verif.C63_poly1305_finish",
    "Verif.C63_modes",
    "Verif.C63_block_transform",
    "Verif.C63_block_transform_forgets",
    "Verif.C63_stream_keys",
    "Verif.C63_stream_transform",
    "Verif.C63_chapoly",
    "Verif.C63_macs",
    "Verif.C63_sha1_ripemd160",
    "Verif.C63_sha2",
    "Verif.C63_blake2",
    "Verif.C63_siphash",
    "Verif.C63_released_partial",
    "Verif.C63_codecs",
    "Verif.C63_combinations",
    "Verif.C63_pseudo_rng",
    "Verif.C65_cipher_des",
    "Verif.C65_cipher_triple_des",
    "Verif.C65_cipher_blowfish",
    "Verif.C65_cipher_arcfour",
    "Verif.C65_cipher_chacha20",
    "Verif.C65_mac_des",
    "Verif.C65_mac_triple_des",
    "Verif.C65_mac_des_final_triple_des",
    "Verif.C65_chapoly_encrypt",
    "Verif.C65_codecs",
    "Verif.C65_sha1",
    "Verif.C65_ripemd160",
    "Verif.C65_sha2",
    "Verif.C65_blake2b",
    "Verif.C65_blake2s",
    "Verif.C65_siphash",
    "Verif.C63_des_after_wipe",
    "Verif.C63_blowfish_after_wipe",
    "Verif.C63_gcm_wipe_incomplete",
    "Verif.C63_aes_wipe_zero",
    "Verif.C63_aes_encrypt_after_wipe_out_of_bounds",
    "Verif.C63_blake3_after_wipe",
    "Verif.C63_sha3_after_wipe",
    "Verif.C63_pseudo_rng_aes_ctr_wipe_ineffective"
   ],
   "note": "Erasure holds of every class but AES-GCM (C63_gcm_wipe_incomplete) and pseudo_rng_aes_ctr (C63_pseudo_rng_aes_ctr_wipe_ineffective). Use after wipe stays in bounds (the theorems C65_* whose set of calls is anyCall) except with AES, whose wipe sets 16 rounds (C63_aes_encrypt_after_wipe_out_of_bounds), SHA-3 and BLAKE3, whose context is freed. Buffers replaced by larger ones are never erased (C81)."
  },
  {
   "property": "C64",
   "status": "partial",
   "theorems": [
    "Verif.C64_compress_partial",
    "Verif.C64_compress_init",
    "Verif.C64_compress_large_string",
    "Verif.C64_compress_flush_twice",
    "Verif.C64_uncompress_partial",
    "Verif.C64_uncompress_garbage",
    "Verif.C64_round_trip_partial",
    "Verif.C64_compress_large_output",
    "Verif.C64_compress_large_output_reached",
    "Verif.C64_compress_streaming_partial",
    "Verif.C64_uncompress_streaming_partial",
    "Verif.C64_round_trip_streaming_partial"
   ],
   "note": "Every engine that keeps to the documented behaviour of zlib, whatever it uses and produces at each call. For calls that put less than 4 GiB, and less than 2 GiB of output waiting: either in total, or, for streams of any length, between two calls that take the output (the _streaming theorems). A longer string loses 4 GiB of data (C64_compress_large_string): avail_in has 32 bits. So has avail_out: once 4 GiB of output are waiting, 4 GiB of garbage are inserted in the output (C64_compress_large_output, C64_compress_large_output_reached). A truncated stream is accepted if a space completes it."
  },
  {
   "property": "C65",
   "status": "partial",
   "theorems": [
    "Verif.C65_cipher_des",
    "Verif.C65_cipher_triple_des",
    "Verif.C65_cipher_blowfish",
    "Verif.C65_cipher_aes_partial",
    "Verif.C65_cipher_arcfour",
    "Verif.C65_cipher_chacha20",
    "Verif.C65_paddings",
    "Verif.C65_mac_des",
    "Verif.C65_mac_triple_des",
    "Verif.C65_mac_des_final_triple_des",
    "Verif.C65_mac_aes_partial",
    "Verif.C65_mac_aes_cmac_partial",
    "Verif.C65_aes_gcm_partial",
    "Verif.C65_chapoly_encrypt",
    "Verif.C65_chapoly_decrypt_partial",
    "Verif.C65_codecs",
    "Verif.C65_sha1",
    "Verif.C65_ripemd160",
    "Verif.C65_sha2",
    "Verif.C65_sha3_partial",
    "Verif.C65_blake2b",
    "Verif.C65_blake2s",
    "Verif.C65_blake3_partial",
    "Verif.C65_siphash",
    "Verif.C65_hmac_sha1",
    "Verif.C65_hmac_ripemd160",
    "Verif.C65_hmac_sha256",
    "Verif.C65_hmac_sha384",
    "Verif.C65_hmac_sha512",
    "Verif.C65_compose",
    "Verif.C65_transform_and_hash",
    "Verif.C65_transform_then_hash",
    "Verif.C65_stream_bounds",
    "Verif.C61_pseudo_rng_range",
    "Verif.C61_pseudo_rng_aes_ctr_range",
    "Verif.C62_system_rng_range",
    "Verif.C62_device_rng_range",
    "Verif.C62_hardware_rng_range",
    "Verif.C65_zlib_partial",
    "Verif.C65_chapoly_decrypt_out_of_bounds",
    "Verif.C65_zlib_out_of_bounds"
   ],
   "note": "Every class, every reachable state and all arguments, except: put_substring of AEAD.chacha20_poly1305 Decrypt and of Zlib does not check its arguments and reads out of bounds (C65_chapoly_decrypt_out_of_bounds, C65_zlib_out_of_bounds); AES, SHA-3 and BLAKE3 objects must not be used after wipe (C63). For offsets and lengths close to max_int see C82."
  },
  {
   "property": "C66",
   "status": "partial",
   "theorems": [
    "Verif.C66_aes",
    "Verif.C66_des_blowfish_arcfour",
    "Verif.C66_chacha20",
    "Verif.C66_keyed_hashes",
    "Verif.C66_results",
    "Verif.C66_md5",
    "Verif.C66_keyless",
    "Verif.C66_siphash_partial",
    "Verif.C66_ghash_partial",
    "Verif.C66_siphash_moved",
    "Verif.C66_ghash_moved",
    "Verif.C66_siphash_unrooted",
    "Verif.C66_ghash_unrooted"
   ],
   "note": "Proved, for every behaviour of a moving collector, for every stub that creates a context from a key or reads a result, except two. caml_siphash_init and caml_ghash_init (software path) do not register the key: the property is false of them, with witnesses, and holds when the collector does not move the key."
  },
  {
   "property": "C67",
   "status": "proved",
   "theorems": [
    "Verif.C67_aes",
    "Verif.C67_des",
    "Verif.C67_triple_des",
    "Verif.C67_blowfish",
    "Verif.C67_arcfour",
    "Verif.C67_chacha20"
   ],
   "note": "Every mode, padding, IV and direction. In counter mode, for messages within the limit of C11."
  },
  {
   "property": "C68",
   "status": "partial",
   "theorems": [
    "Verif.C68_flush_neutral",
    "Verif.C68_flush_neutral_padded_encrypt",
    "Verif.C68_flush_neutral_padded_decrypt_partial",
    "Verif.C68_padded_decrypt_flush_then_finish_raises",
    "Verif.C64_compress_flush_twice"
   ],
   "note": "False of the code for padded decryption: flushing after the last complete block makes finish raise Wrong_data_length (C68_padded_decrypt_flush_then_finish_raises)."
  },
  {
   "property": "C69",
   "status": "partial",
   "theorems": [
    "Verif.C69_md5_exact",
    "Verif.C69_md5_partial",
    "Verif.C69_md5_large",
    "Verif.C69_md5_collision",
    "Verif.C69_hmac_md5_partial",
    "Verif.C65_md5"
   ],
   "note": "The MD5 of the OCaml runtime is a parameter of the model, assumed to be right. The stub passes the length as an unsigned int: additions of 4 GiB or more are truncated, and the property is false of them (C69_md5_large, C69_md5_collision). C69_md5_exact says what is computed in every case."
  },
  {
   "property": "C70",
   "status": "proved",
   "theorems": [
    "Verif.C70_dispatch",
    "Verif.C70_aes",
    "Verif.C70_ghash"
   ],
   "note": "Transition system with any number of threads; reads and writes of the variable are atomic."
  },
  {
   "property": "C71",
   "status": "partial",
   "theorems": [
    "Verif.C71_no_undefined",
    "Verif.C71_no_leak",
    "Verif.C71_all_freed",
    "Verif.C71_wipe_erases",
    "Verif.C71_zlib_no_undefined",
    "Verif.C71_zlib_no_leak_partial",
    "Verif.C71_zlib_leak"
   ],
   "note": "Complete for SHA-3, BLAKE3 and GHASH. For Zlib there is no use after free, but the state allocated by zlib leaks if the object is dropped before finish (C71_zlib_leak)."
  },
  {
   "property": "C72",
   "status": "partial",
   "theorems": [
    "Verif.C72_cipher",
    "Verif.C72_padded_encrypt",
    "Verif.C72_padded_decrypt_partial",
    "Verif.C72_padded_decrypt_empty",
    "Verif.C72_stream",
    "Verif.C72_base64_encode",
    "Verif.C72_base64_decode",
    "Verif.C72_hex_encode",
    "Verif.C72_hex_decode",
    "Verif.C72_compose_partial",
    "Verif.C72_compose_refuses",
    "Verif.C72_transform_then_hash",
    "Verif.C72_transform_and_hash"
   ],
   "note": "Block ciphers with and without padding, stream ciphers, Base64 and hexadecimal. False of compose, which announces the input size of its first part although the second may refuse what the first gives (C72_compose_refuses); C72_compose_partial says when it holds. transform_then_hash and transform_and_hash inherit the contract of their transform. False of padded decryption for the empty message (C72_padded_decrypt_empty). The AEAD and Zlib transforms announce 1 and 1: covered by C34, C35, C64."
  },
  {
   "property": "C73",
   "status": "proved",
   "theorems": [
    "Verif.C73_sha1",
    "Verif.C73_sha224",
    "Verif.C73_sha256",
    "Verif.C73_sha384",
    "Verif.C73_sha512",
    "Verif.C73_ripemd160",
    "Verif.C73_chacha20",
    "Verif.C73_blowfish"
   ],
   "note": "All the code that tests ARCH_BIG_ENDIAN."
  },
  {
   "property": "C74",
   "status": "partial",
   "theorems": [
    "Verif.C74_hmac_partial",
    "Verif.C74_hmac_erased",
    "Verif.C74_hmac_erased_unkeyed",
    "Verif.C74_hmac_sha1_wrong",
    "Verif.C66_results"
   ],
   "note": "False of HMAC, which reads the key string again in result: C74_hmac_erased says what it computes then, C74_hmac_sha1_wrong is a witness. In the model the state of the other classes is built from the contents of the key and holds no reference to it, as in the code; C66 treats the stubs that copy it."
  },
  {
   "property": "C75",
   "status": "proved",
   "theorems": [
    "Verif.C75_chapoly",
    "Verif.C75_poly1305_uniform",
    "Verif.C75_gcm",
    "Verif.C75_aes_gcm",
    "Verif.C75_ghash_field"
   ],
   "note": "Counting statements: 2^130 - 5 is proved prime and GF(2^128) a field. That ChaCha20 and AES make the one-time key and the subkey look random is an assumption of cryptography outside of the model."
  },
  {
   "property": "C76",
   "status": "proved",
   "theorems": [
    "Verif.C76_channel",
    "Verif.C76_block",
    "Verif.C76_padded_encrypt",
    "Verif.C76_padded_decrypt",
    "Verif.C76_stream",
    "Verif.C76_gcm_encrypt",
    "Verif.C76_gcm_decrypt",
    "Verif.C76_chapoly_encrypt",
    "Verif.C76_chapoly_decrypt",
    "Verif.C76_hex_encode",
    "Verif.C76_hex_decode",
    "Verif.C76_base64_compact",
    "Verif.C76_base64_multiline",
    "Verif.C76_base64_decode"
   ],
   "note": "Streams and Paced are defined in Spec/Streaming.lean. Zlib is not covered; compositions are covered by C51 for totals that fit in a string only."
  },
  {
   "property": "C77",
   "status": "proved",
   "theorems": [
    "Verif.C77_rsa_encrypt",
    "Verif.C77_rsa_decrypt",
    "Verif.C77_rsa_decrypt_CRT",
    "Verif.C77_rsa_new_key",
    "Verif.C77_rsa_wipe_key",
    "Verif.C77_paillier_decrypt",
    "Verif.C77_paillier_new_key",
    "Verif.C77_paillier_wipe_key",
    "Verif.C77_dh_message",
    "Verif.C77_dh_shared_secret"
   ],
   "note": "Sharing is limited to what Zarith may do: the functions that go through GMP integers (powm_sec, of_bits) always return a new number, the others may return any argument equal to the result. Of new_key, the part that computes the keys from the random factors is in this model."
  },
  {
   "property": "C78",
   "status": "proved",
   "theorems": [
    "Verif.C78_private_secret",
    "Verif.C78_random",
    "Verif.C78_random_range",
    "Verif.C78_bytesOf"
   ],
   "note": "Counts of random strings. The numbers retained by the search for primes and the tests of primality relative to other numbers are not uniform over all numbers, and nothing is claimed for them."
  },
  {
   "property": "C79",
   "status": "proved",
   "theorems": [
    "Verif.C79_sha1",
    "Verif.C79_sha256",
    "Verif.C79_sha512",
    "Verif.C79_ripemd160",
    "Verif.C79_md5"
   ],
   "note": "The collision of the compression function is exhibited in the computation of the two digests (that one exists somewhere is trivial). SHA-224 and SHA-384, whose results are truncated, have no such property. MD5: when no single call adds 4 GiB or more (C69). The example applies the theorem to the MD5 collision of Wang et al."
  },
  {
   "property": "C80",
   "status": "proved",
   "theorems": [
    "Verif.C80_fifo",
    "Verif.C80_substring_stable",
    "Verif.C80_replaced_stable"
   ],
   "note": "At the level of the class buffered_output, which all the transforms inherit: productions of output are arbitrary."
  },
  {
   "property": "C81",
   "status": "partial",
   "theorems": [
    "Verif.C81_wipe",
    "Verif.C81_erased_partial",
    "Verif.C81_replaced_not_erased"
   ],
   "note": "False of the code: ensure_capacity drops the old buffer without erasing it (C81_replaced_not_erased). True as long as the output available never reaches the initial size of the buffer, 256 bytes (C81_erased_partial)."
  },
  {
   "property": "C82",
   "status": "partial",
   "theorems": [
    "Verif.C82_ensure_capacity",
    "Verif.C82_loop_model",
    "Verif.C82_arcfour_partial",
    "Verif.C82_chacha20_partial",
    "Verif.C82_block",
    "Verif.C82_block_aes",
    "Verif.C82_padded",
    "Verif.C82_padded_aes",
    "Verif.C82_mac",
    "Verif.C82_mac_aes",
    "Verif.C82_mac_final_triple",
    "Verif.C82_cmac",
    "Verif.C82_gcm",
    "Verif.C82_chapoly_encrypt_partial",
    "Verif.C82_chapoly_decrypt_partial",
    "Verif.C82_codec_partial",
    "Verif.C82_stream_hangs",
    "Verif.C82_codec_ignores",
    "Verif.C82_codec_min_int",
    "Verif.C82_zlib_partial"
   ],
   "note": "Wrap-around has no effect on any history of legal calls, nor on calls whose arguments are at most max_int / 4 in absolute value; block ciphers (padded or not), MACs and AES-GCM behave with all arguments. False of stream ciphers, which loop forever on lengths above max_int / 2 (C82_stream_hangs), and of the encoders and decoders, which ignore some illegal ranges (C82_codec_ignores) and process the string when the length is min_int (C82_codec_min_int). Zlib gives the arguments of put_substring to C code unchecked (C65_zlib_out_of_bounds), so that C82_zlib_partial covers legal ranges only."
  },
  {
   "property": "C83",
   "status": "partial",
   "theorems": [
    "Verif.C83_rsa_partial",
    "Verif.C83_paillier_partial",
    "Verif.C83_dh_partial",
    "Verif.C83_dh_secret",
    "Verif.C83_rsa_short_modulus",
    "Verif.C83_paillier_short_modulus",
    "Verif.C83_dh_not_generator"
   ],
   "note": "False of the code for the moduli of RSA and Paillier, which can have one bit less than requested (C83_rsa_short_modulus, C83_paillier_short_modulus), and for the base of DH parameters, any random number, which need not be a generator (C83_dh_not_generator). All the rest is proved."
  },
  {
   "property": "C84",
   "status": "partial",
   "theorems": [
    "Verif.C84_exponent_partial",
    "Verif.C84_even_exponent",
    "Verif.C84_even_exponent_diverges",
    "Verif.C84_negative_exponent"
   ],
   "note": "True of positive odd exponents. False of even ones, on which new_key never returns (C84_even_exponent, C84_even_exponent_diverges), and of negative ones, which give keys that do not match: decrypting an encrypted message gives its inverse modulo n (C84_negative_exponent)."
  },
  {
   "property": "C85",
   "status": "partial",
   "theorems": [
    "Verif.C85_derive_key_partial",
    "Verif.C85_same_secret",
    "Verif.C85_same_diversification",
    "Verif.C85_ambiguous_concatenation",
    "Verif.C85_blocks_differ"
   ],
   "note": "Proved when only the diversification or only the secret differs. If both differ the claim is false: the two strings are simply concatenated, and a part can move from one to the other (C85_ambiguous_concatenation)."
  },
  {
   "property": "C86",
   "status": "partial",
   "theorems": [
    "Verif.C86_arcfour",
    "Verif.C86_chacha20",
    "Verif.C86_block_partial",
    "Verif.C86_block_put_substring",
    "Verif.C86_padded_partial",
    "Verif.C86_padded_decrypt_finish",
    "Verif.C86_hex_encode_partial",
    "Verif.C86_hex_decode_partial",
    "Verif.C86_base64_encode_partial",
    "Verif.C86_base64_decode_partial",
    "Verif.C86_base64_decode_finish",
    "Verif.C86_hex_decode_put_string",
    "Verif.C86_base64_encode_overflow",
    "Verif.C86_gcm_encrypt_partial",
    "Verif.C86_gcm_decrypt_partial",
    "Verif.C86_gcm_decrypt_finish",
    "Verif.C86_chapoly_encrypt_partial",
    "Verif.C86_chapoly_decrypt",
    "Verif.C86_mac_partial",
    "Verif.C86_cmac_partial",
    "Verif.C86_mac_final_triple_partial",
    "Verif.C86_mac_add_substring",
    "Verif.C86_cmac_add_substring",
    "Verif.C86_compose_put_char",
    "Verif.C86_zlib_garbage",
    "Verif.C86_zlib_partial"
   ],
   "note": "True of all calls of the stream ciphers, and of the calls other than put_substring and put_string of the unpadded block ciphers (for modes that do not raise by themselves), of the padded ones except finish, and of Hexa and Base64, except for Output_buffer_overflow and finish of Base64 decoding. False of put_substring of block ciphers (C86_block_put_substring), of finish of padded decryption (C86_padded_decrypt_finish), of finish of Base64 decoding (C86_base64_decode_finish), of put_string of decoders (C86_hex_decode_put_string), of Output_buffer_overflow in Base64 encoding (C86_base64_encode_overflow). True of all calls of ChaCha20-Poly1305 decryption and, except for Message_too_long (see C95), of all calls of ChaCha20-Poly1305 encryption, and of the calls of AES-GCM other than put_substring and put_string, except finish_and_get_tag of decryption, of which it is false (C86_gcm_decrypt_finish). For hashes, see C65 (RangeRejected). True of the calls of MACs other than add_substring, of which it is false (C86_mac_add_substring, C86_cmac_add_substring). False of compositions, even of transforms of which it is true (C86_compose_put_char). False of put_string of Zlib.uncompress (C86_zlib_garbage); true of the calls of Zlib that do not reach the C library (C86_zlib_partial)."
  },
  {
   "property": "C87",
   "status": "proved",
   "theorems": [
    "Verif.C87_memory"
   ],
   "note": "At the level of the class buffered_output, which all the transforms inherit: productions of output are arbitrary."
  },
  {
   "property": "C88",
   "status": "partial",
   "theorems": [
    "Verif.C88_copying_partial",
    "Verif.C88_linear_partial",
    "Verif.C88_char_quadratic",
    "Verif.C88_char_not_linear"
   ],
   "note": "True if the output is retrieved by get_string and get_substring. False with get_char and get_byte: when the buffer is full, retrieving two bytes and producing two moves the whole buffer, so that the work can be quadratic (C88_char_quadratic, C88_char_not_linear)."
  },
  {
   "property": "C89",
   "status": "partial",
   "theorems": [
    "Verif.C89_gcm",
    "Verif.C89_gcm_any_iv",
    "Verif.C89_gcm_empty_iv",
    "Verif.C89_chacha20_partial",
    "Verif.C89_chacha20_states",
    "Verif.C89_ctr_depends",
    "Verif.C89_chacha20_mixed",
    "Verif.C89_chapoly_mixed",
    "Verif.C89_ctr"
   ],
   "note": "True of counter mode, of AES-GCM with 12-byte IVs, of ChaCha20 with IVs of the same length. With AES-GCM IVs of other lengths counters collide for at most 2^32 n hash subkeys out of 2^128 (C89_gcm_any_iv). False of ChaCha20 and ChaCha20-Poly1305 when IVs of 8 and 12 bytes are mixed: v and 0000v give the same keystream (C89_chacha20_mixed, C89_chapoly_mixed). The empty IV of AES-GCM is accepted although the standard forbids it, and then the tag of the empty message is the hash subkey (C89_gcm_empty_iv)."
  },
  {
   "property": "C90",
   "status": "proved",
   "theorems": [
    "Verif.C90_parity",
    "Verif.C90_two_keys",
    "Verif.C90_triple_is_single"
   ],
   "note": "C90_parity and C90_two_keys are equalities of the results of the constructors, hence of all later behaviour."
  },
  {
   "property": "C91",
   "status": "proved",
   "theorems": [
    "Verif.C91_aes",
    "Verif.C91_des",
    "Verif.C91_triple_des",
    "Verif.C91_blowfish"
   ],
   "note": ""
  },
  {
   "property": "C92",
   "status": "proved",
   "theorems": [
    "Verif.C92_blake3",
    "Verif.C92_blake3_256",
    "Verif.C92_blake2b",
    "Verif.C92_blake2b_512",
    "Verif.C92_blake2s",
    "Verif.C92_blake2s_256",
    "Verif.C92_hmac"
   ],
   "note": "Reductions for the digests of the models of the objects. The lists of applications of the compression function are defined in Spec/CallCollision.lean next to the definitions of the standards. HMAC: for any hash object that computes a function (instances: C31); different keys are not separated by HMAC (keys are padded with zeros)."
  },
  {
   "property": "C93",
   "status": "proved",
   "theorems": [
    "Verif.C93_pseudo_rng_seeds",
    "Verif.C93_pseudo_rng_aes_ctr_seeds",
    "Verif.C93_pseudo_rng_aes_ctr_no_repeat",
    "Verif.C93_pseudo_rng_aes_ctr_period",
    "Verif.C93_pseudo_rng_period",
    "Verif.C93_pseudo_rng_blocks"
   ],
   "note": "An example shows that a seed of 16 characters is not equivalent to the same seed followed by a zero."
  },
  {
   "property": "C94",
   "status": "partial",
   "theorems": [
    "Verif.C94_shared_secret_partial",
    "Verif.C94_same_secret_iff",
    "Verif.C94_forced_secret"
   ],
   "note": "False of the code: messages that are 0, 1 or -1 modulo p are accepted and force the secret (C94_forced_secret). In general two private secrets give the same shared secret if and only if they are equal modulo the order of the message (C94_same_secret_iff); for safe primes and other messages the property holds (C94_shared_secret_partial)."
  },
  {
   "property": "C95",
   "status": "partial",
   "theorems": [
    "Verif.C95_gcm_reveals_mask",
    "Verif.C95_gcm_tag_after_error",
    "Verif.C95_gcm_output_partial",
    "Verif.C95_chapoly_tag_after_error",
    "Verif.C95_chapoly_output_partial"
   ],
   "note": "False of the code: finish_and_get_tag of AES-GCM appends the ciphertext of the last bytes before it raises Message_too_long and, called again, appends them encrypted with the block that masks the tag (C95_gcm_reveals_mask); after a put method has raised the exception, finish_and_get_tag of both ciphers may return a tag (C95_gcm_tag_after_error, C95_chapoly_tag_after_error). Proved: the other methods never release more than the maximal length, whatever the calls and the exceptions caught, within 2^63 bytes given."
  },
  {
   "property": "C96",
   "status": "proved",
   "theorems": [
    "Verif.C96_rsa_new_key",
    "Verif.C96_rsa_new_key_fixed",
    "Verif.C96_paillier_new_key",
    "Verif.C96_paillier_encrypt",
    "Verif.C96_dh_new_parameters",
    "Verif.C96_dh_private_secret"
   ],
   "note": "Partial correctness: about the calls that return (those that wait for suitable numbers may never do). The prime that follows a number is that given by Z.nextprime, an assumed function of the library Zarith. Paillier.encrypt: for messages other than zero and odd moduli, as mod_power requires (see C55)."
  },
  {
   "property": "C97",
   "status": "partial",
   "theorems": [
    "Verif.C97_aes",
    "Verif.C97_des",
    "Verif.C97_triple_des",
    "Verif.C97_blowfish",
    "Verif.C97_arcfour",
    "Verif.C97_chacha20",
    "Verif.C97_aes_gcm",
    "Verif.C97_chacha20_poly1305",
    "Verif.C97_hex_encode",
    "Verif.C97_hex_decode",
    "Verif.C97_base64_encode",
    "Verif.C97_base64_decode",
    "Verif.C97_mac_aes",
    "Verif.C97_mac_des",
    "Verif.C97_mac_triple_des",
    "Verif.C97_aes_cmac",
    "Verif.C97_des_final_triple_des",
    "Verif.C97_sha1",
    "Verif.C97_ripemd160",
    "Verif.C97_sha2",
    "Verif.C97_sha3",
    "Verif.C97_blake2b",
    "Verif.C97_blake2s",
    "Verif.C97_siphash",
    "Verif.C97_hmac_sha1",
    "Verif.C97_hmac_ripemd160",
    "Verif.C97_hmac_sha256",
    "Verif.C97_hmac_sha384",
    "Verif.C97_hmac_sha512",
    "Verif.C97_blake3",
    "Verif.C97_zlib_compress_partial",
    "Verif.C97_zlib_uncompress_partial",
    "Verif.C97_zlib_leaks"
   ],
   "note": "Padding schemes: those of the library. BLAKE3: histories of less than 2^64 bytes. get_substring: the bytes within the range that it returns (the buffer itself, which the caller could inspect elsewhere, does contain uninitialised memory). MD5 has no such memory in the model. False of Zlib: 4 GiB of uninitialised memory appear in the output when the output waiting reaches 4 GiB (C97_zlib_leaks); it holds as long as at most 1 GiB of output is waiting after each call."
  },
  {
   "property": "C98",
   "status": "partial",
   "theorems": [
    "Verif.C98_win32_partial",
    "Verif.C98_win32_range",
    "Verif.C98_win32_wipe",
    "Verif.C98_win32_truncated",
    "Verif.C98_win32_string",
    "Verif.C98_choice",
    "Verif.C62_system_rng",
    "Verif.C62_system_rng_range"
   ],
   "note": "True with getentropy (C62_system_rng) and, on Windows, of requests of less than 2^32 bytes. False of longer ones on Windows: the length is truncated to 32 bits, and Random.string (Random.system_rng ()) 4294967296 returns uninitialised memory, without one random byte (C98_win32_string)."
  },
  {
   "property": "C99",
   "status": "partial",
   "theorems": [
    "Verif.C99_compression_error",
    "Verif.C99_not_supported",
    "Verif.C99_init_partial",
    "Verif.C99_version_mismatch",
    "Verif.C99_flush",
    "Verif.C99_des_direction",
    "Verif.C99_level_partial",
    "Verif.C99_level_truncated"
   ],
   "note": "False in two cases: if the version of zlib does not match, the message is read from a field that has not been initialised (C99_version_mismatch); levels are truncated to 32 bits, so that invalid ones can be accepted (C99_level_truncated)."
  }
 ]
}
