'Verif.C01_output_buffer_is_fifo' depends on axioms: [propext, Classical.choice, Quot.sound]
'Verif.C01_conservation' depends on axioms: [propext, Classical.choice, Quot.sound]
'Verif.C02_output_is_blockwise' depends on axioms: [propext, Classical.choice, Quot.sound]
'Verif.C02_cut_irrelevant' depends on axioms: [propext, Classical.choice, Quot.sound]
'Verif.C03_finish_wrong_data_length_iff' depends on axioms: [propext, Classical.choice, Quot.sound]
'Verif.C03_flush_wrong_data_length_iff' depends on axioms: [propext, Classical.choice, Quot.sound]
'Verif.C04_length_pad' depends on axioms: [propext, Classical.choice, Quot.sound]
'Verif.C04_length_strip_pad' depends on axioms: [propext, Classical.choice, Quot.sound]
'Verif.C04_length_strip_exact' depends on axioms: [propext, Classical.choice, Quot.sound]
'Verif.C04_8000_pad' depends on axioms: [propext, Classical.choice, Quot.sound]
'Verif.C04_8000_strip_pad' depends on axioms: [propext, Classical.choice, Quot.sound]
'Verif.C04_8000_strip_exact' depends on axioms: [propext, Classical.choice, Quot.sound]
'Verif.C05_padded_encrypt' depends on axioms: [propext, Classical.choice, Quot.sound]
'Verif.C05_round_trip' depends on axioms: [propext, Classical.choice, Quot.sound]
'Verif.C06_padded_decrypt' depends on axioms: [propext, Classical.choice, Quot.sound]
'Verif.C07_cbc_encrypt' depends on axioms: [propext, Classical.choice, Quot.sound]
'Verif.C07_cbc_decrypt' depends on axioms: [propext, Classical.choice, Quot.sound]
'Verif.C07_cbc_round_trip' depends on axioms: [propext, Classical.choice, Quot.sound]
'Verif.C08_cfb_encrypt' depends on axioms: [propext, Classical.choice, Quot.sound]
'Verif.C08_cfb_decrypt' depends on axioms: [propext, Classical.choice, Quot.sound]
'Verif.C08_segment_size' depends on axioms: [propext, Quot.sound]
'Verif.C08_cfb_round_trip' depends on axioms: [propext, Classical.choice, Quot.sound]
'Verif.C09_ofb' depends on axioms: [propext, Classical.choice, Quot.sound]
'Verif.C09_ofb_round_trip' depends on axioms: [propext, Classical.choice, Quot.sound]
'Verif.C10_ctr' depends on axioms: [propext, Classical.choice, Quot.sound]
'Verif.C10_ctr_round_trip' depends on axioms: [propext, Classical.choice, Quot.sound]
'Verif.C10_inc_size' depends on axioms: [propext, Quot.sound]
'Verif.C100_arcfour' depends on axioms: [propext, Quot.sound]
'Verif.C100_blowfish' depends on axioms: [propext, Quot.sound]
'Verif.C100_key_twice' depends on axioms: [propext, Classical.choice, Quot.sound]
'Verif.C100_hmac' depends on axioms: [propext, Classical.choice, Quot.sound]
'Verif.C100_hmac_block' depends on axioms: [propext, Quot.sound]
'Verif.C100_hmac_sha256_zero' depends on axioms: [propext, Classical.choice, Quot.sound]
'Verif.C100_chacha20' depends on axioms: [propext, Classical.choice, Quot.sound]
'Verif.C100_siphash' depends on axioms: [propext, Quot.sound]
'Verif.C100_blake2' depends on axioms: [propext, Classical.choice, Quot.sound]
'Verif.C100_blake3' depends on axioms: [propext, Quot.sound]
'Verif.C100_aes' depends on axioms: [propext, Classical.choice, Quot.sound]
'Verif.C101_forgery' depends on axioms: [propext, Classical.choice, Quot.sound]
'Verif.C101_fixed_length' depends on axioms: [propext, Classical.choice, Quot.sound]
'Verif.C101_one_block' depends on axioms: [propext, Classical.choice, Quot.sound]
'Verif.C101_cmac' depends on axioms: [propext, Classical.choice, Quot.sound]
'Verif.C101_cmac_one_block' depends on axioms: [propext, Classical.choice, Quot.sound]
'Verif.C101_cmac_subkeys' depends on axioms: [propext, Classical.choice, Quot.sound]
'Verif.C101_cmac_extension' depends on axioms: [propext, Classical.choice, Quot.sound]
'Verif.C102_rsa_permutation' depends on axioms: [propext, Classical.choice, Quot.sound]
'Verif.C102_rsa_product' depends on axioms: [propext, Classical.choice, Quot.sound]
'Verif.C102_rsa_forgery' depends on axioms: [propext, Classical.choice, Quot.sound]
'Verif.C102_paillier_unique' depends on axioms: [propext, Classical.choice, Quot.sound]
'Verif.C102_paillier_every_ciphertext' depends on axioms: [propext, Classical.choice, Quot.sound]
'Verif.C103_rsa_exponent' depends on axioms: [propext, Classical.choice, Quot.sound]
'Verif.C103_blinding_partial' depends on axioms: [propext, Classical.choice, Quot.sound]
'Verif.C103_blinding_range' depends on axioms: [propext, Classical.choice, Quot.sound]
'Verif.C103_blinding_fails' depends on axioms: [propext, Classical.choice, Quot.sound]
'Verif.C103_prime_gap' depends on axioms: [propext, Classical.choice, Quot.sound]
'Verif.C103_prime_fails' depends on axioms: [propext, Classical.choice, Quot.sound]
'Verif.C104_transform_string' depends on axioms: [propext, Quot.sound]
'Verif.C104_transform_channel' depends on axioms: [propext, Quot.sound]
'Verif.C104_hash_string' depends on axioms: [propext, Quot.sound]
'Verif.C104_hash_channel' depends on axioms: [propext, Quot.sound]
'Verif.C104_auth_transform_string_detached' depends on axioms: [propext, Quot.sound]
'Verif.C104_auth_transform_string' depends on axioms: [propext, Quot.sound]
'Verif.C104_auth_check_transform_string' depends on axioms: [propext, Quot.sound]
'Verif.C104_block_cipher' depends on axioms: [propext, Quot.sound]
'Verif.C104_stream_cipher' depends on axioms: [propext, Quot.sound]
'Verif.C104_chapoly' depends on axioms: [propext, Quot.sound]
'Verif.C104_macs' depends on axioms: [propext, Quot.sound]
'Verif.C104_exception_keeps_key' depends on axioms: [propext, Quot.sound]
'Verif.C37_too_short' depends on axioms: [propext, Quot.sound]
'Verif.C105_tower' depends on axioms: [propext, Classical.choice, Quot.sound]
'Verif.C105_round_trip' depends on axioms: [propext, Classical.choice, Quot.sound]
'Verif.C105_single' depends on axioms: [propext, Quot.sound]
'Verif.C105_aes' depends on axioms: [propext, Classical.choice, Quot.sound]
'Verif.C105_des' depends on axioms: [propext, Classical.choice, Quot.sound]
'Verif.C105_triple_des' depends on axioms: [propext, Classical.choice, Quot.sound]
'Verif.C105_blowfish' depends on axioms: [propext, Classical.choice, Quot.sound]
'Verif.C106_pseudo_rng_exact' depends on axioms: [propext, Classical.choice, Quot.sound]
'Verif.C106_pseudo_rng_aes_ctr_exact' depends on axioms: [propext, Classical.choice, Quot.sound]
'Verif.C106_pseudo_rng_partial' depends on axioms: [propext, Classical.choice, Quot.sound]
'Verif.C106_pseudo_rng_aes_ctr_partial' depends on axioms: [propext, Classical.choice, Quot.sound]
'Verif.C106_pseudo_rng_predictable' depends on axioms: [propext, Classical.choice, Quot.sound]
'Verif.C106_pseudo_rng_aes_ctr_predictable' depends on axioms: [propext, Classical.choice, Quot.sound]
'Verif.C106_pseudo_rng_fails' depends on axioms: [propext, Classical.choice, Quot.sound]
'Verif.C107_secret_use_exact' depends on axioms: [propext, Classical.choice, Quot.sound]
'Verif.C107_secret_use_partial' depends on axioms: [propext, Classical.choice, Quot.sound]
'Verif.C107_short_secret_survives' depends on axioms: [propext, Classical.choice, Quot.sound]
'Verif.C107_secret_use_fails' depends on axioms: [propext, Classical.choice, Quot.sound]
'Verif.C107_exception_keeps' depends on axioms: [propext]
'Verif.C108_aes' depends on axioms: [propext, Classical.choice, Quot.sound]
'Verif.C108_des' depends on axioms: [propext, Classical.choice, Quot.sound]
'Verif.C108_triple_des' depends on axioms: [propext, Classical.choice, Quot.sound]
'Verif.C108_blowfish' depends on axioms: [propext, Classical.choice, Quot.sound]
'Verif.C108_arcfour' depends on axioms: [propext, Classical.choice, Quot.sound]
'Verif.C108_chacha20' depends on axioms: [propext, Classical.choice, Quot.sound]
'Verif.C108_aes_gcm' depends on axioms: [propext, Classical.choice, Quot.sound]
'Verif.C108_chacha20_poly1305' depends on axioms: [propext, Classical.choice, Quot.sound]
'Verif.C109_tally_partial' depends on axioms: [propext, Classical.choice, Quot.sound]
'Verif.C109_tally_order' depends on axioms: [propext, Classical.choice, Quot.sound]
'Verif.C11_no_counter_reuse' depends on axioms: [propext, Classical.choice, Quot.sound]
'Verif.C110_transform_channel' depends on axioms: [propext, Classical.choice, Quot.sound]
'Verif.C110_hash_channel' depends on axioms: [propext, Classical.choice, Quot.sound]
'Verif.C111_transform_channel_partial' depends on axioms: [propext, Classical.choice, Quot.sound]
'Verif.C111_hash_channel_partial' depends on axioms: [propext, Classical.choice, Quot.sound]
'Verif.C111_hash_channel_keeps' depends on axioms: [propext, Classical.choice, Quot.sound]
'Verif.C112_pipeline' depends on axioms: [propext, Classical.choice, Quot.sound]
'Verif.C112_grouping' depends on axioms: [propext, Classical.choice, Quot.sound]
'Verif.C112_channel' depends on axioms: [propext, Classical.choice, Quot.sound]
'Verif.C113_sha1' depends on axioms: [propext, Classical.choice, Quot.sound]
'Verif.C113_sha256' depends on axioms: [propext, Classical.choice, Quot.sound]
'Verif.C113_sha512' depends on axioms: [propext, Classical.choice, Quot.sound]
'Verif.C113_ripemd160' depends on axioms: [propext, Classical.choice, Quot.sound]
'Verif.C113_md5' depends on axioms: [propext, Classical.choice, Quot.sound]
'Verif.C114_sha3' depends on axioms: [propext, Classical.choice, Quot.sound]
'Verif.C114_permutation' depends on axioms: [propext, Classical.choice, Quot.sound]
'Verif.C115_aes' depends on axioms: [propext, Classical.choice, Quot.sound]
'Verif.C115_des' depends on axioms: [propext, Classical.choice, Quot.sound]
'Verif.C115_triple_des' depends on axioms: [propext, Classical.choice, Quot.sound]
'Verif.C115_blowfish' depends on axioms: [propext, Classical.choice, Quot.sound]
'Verif.C115_arcfour' depends on axioms: [propext, Classical.choice, Quot.sound]
'Verif.C115_chacha20' depends on axioms: [propext, Classical.choice, Quot.sound]
'Verif.C115_aes_gcm' depends on axioms: [propext, Classical.choice, Quot.sound]
'Verif.C115_chapoly_encrypt' depends on axioms: [propext, Classical.choice, Quot.sound]
'Verif.C115_chapoly_decrypt' depends on axioms: [propext, Classical.choice, Quot.sound]
'Verif.C115_quiet_cipher' depends on axioms: [propext, Classical.choice, Quot.sound]
'Verif.C115_quiet_modes' depends on axioms: [propext, Quot.sound]
'Verif.C115_quiet_stream' depends on axioms: [propext, Quot.sound]
'Verif.C115_quiet_aead' depends on axioms: [propext, Classical.choice, Quot.sound]
'Verif.C115_mac_des' depends on axioms: [propext, Classical.choice, Quot.sound]
'Verif.C115_mac_triple_des' depends on axioms: [propext, Classical.choice, Quot.sound]
'Verif.C115_mac_des_final_triple_des' depends on axioms: [propext, Classical.choice, Quot.sound]
'Verif.C115_mac_aes' depends on axioms: [propext, Classical.choice, Quot.sound]
'Verif.C115_mac_aes_cmac' depends on axioms: [propext, Classical.choice, Quot.sound]
'Verif.C115_quiet_mac' depends on axioms: [propext, Classical.choice, Quot.sound]
'Verif.C115_not_atomic' depends on axioms: [propext, Quot.sound]
'Verif.C115_output_lost' depends on axioms: [propext, Quot.sound]
'Verif.C115_aead_rejected' depends on axioms: [propext, Classical.choice, Quot.sound]
'Verif.C115_mac_wrong' depends on axioms: [propext, Classical.choice, Quot.sound]
'Verif.C115_mac_result_wrong' depends on axioms: [propext, Classical.choice, Quot.sound]
'Verif.C115_zlib' depends on axioms: [propext, Classical.choice, Quot.sound]
'Verif.C115_quiet_zlib' depends on axioms: [propext, Quot.sound]
'Verif.C115_zlib_lost' depends on axioms: [propext, Quot.sound]
'Verif.C115_codecs' depends on axioms: [propext, Classical.choice, Quot.sound]
'Verif.C115_quiet_codecs' depends on axioms: [propext, Classical.choice, Quot.sound]
'Verif.C115_codecs_unusable' depends on axioms: [propext, Classical.choice, Quot.sound]
'Verif.C115_base64_lost' depends on axioms: [propext, Classical.choice, Quot.sound]
'Verif.C115_compose' depends on axioms: [propext, Quot.sound]
'Verif.C115_quiet_compose' depends on axioms: [Quot.sound]
'Verif.C115_compose_lost' depends on axioms: [propext]
'Verif.C115_transform_and_hash' depends on axioms: [propext, Quot.sound]
'Verif.C115_transform_then_hash' depends on axioms: [propext, Classical.choice, Quot.sound]
'Verif.C115_quiet_auth' depends on axioms: [propext, Quot.sound]
'Verif.C115_not_authenticated' depends on axioms: [propext]
'Verif.C116_ctr_partial' depends on axioms: [propext, Classical.choice, Quot.sound]
'Verif.C116_reuse' depends on axioms: [propext, Classical.choice, Quot.sound]
'Verif.C116_limit' depends on axioms: [propext, Quot.sound]
'Verif.C116_gcm_partial' depends on axioms: [propext, Classical.choice, Quot.sound]
'Verif.C116_gcm_reuse' depends on axioms: [propext, Classical.choice, Quot.sound]
'Verif.C117_pseudo_rng' depends on axioms: [propext, Classical.choice, Quot.sound]
'Verif.C117_aes_ctr_partial' depends on axioms: [propext, Classical.choice, Quot.sound]
'Verif.C117_repeats' depends on axioms: [propext, Classical.choice, Quot.sound]
'Verif.C117_quiet' depends on axioms: [propext, Quot.sound]
'Verif.C118_all_or_nothing' depends on axioms: [propext, Quot.sound]
'Verif.C118_sha1' depends on axioms: [propext, Classical.choice, Quot.sound]
'Verif.C118_sha224' depends on axioms: [propext, Classical.choice, Quot.sound]
'Verif.C118_sha256' depends on axioms: [propext, Classical.choice, Quot.sound]
'Verif.C118_sha384' depends on axioms: [propext, Classical.choice, Quot.sound]
'Verif.C118_sha512' depends on axioms: [propext, Classical.choice, Quot.sound]
'Verif.C118_ripemd160' depends on axioms: [propext, Classical.choice, Quot.sound]
'Verif.C118_sha3' depends on axioms: [propext, Classical.choice, Quot.sound]
'Verif.C118_keccak' depends on axioms: [propext, Classical.choice, Quot.sound]
'Verif.C118_blake2b' depends on axioms: [propext, Classical.choice, Quot.sound]
'Verif.C118_blake2s' depends on axioms: [propext, Classical.choice, Quot.sound]
'Verif.C118_siphash' depends on axioms: [propext, Classical.choice, Quot.sound]
'Verif.C118_siphash128' depends on axioms: [propext, Classical.choice, Quot.sound]
'Verif.C118_hmac' depends on axioms: [propext, Classical.choice, Quot.sound]
'Verif.C118_hmac_sha1' depends on axioms: [propext, Classical.choice, Quot.sound]
'Verif.C118_hmac_sha256' depends on axioms: [propext, Classical.choice, Quot.sound]
'Verif.C118_hmac_sha384' depends on axioms: [propext, Classical.choice, Quot.sound]
'Verif.C118_hmac_sha512' depends on axioms: [propext, Classical.choice, Quot.sound]
'Verif.C118_hmac_ripemd160' depends on axioms: [propext, Classical.choice, Quot.sound]
'Verif.C118_safe' depends on axioms: [propext, Quot.sound]
'Verif.C118_hmac_safe' depends on axioms: [propext, Quot.sound]
'Verif.C118_result_again' depends on axioms: [propext, Classical.choice, Quot.sound]
'Verif.C118_quiet' depends on axioms: [propext]
'Verif.C118_hmac_quiet' depends on axioms: [propext, Quot.sound]
'Verif.C118_blake3' depends on axioms: [propext, Classical.choice, Quot.sound]
'Verif.C118_blake3_result' depends on axioms: [propext, Quot.sound]
'Verif.C118_md5' depends on axioms: [propext, Quot.sound]
'Verif.C118_hmac_md5' depends on axioms: [propext, Classical.choice, Quot.sound]
'Verif.C12_in_place' depends on axioms: [propext, Classical.choice, Quot.sound]
'Verif.C12_states' depends on axioms: [propext, Classical.choice, Quot.sound]
'Verif.C13_ciphers' depends on axioms: [propext, Classical.choice, Quot.sound]
'Verif.C13_cbc_decrypt' depends on axioms: [propext, Classical.choice, Quot.sound]
'Verif.C13_cfb_encrypt' depends on axioms: [propext, Quot.sound]
'Verif.C13_cfb_decrypt' depends on axioms: [propext, Classical.choice, Quot.sound]
'Verif.C13_ofb' depends on axioms: [propext, Quot.sound]
'Verif.C13_ctr' depends on axioms: [propext, Quot.sound]
'Verif.C13_cbc_encrypt_partial' depends on axioms: [propext, Classical.choice, Quot.sound]
'Verif.C13_cbc_encrypt_source_unchecked' depends on axioms: [propext, Classical.choice, Quot.sound]
'Verif.C14_arcfour_key_size' depends on axioms: [propext, Classical.choice, Quot.sound]
'Verif.C14_blake2b_args' depends on axioms: [propext, Classical.choice, Quot.sound]
'Verif.C14_blake2s_args' depends on axioms: [propext, Classical.choice, Quot.sound]
'Verif.C14_blake3_args' depends on axioms: [propext, Classical.choice, Quot.sound]
'Verif.C14_chacha20_args' depends on axioms: [propext, Classical.choice, Quot.sound]
'Verif.C14_chapoly_args' depends on axioms: [propext, Classical.choice, Quot.sound]
'Verif.C14_sha2' depends on axioms: [propext, Quot.sound]
'Verif.C14_sha3_size' depends on axioms: [propext]
'Verif.C14_siphash_key_size' depends on axioms: [propext, Quot.sound]
'Verif.C14_mac_iv' depends on axioms: [propext, Quot.sound]
'Verif.C14_aes_key_size' depends on axioms: [propext, Classical.choice, Quot.sound]
'Verif.C14_des_key_size' depends on axioms: [propext, Classical.choice, Quot.sound]
'Verif.C14_blowfish_key_size' depends on axioms: [propext, Quot.sound]
'Verif.C14_cipher_aes' depends on axioms: [propext, Classical.choice, Quot.sound]
'Verif.C14_cipher_des' depends on axioms: [propext, Classical.choice, Quot.sound]
'Verif.C14_cipher_triple_des' depends on axioms: [propext, Classical.choice, Quot.sound]
'Verif.C14_cipher_blowfish' depends on axioms: [propext, Classical.choice, Quot.sound]
'Verif.C15_mac_aes' depends on axioms: [propext, Classical.choice, Quot.sound]
'Verif.C15_mac_des' depends on axioms: [propext, Classical.choice, Quot.sound]
'Verif.C15_mac_triple_des' depends on axioms: [propext, Classical.choice, Quot.sound]
'Verif.C16_des_final_triple_des' depends on axioms: [propext, Classical.choice, Quot.sound]
'Verif.C17_mac_aes_cmac' depends on axioms: [propext, Classical.choice, Quot.sound]
'Verif.C34_aead_aes_gcm' depends on axioms: [propext, Classical.choice, Quot.sound]
'Verif.C15_mac' depends on axioms: [propext, Classical.choice, Quot.sound]
'Verif.C15_mac_padded' depends on axioms: [propext, Classical.choice, Quot.sound]
'Verif.C16_mac_final_triple' depends on axioms: [propext, Classical.choice, Quot.sound]
'Verif.C16_mac_final_triple_padded' depends on axioms: [propext, Classical.choice, Quot.sound]
'Verif.C16_block_sizes' depends on axioms: [propext, Classical.choice, Quot.sound]
'Verif.C17_cmac' depends on axioms: [propext, Classical.choice, Quot.sound]
'Verif.C17_aes_cmac' depends on axioms: [propext, Classical.choice, Quot.sound]
'Verif.C18_stream_transform' depends on axioms: [propext, Classical.choice, Quot.sound]
'Verif.C18_stream_round_trip' depends on axioms: [propext, Classical.choice, Quot.sound]
'Verif.C18_direct_calls' depends on axioms: [propext, Quot.sound]
'Verif.C19_arcfour_is_rc4' depends on axioms: [propext, Classical.choice, Quot.sound]
'Verif.C19_arcfour_calls' depends on axioms: [propext, Classical.choice, Quot.sound]
'Verif.C20_chacha20' depends on axioms: [propext, Classical.choice, Quot.sound]
'Verif.C20_chacha20_calls' depends on axioms: [propext, Classical.choice, Quot.sound]
'Verif.C21_chacha20_blocks_distinct_partial' depends on axioms: [propext, Classical.choice, Quot.sound]
'Verif.C21_chacha20_reuses_keystream' depends on axioms: [propext, Classical.choice, Quot.sound]
'Verif.C22_sha1' depends on axioms: [propext, Classical.choice, Quot.sound]
'Verif.C23_sha224' depends on axioms: [propext, Classical.choice, Quot.sound]
'Verif.C23_sha256' depends on axioms: [propext, Classical.choice, Quot.sound]
'Verif.C23_sha256_hash_string' depends on axioms: [propext, Classical.choice, Quot.sound]
'Verif.C24_sha384' depends on axioms: [propext, Classical.choice, Quot.sound]
'Verif.C24_sha512' depends on axioms: [propext, Classical.choice, Quot.sound]
'Verif.C25_sha1_partial' depends on axioms: [propext, Classical.choice, Quot.sound]
'Verif.C25_sha256_partial' depends on axioms: [propext, Classical.choice, Quot.sound]
'Verif.C25_sha384_partial' depends on axioms: [propext, Classical.choice, Quot.sound]
'Verif.C25_sha512_partial' depends on axioms: [propext, Classical.choice, Quot.sound]
'Verif.C25_sha3_partial' depends on axioms: [propext, Classical.choice, Quot.sound]
'Verif.C25_blake2b_partial' depends on axioms: [propext, Classical.choice, Quot.sound]
'Verif.C25_blake2s_partial' depends on axioms: [propext, Classical.choice, Quot.sound]
'Verif.C25_blake3_partial' depends on axioms: [propext, Classical.choice, Quot.sound]
'Verif.C25_siphash_partial' depends on axioms: [propext, Classical.choice, Quot.sound]
'Verif.C25_siphash128_partial' depends on axioms: [propext, Classical.choice, Quot.sound]
'Verif.C25_hmac_partial' depends on axioms: [propext, Classical.choice, Quot.sound]
'Verif.C25_md5_partial' depends on axioms: [propext, Quot.sound]
'Verif.C25_sha224_wrong_size' depends on axioms: [propext, Classical.choice, Quot.sound]
'Verif.C25_ripemd160_wrong_size' depends on axioms: [propext, Classical.choice, Quot.sound]
'Verif.C25_hmac_ripemd160_wrong_size' depends on axioms: [propext, Classical.choice, Quot.sound]
'Verif.C26_ripemd160' depends on axioms: [propext, Classical.choice, Quot.sound]
'Verif.C27_sha3' depends on axioms: [propext, Classical.choice, Quot.sound]
'Verif.C27_keccak' depends on axioms: [propext, Classical.choice, Quot.sound]
'Verif.C28_blake2b' depends on axioms: [propext, Classical.choice, Quot.sound]
'Verif.C28_blake2s' depends on axioms: [propext, Classical.choice, Quot.sound]
'Verif.C29_blake3' depends on axioms: [propext, Classical.choice, Quot.sound]
'Verif.C29_blake3_incremental' depends on axioms: [propext, Classical.choice, Quot.sound]
'Verif.C30_siphash' depends on axioms: [propext, Classical.choice, Quot.sound]
'Verif.C30_siphash128' depends on axioms: [propext, Classical.choice, Quot.sound]
'Verif.C31_hmac' depends on axioms: [propext, Classical.choice, Quot.sound]
'Verif.C31_hmac_sha1' depends on axioms: [propext, Classical.choice, Quot.sound]
'Verif.C31_hmac_sha256' depends on axioms: [propext, Classical.choice, Quot.sound]
'Verif.C31_hmac_sha384' depends on axioms: [propext, Classical.choice, Quot.sound]
'Verif.C31_hmac_sha512' depends on axioms: [propext, Classical.choice, Quot.sound]
'Verif.C31_hmac_ripemd160' depends on axioms: [propext, Classical.choice, Quot.sound]
'Verif.C32_poly1305' depends on axioms: [propext, Classical.choice, Quot.sound]
'Verif.C32_poly1305_32' depends on axioms: [propext, Classical.choice, Quot.sound]
'Verif.C33_ghash' depends on axioms: [propext, Classical.choice, Quot.sound]
'Verif.C33_agree' depends on axioms: [propext, Classical.choice, Quot.sound]
'Verif.C33_field' depends on axioms: [propext, Classical.choice, Quot.sound]
'Verif.C34_gcm_encrypt' depends on axioms: [propext, Classical.choice, Quot.sound]
'Verif.C34_gcm_decrypt' depends on axioms: [propext, Classical.choice, Quot.sound]
'Verif.C34_aes_gcm_encrypt' depends on axioms: [propext, Classical.choice, Quot.sound]
'Verif.C34_aes_gcm_decrypt' depends on axioms: [propext, Classical.choice, Quot.sound]
'Verif.C35_chapoly_encrypt' depends on axioms: [propext, Classical.choice, Quot.sound]
'Verif.C35_chapoly_decrypt' depends on axioms: [propext, Classical.choice, Quot.sound]
'Verif.C36_gcm_roundtrip' depends on axioms: [propext, Classical.choice, Quot.sound]
'Verif.C36_aes_gcm_roundtrip' depends on axioms: [propext, Classical.choice, Quot.sound]
'Verif.C36_chapoly_roundtrip' depends on axioms: [propext, Classical.choice, Quot.sound]
'Verif.C37_check' depends on axioms: [propext, Classical.choice, Quot.sound]
'Verif.C37_put_exn' depends on axioms: [propext, Classical.choice, Quot.sound]
'Verif.C37_finish_exn' depends on axioms: [propext, Classical.choice, Quot.sound]
'Verif.C37_gcm' depends on axioms: [propext, Classical.choice, Quot.sound]
'Verif.C37_chapoly' depends on axioms: [propext, Classical.choice, Quot.sound]
'Verif.C38_gcm_counters' depends on axioms: [propext, Classical.choice, Quot.sound]
'Verif.C38_gcm_blocks' depends on axioms: [propext, Quot.sound]
'Verif.C38_chapoly_blocks_distinct_partial' depends on axioms: [propext, Classical.choice, Quot.sound]
'Verif.C38_chapoly_leaks_poly1305_key' depends on axioms: [propext, Classical.choice, Quot.sound]
'Verif.C39_equality' depends on axioms: [propext, Quot.sound]
'Verif.C39_access_pattern' depends on axioms: [propext, Quot.sound]
'Verif.C40_out_of_bounds' depends on axioms: [propext, Classical.choice, Quot.sound]
'Verif.C40_xor' depends on axioms: [propext, Classical.choice, Quot.sound]
'Verif.C40_involutive' depends on axioms: [propext, Classical.choice, Quot.sound]
'Verif.C41_aes_encrypt' depends on axioms: [propext, Classical.choice, Quot.sound]
'Verif.C41_aes_decrypt' depends on axioms: [propext, Classical.choice, Quot.sound]
'Verif.C41_aes_inverse' depends on axioms: [propext, Classical.choice, Quot.sound]
'Verif.C41_aes_round_trip' depends on axioms: [propext, Classical.choice, Quot.sound]
'Verif.C41_spec_inv' depends on axioms: [propext, Quot.sound]
'Verif.C42_aesni_encrypt' depends on axioms: [propext, Classical.choice, Quot.sound]
'Verif.C42_aesni_decrypt' depends on axioms: [propext, Classical.choice, Quot.sound]
'Verif.C42_aesni_fips197' depends on axioms: [propext, Classical.choice, Quot.sound]
'Verif.C43_des' depends on axioms: [propext, Classical.choice, Quot.sound]
'Verif.C43_triple_des' depends on axioms: [propext, Classical.choice, Quot.sound]
'Verif.C43_inverse' depends on axioms: [propext, Classical.choice, Quot.sound]
'Verif.C43_parity' depends on axioms: [propext, Classical.choice, Quot.sound]
'Verif.C44_blowfish' depends on axioms: [propext, Classical.choice, Quot.sound]
'Verif.C44_inverse' depends on axioms: [propext, Classical.choice, Quot.sound]
'Verif.C45_encode_compact' depends on axioms: [propext, Classical.choice, Quot.sound]
'Verif.C45_round_trip' depends on axioms: [propext, Classical.choice, Quot.sound]
'Verif.C45_flush' depends on axioms: [propext, Classical.choice, Quot.sound]
'Verif.C46_encode_multiline' depends on axioms: [propext, Classical.choice, Quot.sound]
'Verif.C46_lines' depends on axioms: [propext, Classical.choice, Quot.sound]
'Verif.C46_newlines' depends on axioms: [propext, Classical.choice, Quot.sound]
'Verif.C47_accepts' depends on axioms: [propext, Classical.choice, Quot.sound]
'Verif.C47_rejects' depends on axioms: [propext, Classical.choice, Quot.sound]
'Verif.C48_encode' depends on axioms: [propext, Classical.choice, Quot.sound]
'Verif.C48_encode_shape' depends on axioms: [propext, Classical.choice, Quot.sound]
'Verif.C48_accepts' depends on axioms: [propext, Classical.choice, Quot.sound]
'Verif.C48_rejects' depends on axioms: [propext, Classical.choice, Quot.sound]
'Verif.C48_round_trip' depends on axioms: [propext, Classical.choice, Quot.sound]
'Verif.C48_put_byte_range' depends on axioms: [propext, Classical.choice, Quot.sound]
'Verif.C49_compose' depends on axioms: [propext, Classical.choice, Quot.sound]
'Verif.C49_errors' depends on axioms: [propext, Quot.sound]
'Verif.C49_hex_identity' depends on axioms: [propext, Classical.choice, Quot.sound]
'Verif.C50_transform_channel' depends on axioms: [propext, Classical.choice, Quot.sound]
'Verif.C50_end_of_file' depends on axioms: [propext, Classical.choice, Quot.sound]
'Verif.C51_hash_channel' depends on axioms: [propext, Classical.choice, Quot.sound]
'Verif.C51_end_of_file' depends on axioms: [propext, Classical.choice, Quot.sound]
'Verif.C52_then_hash' depends on axioms: [propext, Classical.choice, Quot.sound]
'Verif.C52_then_hash_errors' depends on axioms: [propext, Quot.sound]
'Verif.C52_and_hash' depends on axioms: [propext, Quot.sound]
'Verif.C52_check' depends on axioms: [propext, Classical.choice, Quot.sound]
'Verif.C52_check_wrong_size' depends on axioms: [propext, Classical.choice, Quot.sound]
'Verif.C52_sha224_never_accepted' depends on axioms: [propext, Classical.choice, Quot.sound]
'Verif.C53_rsa_decrypt_encrypt' depends on axioms: [propext, Classical.choice, Quot.sound]
'Verif.C53_rsa_unwrap_sign' depends on axioms: [propext, Classical.choice, Quot.sound]
'Verif.C53_rsa_new_key' depends on axioms: [propext, Classical.choice, Quot.sound]
'Verif.C54_rsa_encrypt_too_long' depends on axioms: [propext, Classical.choice, Quot.sound]
'Verif.C54_rsa_decrypt_too_long' depends on axioms: [propext, Classical.choice, Quot.sound]
'Verif.C54_rsa_decrypt_CRT_too_long' depends on axioms: [propext, Classical.choice, Quot.sound]
'Verif.C54_rsa_encrypt_partial' depends on axioms: [propext, Classical.choice, Quot.sound]
'Verif.C54_rsa_unaligned_fails' depends on axioms: [propext]
'Verif.C54_rsa_new_key_sizes' depends on axioms: [propext, Classical.choice, Quot.sound]
'Verif.C55_paillier_partial' depends on axioms: [propext, Classical.choice, Quot.sound]
'Verif.C55_paillier_encrypt_ok' depends on axioms: [propext, Classical.choice, Quot.sound]
'Verif.C55_paillier_zero_fails' depends on axioms: [propext, Quot.sound]
'Verif.C56_paillier_add_partial' depends on axioms: [propext, Classical.choice, Quot.sound]
'Verif.C56_paillier_add_homomorphism' depends on axioms: [propext, Classical.choice, Quot.sound]
'Verif.C57_dh_agreement' depends on axioms: [propext, Classical.choice, Quot.sound]
'Verif.C57_dh_agreement_partial' depends on axioms: [propext, Classical.choice, Quot.sound]
'Verif.C57_dh_unaligned_fails' depends on axioms: [propext]
'Verif.C57_dh_secret_used_once' depends on axioms: [propext, Quot.sound]
'Verif.C58_derive_key' depends on axioms: [propext, Classical.choice, Quot.sound]
'Verif.C58_derive_key_length' depends on axioms: [propext, Classical.choice, Quot.sound]
'Verif.C58_derive_key_prefix' depends on axioms: [propext, Classical.choice, Quot.sound]
'Verif.C58_derive_key_refuses' depends on axioms: [propext, Quot.sound]
'Verif.C59_of_bytes' depends on axioms: [propext, Quot.sound]
'Verif.C59_to_bytes' depends on axioms: [propext, Classical.choice, Quot.sound]
'Verif.C59_to_bytes_size' depends on axioms: [propext, Classical.choice, Quot.sound]
'Verif.C59_to_bytes_size_partial' depends on axioms: [propext, Classical.choice, Quot.sound]
'Verif.C59_to_bytes_exact' depends on axioms: [propext, Classical.choice, Quot.sound]
'Verif.C59_to_bytes_unaligned_fails' does not depend on any axioms
'Verif.C60_mod_power_partial' depends on axioms: [propext, Classical.choice, Quot.sound]
'Verif.C60_mod_mult_partial' depends on axioms: [propext, Classical.choice, Quot.sound]
'Verif.C60_mod_power_sound' depends on axioms: [propext, Classical.choice, Quot.sound]
'Verif.C60_mod_mult_sound' depends on axioms: [propext, Classical.choice, Quot.sound]
'Verif.C60_mod_power_unaligned_fails' depends on axioms: [propext]
'Verif.C60_mod_mult_unaligned_fails' depends on axioms: [propext]
'Verif.C60_mod_power_zero_fails' depends on axioms: [propext, Quot.sound]
'Verif.C60_mod_power_even_fails' depends on axioms: [propext, Quot.sound]
'Verif.C61_pseudo_rng' depends on axioms: [propext, Classical.choice, Quot.sound]
'Verif.C61_pseudo_rng_seed' depends on axioms: [propext, Classical.choice, Quot.sound]
'Verif.C61_pseudo_rng_range' depends on axioms: [propext, Classical.choice, Quot.sound]
'Verif.C61_pseudo_rng_aes_ctr' depends on axioms: [propext, Classical.choice, Quot.sound]
'Verif.C61_pseudo_rng_aes_ctr_seed' depends on axioms: [propext, Classical.choice, Quot.sound]
'Verif.C61_pseudo_rng_aes_ctr_nothing' depends on axioms: [propext, Quot.sound]
'Verif.C61_pseudo_rng_aes_ctr_range' depends on axioms: [propext, Classical.choice, Quot.sound]
'Verif.C61_random_string' depends on axioms: [propext, Classical.choice, Quot.sound]
'Verif.C62_system_rng' depends on axioms: [propext, Classical.choice, Quot.sound]
'Verif.C62_system_rng_range' depends on axioms: [propext, Classical.choice, Quot.sound]
'Verif.C62_device_rng' depends on axioms: [propext, Classical.choice, Quot.sound]
'Verif.C62_device_rng_range' depends on axioms: [propext, Classical.choice, Quot.sound]
'Verif.C62_device_rng_wiped' depends on axioms: [propext, Classical.choice, Quot.sound]
'Verif.C62_hardware_rng' depends on axioms: [propext, Classical.choice, Quot.sound]
'Verif.C62_hardware_rng_range' depends on axioms: [propext, Classical.choice, Quot.sound]
'Verif.C62_hardware_available' depends on axioms: [propext, Quot.sound]
'Verif.C62_secure_rng' depends on axioms: [propext]
'Verif.C63_key_schedules_partial' depends on axioms: [propext, Quot.sound]
'Verif.C63_poly1305_finish' depends on axioms: [propext, Quot.sound]
'Verif.C63_modes' depends on axioms: [propext, Quot.sound]
'Verif.C63_block_transform' depends on axioms: [propext, Quot.sound]
'Verif.C63_block_transform_forgets' depends on axioms: [propext, Quot.sound]
'Verif.C63_stream_keys' depends on axioms: [propext, Quot.sound]
'Verif.C63_stream_transform' depends on axioms: [propext, Quot.sound]
'Verif.C63_chapoly' depends on axioms: [propext, Quot.sound]
'Verif.C63_macs' depends on axioms: [propext, Quot.sound]
'Verif.C63_sha1_ripemd160' depends on axioms: [propext, Quot.sound]
'Verif.C63_sha2' depends on axioms: [propext, Quot.sound]
'Verif.C63_blake2' depends on axioms: [propext, Quot.sound]
'Verif.C63_siphash' depends on axioms: [propext, Quot.sound]
'Verif.C63_released_partial' depends on axioms: [propext, Quot.sound]
'Verif.C63_codecs' depends on axioms: [propext, Classical.choice, Quot.sound]
'Verif.C63_combinations' depends on axioms: [propext, Quot.sound]
'Verif.C63_pseudo_rng' depends on axioms: [propext, Quot.sound]
'Verif.C65_cipher_des' depends on axioms: [propext, Classical.choice, Quot.sound]
'Verif.C65_cipher_triple_des' depends on axioms: [propext, Classical.choice, Quot.sound]
'Verif.C65_cipher_blowfish' depends on axioms: [propext, Classical.choice, Quot.sound]
'Verif.C65_cipher_arcfour' depends on axioms: [propext, Classical.choice, Quot.sound]
'Verif.C65_cipher_chacha20' depends on axioms: [propext, Classical.choice, Quot.sound]
'Verif.C65_mac_des' depends on axioms: [propext, Classical.choice, Quot.sound]
'Verif.C65_mac_triple_des' depends on axioms: [propext, Classical.choice, Quot.sound]
'Verif.C65_mac_des_final_triple_des' depends on axioms: [propext, Classical.choice, Quot.sound]
'Verif.C65_chapoly_encrypt' depends on axioms: [propext, Classical.choice, Quot.sound]
'Verif.C65_codecs' depends on axioms: [propext, Classical.choice, Quot.sound]
'Verif.C65_sha1' depends on axioms: [propext, Classical.choice, Quot.sound]
'Verif.C65_ripemd160' depends on axioms: [propext, Classical.choice, Quot.sound]
'Verif.C65_sha2' depends on axioms: [propext, Classical.choice, Quot.sound]
'Verif.C65_blake2b' depends on axioms: [propext, Classical.choice, Quot.sound]
'Verif.C65_blake2s' depends on axioms: [propext, Classical.choice, Quot.sound]
'Verif.C65_siphash' depends on axioms: [propext, Classical.choice, Quot.sound]
'Verif.C63_des_after_wipe' depends on axioms: [propext, Classical.choice, Quot.sound]
'Verif.C63_blowfish_after_wipe' depends on axioms: [propext, Classical.choice, Quot.sound]
'Verif.C63_gcm_wipe_incomplete' depends on axioms: [propext, Classical.choice, Quot.sound]
'Verif.C63_aes_wipe_zero' depends on axioms: [propext, Quot.sound]
'Verif.C63_aes_encrypt_after_wipe_out_of_bounds' depends on axioms: [propext, Classical.choice, Quot.sound]
'Verif.C63_blake3_after_wipe' depends on axioms: [propext, Quot.sound]
'Verif.C63_sha3_after_wipe' depends on axioms: [propext, Quot.sound]
'Verif.C63_pseudo_rng_aes_ctr_wipe_ineffective' depends on axioms: [propext, Classical.choice, Quot.sound]
'Verif.C64_compress_partial' depends on axioms: [propext, Classical.choice, Quot.sound]
'Verif.C64_compress_init' depends on axioms: [propext]
'Verif.C64_compress_large_string' depends on axioms: [propext, Classical.choice, Quot.sound]
'Verif.C64_compress_flush_twice' depends on axioms: [propext, Classical.choice, Quot.sound]
'Verif.C64_uncompress_partial' depends on axioms: [propext, Classical.choice, Quot.sound]
'Verif.C64_uncompress_garbage' depends on axioms: [propext, Classical.choice, Quot.sound]
'Verif.C64_round_trip_partial' depends on axioms: [propext, Classical.choice, Quot.sound]
'Verif.C64_compress_large_output' depends on axioms: [propext, Classical.choice, Quot.sound]
'Verif.C64_compress_large_output_reached' depends on axioms: [propext, Classical.choice, Quot.sound]
'Verif.C64_compress_streaming_partial' depends on axioms: [propext, Classical.choice, Quot.sound]
'Verif.C64_uncompress_streaming_partial' depends on axioms: [propext, Classical.choice, Quot.sound]
'Verif.C64_round_trip_streaming_partial' depends on axioms: [propext, Classical.choice, Quot.sound]
'Verif.C65_cipher_aes_partial' depends on axioms: [propext, Classical.choice, Quot.sound]
'Verif.C65_paddings' depends on axioms: [propext, Quot.sound]
'Verif.C65_mac_aes_partial' depends on axioms: [propext, Classical.choice, Quot.sound]
'Verif.C65_mac_aes_cmac_partial' depends on axioms: [propext, Classical.choice, Quot.sound]
'Verif.C65_aes_gcm_partial' depends on axioms: [propext, Classical.choice, Quot.sound]
'Verif.C65_chapoly_decrypt_partial' depends on axioms: [propext, Classical.choice, Quot.sound]
'Verif.C65_sha3_partial' depends on axioms: [propext, Classical.choice, Quot.sound]
'Verif.C65_blake3_partial' depends on axioms: [propext, Classical.choice, Quot.sound]
'Verif.C65_hmac_sha1' depends on axioms: [propext, Classical.choice, Quot.sound]
'Verif.C65_hmac_ripemd160' depends on axioms: [propext, Classical.choice, Quot.sound]
'Verif.C65_hmac_sha256' depends on axioms: [propext, Classical.choice, Quot.sound]
'Verif.C65_hmac_sha384' depends on axioms: [propext, Classical.choice, Quot.sound]
'Verif.C65_hmac_sha512' depends on axioms: [propext, Classical.choice, Quot.sound]
'Verif.C65_compose' depends on axioms: [propext, Quot.sound]
'Verif.C65_transform_and_hash' depends on axioms: [propext, Quot.sound]
'Verif.C65_transform_then_hash' depends on axioms: [propext, Classical.choice, Quot.sound]
'Verif.C65_stream_bounds' depends on axioms: [propext, Classical.choice, Quot.sound]
'Verif.C65_zlib_partial' depends on axioms: [propext, Classical.choice, Quot.sound]
'Verif.C65_chapoly_decrypt_out_of_bounds' depends on axioms: [propext, Classical.choice, Quot.sound]
'Verif.C65_zlib_out_of_bounds' depends on axioms: [propext, Classical.choice, Quot.sound]
'Verif.C66_aes' depends on axioms: [propext, Quot.sound]
'Verif.C66_des_blowfish_arcfour' depends on axioms: [propext, Quot.sound]
'Verif.C66_chacha20' depends on axioms: [propext, Classical.choice, Quot.sound]
'Verif.C66_keyed_hashes' depends on axioms: [propext, Quot.sound]
'Verif.C66_results' depends on axioms: [propext, Quot.sound]
'Verif.C66_md5' depends on axioms: [propext, Quot.sound]
'Verif.C66_keyless' depends on axioms: [propext, Quot.sound]
'Verif.C66_siphash_partial' depends on axioms: [propext, Quot.sound]
'Verif.C66_ghash_partial' depends on axioms: [propext, Classical.choice, Quot.sound]
'Verif.C66_siphash_moved' depends on axioms: [propext, Quot.sound]
'Verif.C66_ghash_moved' depends on axioms: [propext, Quot.sound]
'Verif.C66_siphash_unrooted' depends on axioms: [propext, Quot.sound]
'Verif.C66_ghash_unrooted' depends on axioms: [propext, Quot.sound]
'Verif.C67_aes' depends on axioms: [propext, Classical.choice, Quot.sound]
'Verif.C67_des' depends on axioms: [propext, Classical.choice, Quot.sound]
'Verif.C67_triple_des' depends on axioms: [propext, Classical.choice, Quot.sound]
'Verif.C67_blowfish' depends on axioms: [propext, Classical.choice, Quot.sound]
'Verif.C67_arcfour' depends on axioms: [propext, Classical.choice, Quot.sound]
'Verif.C67_chacha20' depends on axioms: [propext, Classical.choice, Quot.sound]
'Verif.C68_flush_neutral' depends on axioms: [propext, Classical.choice, Quot.sound]
'Verif.C68_flush_neutral_padded_encrypt' depends on axioms: [propext, Classical.choice, Quot.sound]
'Verif.C68_flush_neutral_padded_decrypt_partial' depends on axioms: [propext, Classical.choice, Quot.sound]
'Verif.C68_padded_decrypt_flush_then_finish_raises' depends on axioms: [propext, Classical.choice, Quot.sound]
'Verif.C69_md5_exact' depends on axioms: [propext, Quot.sound]
'Verif.C69_md5_partial' depends on axioms: [propext, Quot.sound]
'Verif.C69_md5_large' depends on axioms: [propext, Quot.sound]
'Verif.C69_md5_collision' depends on axioms: [propext, Quot.sound]
'Verif.C69_hmac_md5_partial' depends on axioms: [propext, Classical.choice, Quot.sound]
'Verif.C65_md5' depends on axioms: [propext, Classical.choice, Quot.sound]
'Verif.C70_dispatch' depends on axioms: [propext, Quot.sound]
'Verif.C70_aes' depends on axioms: [propext, Classical.choice, Quot.sound]
'Verif.C70_ghash' depends on axioms: [propext, Classical.choice, Quot.sound]
'Verif.C71_no_undefined' depends on axioms: [propext, Classical.choice, Quot.sound]
'Verif.C71_no_leak' depends on axioms: [propext, Quot.sound]
'Verif.C71_all_freed' depends on axioms: [propext, Quot.sound]
'Verif.C71_wipe_erases' depends on axioms: [propext, Quot.sound]
'Verif.C71_zlib_no_undefined' depends on axioms: [propext, Quot.sound]
'Verif.C71_zlib_no_leak_partial' depends on axioms: [propext, Quot.sound]
'Verif.C71_zlib_leak' depends on axioms: [propext]
'Verif.C72_cipher' depends on axioms: [propext, Classical.choice, Quot.sound]
'Verif.C72_padded_encrypt' depends on axioms: [propext, Classical.choice, Quot.sound]
'Verif.C72_padded_decrypt_partial' depends on axioms: [propext, Classical.choice, Quot.sound]
'Verif.C72_padded_decrypt_empty' depends on axioms: [propext, Classical.choice, Quot.sound]
'Verif.C72_stream' depends on axioms: [propext, Classical.choice, Quot.sound]
'Verif.C72_base64_encode' depends on axioms: [propext, Classical.choice, Quot.sound]
'Verif.C72_base64_decode' depends on axioms: [propext, Classical.choice, Quot.sound]
'Verif.C72_hex_encode' depends on axioms: [propext, Classical.choice, Quot.sound]
'Verif.C72_hex_decode' depends on axioms: [propext, Classical.choice, Quot.sound]
'Verif.C72_compose_partial' depends on axioms: [propext, Classical.choice, Quot.sound]
'Verif.C72_compose_refuses' depends on axioms: [propext, Classical.choice, Quot.sound]
'Verif.C72_transform_then_hash' depends on axioms: [propext, Classical.choice, Quot.sound]
'Verif.C72_transform_and_hash' depends on axioms: [propext, Quot.sound]
'Verif.C73_sha1' depends on axioms: [propext, Classical.choice, Quot.sound]
'Verif.C73_sha224' depends on axioms: [propext, Classical.choice, Quot.sound]
'Verif.C73_sha256' depends on axioms: [propext, Classical.choice, Quot.sound]
'Verif.C73_sha384' depends on axioms: [propext, Classical.choice, Quot.sound]
'Verif.C73_sha512' depends on axioms: [propext, Classical.choice, Quot.sound]
'Verif.C73_ripemd160' depends on axioms: [propext, Classical.choice, Quot.sound]
'Verif.C73_chacha20' depends on axioms: [propext, Classical.choice, Quot.sound]
'Verif.C73_blowfish' depends on axioms: [propext, Classical.choice, Quot.sound]
'Verif.C74_hmac_partial' depends on axioms: [propext, Classical.choice, Quot.sound]
'Verif.C74_hmac_erased' depends on axioms: [propext, Classical.choice, Quot.sound]
'Verif.C74_hmac_erased_unkeyed' depends on axioms: [propext, Quot.sound]
'Verif.C74_hmac_sha1_wrong' depends on axioms: [propext, Classical.choice, Quot.sound]
'Verif.C75_chapoly' depends on axioms: [propext, Classical.choice, Quot.sound]
'Verif.C75_poly1305_uniform' depends on axioms: [propext, Classical.choice, Quot.sound]
'Verif.C75_gcm' depends on axioms: [propext, Classical.choice, Quot.sound]
'Verif.C75_aes_gcm' depends on axioms: [propext, Classical.choice, Quot.sound]
'Verif.C75_ghash_field' depends on axioms: [propext, Classical.choice, Quot.sound]
'Verif.C76_channel' depends on axioms: [propext, Classical.choice, Quot.sound]
'Verif.C76_block' depends on axioms: [propext, Classical.choice, Quot.sound]
'Verif.C76_padded_encrypt' depends on axioms: [propext, Classical.choice, Quot.sound]
'Verif.C76_padded_decrypt' depends on axioms: [propext, Classical.choice, Quot.sound]
'Verif.C76_stream' depends on axioms: [propext, Classical.choice, Quot.sound]
'Verif.C76_gcm_encrypt' depends on axioms: [propext, Classical.choice, Quot.sound]
'Verif.C76_gcm_decrypt' depends on axioms: [propext, Classical.choice, Quot.sound]
'Verif.C76_chapoly_encrypt' depends on axioms: [propext, Classical.choice, Quot.sound]
'Verif.C76_chapoly_decrypt' depends on axioms: [propext, Classical.choice, Quot.sound]
'Verif.C76_hex_encode' depends on axioms: [propext, Classical.choice, Quot.sound]
'Verif.C76_hex_decode' depends on axioms: [propext, Classical.choice, Quot.sound]
'Verif.C76_base64_compact' depends on axioms: [propext, Classical.choice, Quot.sound]
'Verif.C76_base64_multiline' depends on axioms: [propext, Classical.choice, Quot.sound]
'Verif.C76_base64_decode' depends on axioms: [propext, Classical.choice, Quot.sound]
'Verif.C77_rsa_encrypt' depends on axioms: [propext, Quot.sound]
'Verif.C77_rsa_decrypt' depends on axioms: [propext, Quot.sound]
'Verif.C77_rsa_decrypt_CRT' depends on axioms: [propext, Classical.choice, Quot.sound]
'Verif.C77_rsa_new_key' depends on axioms: [propext, Classical.choice, Quot.sound]
'Verif.C77_rsa_wipe_key' depends on axioms: [propext, Classical.choice, Quot.sound]
'Verif.C77_paillier_decrypt' depends on axioms: [propext, Classical.choice, Quot.sound]
'Verif.C77_paillier_new_key' depends on axioms: [propext, Classical.choice, Quot.sound]
'Verif.C77_paillier_wipe_key' depends on axioms: [propext, Classical.choice, Quot.sound]
'Verif.C77_dh_message' depends on axioms: [propext, Classical.choice, Quot.sound]
'Verif.C77_dh_shared_secret' depends on axioms: [propext, Classical.choice, Quot.sound]
'Verif.C78_private_secret' depends on axioms: [propext, Classical.choice, Quot.sound]
'Verif.C78_random' depends on axioms: [propext, Classical.choice, Quot.sound]
'Verif.C78_random_range' depends on axioms: [propext, Classical.choice, Quot.sound]
'Verif.C78_bytesOf' depends on axioms: [propext, Classical.choice, Quot.sound]
'Verif.C79_sha1' depends on axioms: [propext, Classical.choice, Quot.sound]
'Verif.C79_sha256' depends on axioms: [propext, Classical.choice, Quot.sound]
'Verif.C79_sha512' depends on axioms: [propext, Classical.choice, Quot.sound]
'Verif.C79_ripemd160' depends on axioms: [propext, Classical.choice, Quot.sound]
'Verif.C79_md5' depends on axioms: [propext, Classical.choice, Quot.sound]
'Verif.C80_fifo' depends on axioms: [propext, Classical.choice, Quot.sound]
'Verif.C80_substring_stable' depends on axioms: [propext, Classical.choice, Quot.sound]
'Verif.C80_replaced_stable' depends on axioms: [propext, Classical.choice, Quot.sound]
'Verif.C81_wipe' depends on axioms: [propext]
'Verif.C81_erased_partial' depends on axioms: [propext, Classical.choice, Quot.sound]
'Verif.C81_replaced_not_erased' depends on axioms: [propext, Classical.choice, Quot.sound]
'Verif.C82_ensure_capacity' depends on axioms: [propext, Quot.sound]
'Verif.C82_loop_model' depends on axioms: [propext, Quot.sound]
'Verif.C82_arcfour_partial' depends on axioms: [propext, Classical.choice, Quot.sound]
'Verif.C82_chacha20_partial' depends on axioms: [propext, Classical.choice, Quot.sound]
'Verif.C82_block' depends on axioms: [propext, Classical.choice, Quot.sound]
'Verif.C82_block_aes' depends on axioms: [propext, Classical.choice, Quot.sound]
'Verif.C82_padded' depends on axioms: [propext, Classical.choice, Quot.sound]
'Verif.C82_padded_aes' depends on axioms: [propext, Classical.choice, Quot.sound]
'Verif.C82_mac' depends on axioms: [propext, Classical.choice, Quot.sound]
'Verif.C82_mac_aes' depends on axioms: [propext, Classical.choice, Quot.sound]
'Verif.C82_mac_final_triple' depends on axioms: [propext, Classical.choice, Quot.sound]
'Verif.C82_cmac' depends on axioms: [propext, Classical.choice, Quot.sound]
'Verif.C82_gcm' depends on axioms: [propext, Classical.choice, Quot.sound]
'Verif.C82_chapoly_encrypt_partial' depends on axioms: [propext, Classical.choice, Quot.sound]
'Verif.C82_chapoly_decrypt_partial' depends on axioms: [propext, Classical.choice, Quot.sound]
'Verif.C82_codec_partial' depends on axioms: [propext, Quot.sound]
'Verif.C82_stream_hangs' depends on axioms: [propext, Quot.sound]
'Verif.C82_codec_ignores' depends on axioms: [propext, Quot.sound]
'Verif.C82_codec_min_int' depends on axioms: [propext, Classical.choice, Quot.sound]
'Verif.C82_zlib_partial' depends on axioms: [propext, Classical.choice, Quot.sound]
'Verif.C83_rsa_partial' depends on axioms: [propext, Classical.choice, Quot.sound]
'Verif.C83_paillier_partial' depends on axioms: [propext, Classical.choice, Quot.sound]
'Verif.C83_dh_partial' depends on axioms: [propext, Classical.choice, Quot.sound]
'Verif.C83_dh_secret' depends on axioms: [propext, Classical.choice, Quot.sound]
'Verif.C83_rsa_short_modulus' depends on axioms: [propext, Classical.choice, Quot.sound]
'Verif.C83_paillier_short_modulus' depends on axioms: [propext, Classical.choice, Quot.sound]
'Verif.C83_dh_not_generator' depends on axioms: [propext, Classical.choice, Quot.sound]
'Verif.C84_exponent_partial' depends on axioms: [propext, Classical.choice, Quot.sound]
'Verif.C84_even_exponent' depends on axioms: [propext, Classical.choice, Quot.sound]
'Verif.C84_even_exponent_diverges' depends on axioms: [propext, Classical.choice, Quot.sound]
'Verif.C84_negative_exponent' depends on axioms: [propext, Classical.choice, Quot.sound]
'Verif.C85_derive_key_partial' depends on axioms: [propext, Classical.choice, Quot.sound]
'Verif.C85_same_secret' depends on axioms: [propext, Classical.choice, Quot.sound]
'Verif.C85_same_diversification' depends on axioms: [propext, Classical.choice, Quot.sound]
'Verif.C85_ambiguous_concatenation' depends on axioms: [propext, Classical.choice, Quot.sound]
'Verif.C85_blocks_differ' depends on axioms: [propext, Classical.choice, Quot.sound]
'Verif.C86_arcfour' depends on axioms: [propext, Classical.choice, Quot.sound]
'Verif.C86_chacha20' depends on axioms: [propext, Classical.choice, Quot.sound]
'Verif.C86_block_partial' depends on axioms: [propext, Classical.choice, Quot.sound]
'Verif.C86_block_put_substring' depends on axioms: [propext, Classical.choice, Quot.sound]
'Verif.C86_padded_partial' depends on axioms: [propext, Classical.choice, Quot.sound]
'Verif.C86_padded_decrypt_finish' depends on axioms: [propext, Classical.choice, Quot.sound]
'Verif.C86_hex_encode_partial' depends on axioms: [propext, Classical.choice, Quot.sound]
'Verif.C86_hex_decode_partial' depends on axioms: [propext, Classical.choice, Quot.sound]
'Verif.C86_base64_encode_partial' depends on axioms: [propext, Classical.choice, Quot.sound]
'Verif.C86_base64_decode_partial' depends on axioms: [propext, Classical.choice, Quot.sound]
'Verif.C86_base64_decode_finish' depends on axioms: [propext, Quot.sound]
'Verif.C86_hex_decode_put_string' depends on axioms: [propext, Classical.choice, Quot.sound]
'Verif.C86_base64_encode_overflow' depends on axioms: [propext, Classical.choice, Quot.sound]
'Verif.C86_gcm_encrypt_partial' depends on axioms: [propext, Classical.choice, Quot.sound]
'Verif.C86_gcm_decrypt_partial' depends on axioms: [propext, Classical.choice, Quot.sound]
'Verif.C86_gcm_decrypt_finish' depends on axioms: [propext, Classical.choice, Quot.sound]
'Verif.C86_chapoly_encrypt_partial' depends on axioms: [propext, Classical.choice, Quot.sound]
'Verif.C86_chapoly_decrypt' depends on axioms: [propext, Classical.choice, Quot.sound]
'Verif.C86_mac_partial' depends on axioms: [propext, Classical.choice, Quot.sound]
'Verif.C86_cmac_partial' depends on axioms: [propext, Classical.choice, Quot.sound]
'Verif.C86_mac_final_triple_partial' depends on axioms: [propext, Classical.choice, Quot.sound]
'Verif.C86_mac_add_substring' depends on axioms: [propext, Classical.choice, Quot.sound]
'Verif.C86_cmac_add_substring' depends on axioms: [propext, Classical.choice, Quot.sound]
'Verif.C86_compose_put_char' depends on axioms: [propext, Quot.sound]
'Verif.C86_zlib_garbage' depends on axioms: [propext, Quot.sound]
'Verif.C86_zlib_partial' depends on axioms: [propext, Quot.sound]
'Verif.C87_memory' depends on axioms: [propext, Classical.choice, Quot.sound]
'Verif.C88_copying_partial' depends on axioms: [propext, Classical.choice, Quot.sound]
'Verif.C88_linear_partial' depends on axioms: [propext, Classical.choice, Quot.sound]
'Verif.C88_char_quadratic' depends on axioms: [propext, Classical.choice, Quot.sound]
'Verif.C88_char_not_linear' depends on axioms: [propext, Classical.choice, Quot.sound]
'Verif.C89_gcm' depends on axioms: [propext, Classical.choice, Quot.sound]
'Verif.C89_gcm_any_iv' depends on axioms: [propext, Classical.choice, Quot.sound]
'Verif.C89_gcm_empty_iv' depends on axioms: [propext, Classical.choice, Quot.sound]
'Verif.C89_chacha20_partial' depends on axioms: [propext, Classical.choice, Quot.sound]
'Verif.C89_chacha20_states' depends on axioms: [propext, Classical.choice, Quot.sound]
'Verif.C89_ctr_depends' depends on axioms: [propext, Classical.choice, Quot.sound]
'Verif.C89_chacha20_mixed' depends on axioms: [propext, Classical.choice, Quot.sound]
'Verif.C89_chapoly_mixed' depends on axioms: [propext, Classical.choice, Quot.sound]
'Verif.C89_ctr' depends on axioms: [propext, Classical.choice, Quot.sound]
'Verif.C90_parity' depends on axioms: [propext, Quot.sound]
'Verif.C90_two_keys' depends on axioms: [propext, Classical.choice, Quot.sound]
'Verif.C90_triple_is_single' depends on axioms: [propext, Classical.choice, Quot.sound]
'Verif.C91_aes' depends on axioms: [propext, Classical.choice, Quot.sound]
'Verif.C91_des' depends on axioms: [propext, Classical.choice, Quot.sound]
'Verif.C91_triple_des' depends on axioms: [propext, Classical.choice, Quot.sound]
'Verif.C91_blowfish' depends on axioms: [propext, Classical.choice, Quot.sound]
'Verif.C92_blake3' depends on axioms: [propext, Classical.choice, Quot.sound]
'Verif.C92_blake3_256' depends on axioms: [propext, Classical.choice, Quot.sound]
'Verif.C92_blake2b' depends on axioms: [propext, Classical.choice, Quot.sound]
'Verif.C92_blake2b_512' depends on axioms: [propext, Classical.choice, Quot.sound]
'Verif.C92_blake2s' depends on axioms: [propext, Classical.choice, Quot.sound]
'Verif.C92_blake2s_256' depends on axioms: [propext, Classical.choice, Quot.sound]
'Verif.C92_hmac' depends on axioms: [propext, Classical.choice, Quot.sound]
'Verif.C93_pseudo_rng_seeds' depends on axioms: [propext, Classical.choice, Quot.sound]
'Verif.C93_pseudo_rng_aes_ctr_seeds' depends on axioms: [propext, Classical.choice, Quot.sound]
'Verif.C93_pseudo_rng_aes_ctr_no_repeat' depends on axioms: [propext, Classical.choice, Quot.sound]
'Verif.C93_pseudo_rng_aes_ctr_period' depends on axioms: [propext, Classical.choice, Quot.sound]
'Verif.C93_pseudo_rng_period' depends on axioms: [propext, Classical.choice, Quot.sound]
'Verif.C93_pseudo_rng_blocks' depends on axioms: [propext, Classical.choice, Quot.sound]
'Verif.C94_shared_secret_partial' depends on axioms: [propext, Classical.choice, Quot.sound]
'Verif.C94_same_secret_iff' depends on axioms: [propext, Classical.choice, Quot.sound]
'Verif.C94_forced_secret' depends on axioms: [propext, Classical.choice, Quot.sound]
'Verif.C95_gcm_reveals_mask' depends on axioms: [propext, Classical.choice, Quot.sound]
'Verif.C95_gcm_tag_after_error' depends on axioms: [propext, Classical.choice, Quot.sound]
'Verif.C95_gcm_output_partial' depends on axioms: [propext, Classical.choice, Quot.sound]
'Verif.C95_chapoly_tag_after_error' depends on axioms: [propext, Classical.choice, Quot.sound]
'Verif.C95_chapoly_output_partial' depends on axioms: [propext, Classical.choice, Quot.sound]
'Verif.C96_rsa_new_key' depends on axioms: [propext, Classical.choice, Quot.sound]
'Verif.C96_rsa_new_key_fixed' depends on axioms: [propext, Classical.choice, Quot.sound]
'Verif.C96_paillier_new_key' depends on axioms: [propext, Classical.choice, Quot.sound]
'Verif.C96_paillier_encrypt' depends on axioms: [propext, Classical.choice, Quot.sound]
'Verif.C96_dh_new_parameters' depends on axioms: [propext, Classical.choice, Quot.sound]
'Verif.C96_dh_private_secret' depends on axioms: [propext, Classical.choice, Quot.sound]
'Verif.C97_aes' depends on axioms: [propext, Classical.choice, Quot.sound]
'Verif.C97_des' depends on axioms: [propext, Classical.choice, Quot.sound]
'Verif.C97_triple_des' depends on axioms: [propext, Classical.choice, Quot.sound]
'Verif.C97_blowfish' depends on axioms: [propext, Classical.choice, Quot.sound]
'Verif.C97_arcfour' depends on axioms: [propext, Classical.choice, Quot.sound]
'Verif.C97_chacha20' depends on axioms: [propext, Classical.choice, Quot.sound]
'Verif.C97_aes_gcm' depends on axioms: [propext, Classical.choice, Quot.sound]
'Verif.C97_chacha20_poly1305' depends on axioms: [propext, Classical.choice, Quot.sound]
'Verif.C97_hex_encode' depends on axioms: [propext, Classical.choice, Quot.sound]
'Verif.C97_hex_decode' depends on axioms: [propext, Classical.choice, Quot.sound]
'Verif.C97_base64_encode' depends on axioms: [propext, Classical.choice, Quot.sound]
'Verif.C97_base64_decode' depends on axioms: [propext, Classical.choice, Quot.sound]
'Verif.C97_mac_aes' depends on axioms: [propext, Classical.choice, Quot.sound]
'Verif.C97_mac_des' depends on axioms: [propext, Classical.choice, Quot.sound]
'Verif.C97_mac_triple_des' depends on axioms: [propext, Classical.choice, Quot.sound]
'Verif.C97_aes_cmac' depends on axioms: [propext, Classical.choice, Quot.sound]
'Verif.C97_des_final_triple_des' depends on axioms: [propext, Classical.choice, Quot.sound]
'Verif.C97_sha1' depends on axioms: [propext, Classical.choice, Quot.sound]
'Verif.C97_ripemd160' depends on axioms: [propext, Classical.choice, Quot.sound]
'Verif.C97_sha2' depends on axioms: [propext, Classical.choice, Quot.sound]
'Verif.C97_sha3' depends on axioms: [propext, Classical.choice, Quot.sound]
'Verif.C97_blake2b' depends on axioms: [propext, Classical.choice, Quot.sound]
'Verif.C97_blake2s' depends on axioms: [propext, Classical.choice, Quot.sound]
'Verif.C97_siphash' depends on axioms: [propext, Classical.choice, Quot.sound]
'Verif.C97_hmac_sha1' depends on axioms: [propext, Classical.choice, Quot.sound]
'Verif.C97_hmac_ripemd160' depends on axioms: [propext, Classical.choice, Quot.sound]
'Verif.C97_hmac_sha256' depends on axioms: [propext, Classical.choice, Quot.sound]
'Verif.C97_hmac_sha384' depends on axioms: [propext, Classical.choice, Quot.sound]
'Verif.C97_hmac_sha512' depends on axioms: [propext, Classical.choice, Quot.sound]
'Verif.C97_blake3' depends on axioms: [propext, Classical.choice, Quot.sound]
'Verif.C97_zlib_compress_partial' depends on axioms: [propext, Classical.choice, Quot.sound]
'Verif.C97_zlib_uncompress_partial' depends on axioms: [propext, Classical.choice, Quot.sound]
'Verif.C97_zlib_leaks' depends on axioms: [propext, Classical.choice, Quot.sound]
'Verif.C98_win32_partial' depends on axioms: [propext, Classical.choice, Quot.sound]
'Verif.C98_win32_range' depends on axioms: [propext, Classical.choice, Quot.sound]
'Verif.C98_win32_wipe' depends on axioms: [propext, Classical.choice, Quot.sound]
'Verif.C98_win32_truncated' depends on axioms: [propext, Classical.choice, Quot.sound]
'Verif.C98_win32_string' depends on axioms: [propext, Classical.choice, Quot.sound]
'Verif.C98_choice' depends on axioms: [propext, Quot.sound]
'Verif.C99_compression_error' depends on axioms: [propext, Classical.choice, Quot.sound]
'Verif.C99_not_supported' depends on axioms: [propext, Classical.choice, Quot.sound]
'Verif.C99_init_partial' depends on axioms: [propext, Classical.choice, Quot.sound]
'Verif.C99_version_mismatch' does not depend on any axioms
'Verif.C99_flush' depends on axioms: [propext]
'Verif.C99_des_direction' does not depend on any axioms
'Verif.C99_level_partial' depends on axioms: [propext, Quot.sound]
'Verif.C99_level_truncated' depends on axioms: [propext, Quot.sound]
