{
 "claims": [
  {
   "property": "C01",
   "status": "proved",
   "theorems": [
    "Props.C01_addv",
    "Props.C01_subv",
    "Props.C01_adds",
    "Props.C01_muls",
    "Props.C01_imuls",
    "Props.C01_imuls_wide_multiplier_wrong"
   ],
   "note": "adds for |b|<2^62, imuls for int32 multipliers; the int64 parameter range beyond that is refuted by C01_imuls_wide_multiplier_wrong"
  },
  {
   "property": "C02",
   "status": "proved",
   "theorems": [
    "Props.C02_cmps",
    "Props.C02_cmpv_shifted"
   ],
   "note": ""
  },
  {
   "property": "C03",
   "status": "proved",
   "theorems": [
    "Props.C03_mulv_plain",
    "Props.C03_mulv_reduced",
    "Props.C03_mulv_mod",
    "Props.C03_headroom_needed"
   ],
   "note": "needs a word of headroom in the destination (C03_headroom_needed shows why)"
  },
  {
   "property": "C04",
   "status": "proved",
   "theorems": [
    "Props.C04_divv",
    "Props.C04_divv_null",
    "Props.C04_divv_documented_sizes_insufficient",
    "Props.C04_remv",
    "Props.C04_remv_idempotent",
    "Props.C04_imod"
   ],
   "note": "vlong_divv correct when 2b or a fits the remainder object; with only the sizes the code checks it is refuted (C04_divv_documented_sizes_insufficient)"
  },
  {
   "property": "C05",
   "status": "proved",
   "theorems": [
    "Props.C05_modexpv",
    "Props.C05_modexp_mod"
   ],
   "note": ""
  },
  {
   "property": "C06",
   "status": "proved",
   "theorems": [
    "Props.C06_os2ip",
    "Props.C06_i2osp",
    "Props.C06_declsb",
    "Props.C06_enclsb",
    "Props.C06_os2ip_i2osp",
    "Props.C06_i2osp_os2ip",
    "Props.C06_topbit"
   ],
   "note": ""
  },
  {
   "property": "C07",
   "status": "partial",
   "theorems": [
    "Props.C07_tag_roundtrip_partial",
    "Props.C07_big_tags_unreadable",
    "Props.C07_tag31_never_read_back",
    "Props.C07_put_len_roundtrip",
    "Props.C07_put_len_ub",
    "Props.C07_push_len_roundtrip",
    "Props.C07_push_tag",
    "Props.C07_header_roundtrip_partial"
   ],
   "note": "tags below 2^21 except number 31, and lengths below 2^56: proved. The rest is false of the code and that is proved: tag number 31 and tags from 2^21 are never read back (C07_tag31_never_read_back, C07_big_tags_unreadable), lengths from 2^56 shift by 64 (C07_put_len_ub)"
  },
  {
   "property": "C08",
   "status": "proved",
   "theorems": [
    "Props.C08_encode",
    "Props.C08_decode",
    "Props.C08_roundtrip",
    "Props.C08_put"
   ],
   "note": ""
  },
  {
   "property": "C09",
   "status": "partial",
   "theorems": [
    "Props.C09_accept_within_window_partial",
    "Props.C09_out_of_bounds_iff",
    "Props.C09_truncated_window_overread"
   ],
   "note": "an accepted header lies inside its window: proved. The full claim is false of the code; C09_out_of_bounds_iff gives the exact set of windows read past their end"
  },
  {
   "property": "C10",
   "status": "proved",
   "theorems": [
    "Props.C10_splice",
    "Props.C10_splice_rotate"
   ],
   "note": ""
  },
  {
   "property": "C11",
   "status": "proved",
   "theorems": [
    "Props.C11_sha3",
    "Props.C11_shake"
   ],
   "note": ""
  },
  {
   "property": "C12",
   "status": "proved",
   "theorems": [
    "Props.C12_stream"
   ],
   "note": ""
  },
  {
   "property": "C13",
   "status": "partial",
   "theorems": [
    "Props.C13_kmacxof_partial",
    "Props.C13_cshake_partial",
    "Props.C13_cshake_empty",
    "Props.C13_cshake_exact_fit",
    "Props.C13_cshake_exact_fit_wrong",
    "Props.C13_kmac_partial"
   ],
   "note": "proved unless the encoded strings fill the last block exactly; there the code absorbs one more zero block (C13_cshake_exact_fit) and differs from SP 800-185 (C13_cshake_exact_fit_wrong, and with the real Keccak permutation C83_cshake128_wrong)"
  },
  {
   "property": "C14",
   "status": "partial",
   "theorems": [
    "Props.C14_blake2",
    "Props.C14_blake3",
    "Props.C14_md",
    "Props.C14_cmac_second_final",
    "Props.C14_cmac_not_repeatable",
    "Props.C14_sha3",
    "Props.C14_kmac_second_final_leaks_state",
    "Props.C14_kmac_not_repeatable"
   ],
   "note": "proved for the sponge family, the Merkle-Damgard family, HMAC (C19_hmac's ts), BLAKE2 and BLAKE3; refuted for KMAC_Final and CMAC_Final (negation theorems)"
  },
  {
   "property": "C15",
   "status": "proved",
   "theorems": [
    "Props.C15_digest",
    "Props.C15_split_independent"
   ],
   "note": ""
  },
  {
   "property": "C16",
   "status": "proved",
   "theorems": [
    "Props.C16_blake2b",
    "Props.C16_blake2s",
    "Props.C16_init_accepts"
   ],
   "note": ""
  },
  {
   "property": "C17",
   "status": "proved",
   "theorems": [
    "Props.C17_hash",
    "Props.C17_keyed_hash",
    "Props.C17_kinit_accepts"
   ],
   "note": ""
  },
  {
   "property": "C18",
   "status": "partial",
   "theorems": [
    "Props.C18_tree_partial",
    "Props.C18_length_limit"
   ],
   "note": "proved for customisation strings below 2^24 octets and up to 2^24 chunks; beyond, the code shifts an int by 32 (C18_length_limit)"
  },
  {
   "property": "C19",
   "status": "proved",
   "theorems": [
    "Props.C19_hmac",
    "Props.C19_long_key_refused",
    "Props.C19_hmac_sha",
    "Props.C19_hmac_sha3",
    "Props.C19_rekey_after_final",
    "Props.C19_rekey_breaks_hmac"
   ],
   "note": "keys up to one block; re-keying a finalised context is refuted (C19_rekey_after_final, C19_rekey_breaks_hmac)"
  },
  {
   "property": "C20",
   "status": "proved",
   "theorems": [
    "Props.C20_cmac",
    "Props.C20_wrong_key_length",
    "Props.C20_rekey"
   ],
   "note": ""
  },
  {
   "property": "C21",
   "status": "partial",
   "theorems": [
    "Props.C21_poly1305_partial",
    "Props.C21_tag_two_values",
    "Props.C21_unreduced_tag"
   ],
   "note": "proved for accumulators from 35 on; below, the tag is that of the accumulator or of the accumulator plus p (C21_tag_two_values) and can be wrong (C21_unreduced_tag, a vector of RFC 8439)"
  },
  {
   "property": "C22",
   "status": "proved",
   "theorems": [
    "Props.C22_ghash_block",
    "Props.C22_product_unique"
   ],
   "note": ""
  },
  {
   "property": "C23",
   "status": "proved",
   "theorems": [
    "Props.C23_gcm_encrypt",
    "Props.C23_gcm_decrypt",
    "Props.C23_gcm_roundtrip",
    "Props.C23_gcm_refusals"
   ],
   "note": ""
  },
  {
   "property": "C24",
   "status": "partial",
   "theorems": [
    "Props.C24_chacha_distinct_partial",
    "Props.C24_chacha_onetime_key_reused",
    "Props.C24_gcm_counters_distinct"
   ],
   "note": "GCM: proved for all accepted lengths. ChaCha20-Poly1305: proved up to 2^38-64 octets; for the accepted lengths above, the key block is reused (C24_chacha_onetime_key_reused)"
  },
  {
   "property": "C25",
   "status": "proved",
   "theorems": [
    "Props.C25_chacha20_block",
    "Props.C25_chacha_poly1305",
    "Props.C25_roundtrip",
    "Props.C25_refusals"
   ],
   "note": ""
  },
  {
   "property": "C26",
   "status": "partial",
   "theorems": [
    "Props.C26_ccm_encrypt_partial",
    "Props.C26_ccm_decrypt_partial",
    "Props.C26_ccm_roundtrip_partial",
    "Props.C26_ccm_refusals",
    "Props.C26_never_terminates"
   ],
   "note": "proved up to 31 octets; from 32 octets on the code never returns (C26_never_terminates)"
  },
  {
   "property": "C27",
   "status": "proved",
   "theorems": [
    "Props.C27_aes",
    "Props.C27_sm4",
    "Props.C27_seed",
    "Props.C27_camellia",
    "Props.C27_aria"
   ],
   "note": ""
  },
  {
   "property": "C28",
   "status": "proved",
   "theorems": [
    "Props.C28_wsbox",
    "Props.C28_invwsbox",
    "Props.C28_sbox",
    "Props.C28_invsbox",
    "Props.C28_aes",
    "Props.C28_sm4"
   ],
   "note": ""
  },
  {
   "property": "C29",
   "status": "partial",
   "theorems": [
    "Props.C29_instantiate",
    "Props.C29_instantiate_df",
    "Props.C29_reseed",
    "Props.C29_reseed_df",
    "Props.C29_generate_output_partial",
    "Props.C29_generate_state",
    "Props.C29_state_is_output",
    "Props.C29_next_output_predictable",
    "Props.C29_generate_wrong"
   ],
   "note": "instantiation, reseeding and returned octets proved; the state after a request is refuted: it equals the octets just returned (C29_state_is_output, C29_next_output_predictable)"
  },
  {
   "property": "C30",
   "status": "proved",
   "theorems": [
    "Props.C30_drbg",
    "Props.C30_drbg_hmac_sha"
   ],
   "note": ""
  },
  {
   "property": "C31",
   "status": "partial",
   "theorems": [
    "Props.C31_pss_accepts_everything",
    "Props.C31_others_accept_everything",
    "Props.C31_forgery",
    "Props.C31_check_partial"
   ],
   "note": "refuted for every input: all four verification paths accept every signature once it is decoded (C31_pss_accepts_everything, C31_others_accept_everything, C31_forgery); only the unreachable comparison is shown to be the standard's (C31_check_partial)"
  },
  {
   "property": "C32",
   "status": "proved",
   "theorems": [
    "Props.C32_enc",
    "Props.C32_fastdec",
    "Props.C32_dec_enc",
    "Props.C32_enc_dec",
    "Props.C32_example_key"
   ],
   "note": ""
  },
  {
   "property": "C33",
   "status": "proved",
   "theorems": [
    "Props.C33_enc",
    "Props.C33_enc_label",
    "Props.C33_dec",
    "Props.C33_dec_range",
    "Props.C33_roundtrip",
    "Props.C33_label_skips_length_check",
    "Props.C33_testLabel",
    "Props.C33_testLabel_resets"
   ],
   "note": ""
  },
  {
   "property": "C34",
   "status": "proved",
   "theorems": [
    "Props.C34_encoding",
    "Props.C34_salt",
    "Props.C34_sign",
    "Props.C34_bits_mod8_one"
   ],
   "note": ""
  },
  {
   "property": "C35",
   "status": "proved",
   "theorems": [
    "Props.C35_enc_too_long",
    "Props.C35_enc",
    "Props.C35_enc_live",
    "Props.C35_zero_generator",
    "Props.C35_dec",
    "Props.C35_roundtrip"
   ],
   "note": ""
  },
  {
   "property": "C36",
   "status": "proved",
   "theorems": [
    "Props.C36_egcd",
    "Props.C36_egcd_sound",
    "Props.C36_egcd_imod"
   ],
   "note": ""
  },
  {
   "property": "C37",
   "status": "partial",
   "theorems": [
    "Props.C37_round",
    "Props.C37_round_prime",
    "Props.C37_bases",
    "Props.C37_answers",
    "Props.C37_ends",
    "Props.C37_prime_accepted_partial",
    "Props.C37_prime_accepted_small_bases",
    "Props.C37_prime_rejected",
    "Props.C37_fast_reduction_needs_equal_size"
   ],
   "note": "proved when no base is a multiple of the candidate, in particular for bases below it; the code does not ensure that and a prime is then rejected (C37_prime_rejected)"
  },
  {
   "property": "C38",
   "status": "proved",
   "theorems": [
    "Props.C38_25519",
    "Props.C38_448",
    "Props.C38_secp256r1",
    "Props.C38_secp384r1",
    "Props.C38_SM2",
    "Props.C38_SM2_bound_needed",
    "Props.C38_prime_not_reduced"
   ],
   "note": ""
  },
  {
   "property": "C39",
   "status": "proved",
   "theorems": [
    "Props.C39_curves",
    "Props.C39_add",
    "Props.C39_dbl",
    "Props.C39_inf",
    "Props.C39_dbl_infinity_invalid"
   ],
   "note": ""
  },
  {
   "property": "C40",
   "status": "proved",
   "theorems": [
    "Props.C40_scale",
    "Props.C40_base_infinity_invalid",
    "Props.C40_base_point",
    "Props.C40_ed_curves",
    "Props.C40_ed_add",
    "Props.C40_ed_dbl",
    "Props.C40_ed_inf",
    "Props.C40_ed_scale",
    "Props.C40_ed_law",
    "Props.C40_ed_base_point"
   ],
   "note": ""
  },
  {
   "property": "C41",
   "status": "proved",
   "theorems": [
    "Props.C41_no_null_call",
    "Props.C41_at_most_once",
    "Props.C41_distinct_jobs",
    "Props.C41_exactly_once",
    "Props.C41_programs_complete"
   ],
   "note": ""
  },
  {
   "property": "C42",
   "status": "proved",
   "theorems": [
    "Props.C42_barrier",
    "Props.C42_wait_counts",
    "Props.C42_no_deadlock",
    "Props.C42_bounded",
    "Props.C42_not_barrier_two_callers",
    "Props.C42_two_waiters_hang"
   ],
   "note": ""
  },
  {
   "property": "C43",
   "status": "proved",
   "theorems": [
    "Props.C43_aes_fips197",
    "Props.C43_aes_decrypt"
   ],
   "note": ""
  },
  {
   "property": "C44",
   "status": "proved",
   "theorems": [
    "Props.C44_sm4_encrypt",
    "Props.C44_sm4_decrypt"
   ],
   "note": ""
  },
  {
   "property": "C45",
   "status": "proved",
   "theorems": [
    "Props.C45_mgf1",
    "Props.C45_mgf_xof"
   ],
   "note": ""
  },
  {
   "property": "C46",
   "status": "proved",
   "theorems": [
    "Props.C46_digestInfo",
    "Props.C46_sign",
    "Props.C46_refuse"
   ],
   "note": ""
  },
  {
   "property": "C47",
   "status": "proved",
   "theorems": [
    "Props.C47_fields",
    "Props.C47_result_unique",
    "Props.C47_ladder_25519",
    "Props.C47_ladder_448",
    "Props.C47_x25519_keygen",
    "Props.C47_x448_keygen",
    "Props.C47_x25519_enc",
    "Props.C47_x448_enc",
    "Props.C47_x25519_dec",
    "Props.C47_x448_dec",
    "Props.C47_reload"
   ],
   "note": ""
  },
  {
   "property": "C48",
   "status": "proved",
   "theorems": [
    "Props.C48_x25519_agree",
    "Props.C48_x448_agree",
    "Props.C48_dec_again",
    "Props.C48_buffer"
   ],
   "note": ""
  },
  {
   "property": "C49",
   "status": "proved",
   "theorems": [
    "Props.C49_curves",
    "Props.C49_inverse_p",
    "Props.C49_inverse_n",
    "Props.C49_sqrt"
   ],
   "note": ""
  },
  {
   "property": "C50",
   "status": "proved",
   "theorems": [
    "Props.C50_overread",
    "Props.C50_decode",
    "Props.C50_roundtrip",
    "Props.C50_reencode",
    "Props.C50_encode_lengths",
    "Props.C50_compress",
    "Props.C50_decompress",
    "Props.C50_noncanonical_accepted",
    "Props.C50_compress_changes_key"
   ],
   "note": ""
  },
  {
   "property": "C51",
   "status": "proved",
   "theorems": [
    "Props.C51_decode_private",
    "Props.C51_private_roundtrip",
    "Props.C51_keygen",
    "Props.C51_keygen_export",
    "Props.C51_mask"
   ],
   "note": ""
  },
  {
   "property": "C52",
   "status": "proved",
   "theorems": [
    "Props.C52_verify",
    "Props.C52_accepted_valid",
    "Props.C52_valid_accepted",
    "Props.C52_outcome_cached",
    "Props.C52_incremental",
    "Props.C52_verify_overwrites_private_key",
    "Props.C52_valid_rejected"
   ],
   "note": ""
  },
  {
   "property": "C53",
   "status": "proved",
   "theorems": [
    "Props.C53_sign",
    "Props.C53_sign_none",
    "Props.C53_sign_verify",
    "Props.C53_sign_valid",
    "Props.C53_incremental"
   ],
   "note": ""
  },
  {
   "property": "C54",
   "status": "proved",
   "theorems": [
    "Props.C54_encode",
    "Props.C54_bounds",
    "Props.C54_decode",
    "Props.C54_roundtrip",
    "Props.C54_sign_encode_verify",
    "Props.C54_malleable"
   ],
   "note": ""
  },
  {
   "property": "C55",
   "status": "proved",
   "theorems": [
    "Props.C55_enc",
    "Props.C55_dec",
    "Props.C55_decode_ciphertext",
    "Props.C55_overread"
   ],
   "note": ""
  },
  {
   "property": "C56",
   "status": "proved",
   "theorems": [
    "Props.C56_agree",
    "Props.C56_dec_twice",
    "Props.C56_compressed"
   ],
   "note": ""
  },
  {
   "property": "C57",
   "status": "proved",
   "theorems": [
    "Props.C57_verify",
    "Props.C57_accepted",
    "Props.C57_outcome_cached",
    "Props.C57_incremental",
    "Props.C57_accept_overwrites",
    "Props.C57_accepted_then_rejected"
   ],
   "note": ""
  },
  {
   "property": "C58",
   "status": "proved",
   "theorems": [
    "Props.C58_sign",
    "Props.C58_sign_none",
    "Props.C58_sign_verify",
    "Props.C58_never_returns",
    "Props.C58_incremental",
    "Props.C58_accepted_key_never_signs"
   ],
   "note": ""
  },
  {
   "property": "C59",
   "status": "proved",
   "theorems": [
    "Props.C59_identity_digest",
    "Props.C59_curve_numbers",
    "Props.C59_control",
    "Props.C59_default_identity",
    "Props.C59_same_digest",
    "Props.C59_long_identities_collide",
    "Props.C59_length_octets"
   ],
   "note": ""
  },
  {
   "property": "C60",
   "status": "proved",
   "theorems": [
    "Props.C60_suites",
    "Props.C60_decode",
    "Props.C60_accepts_iff",
    "Props.C60_names_unique",
    "Props.C60_encode_names",
    "Props.C60_roundtrip",
    "Props.C60_encode_inj",
    "Props.C60_reencode",
    "Props.C60_trim",
    "Props.C60_noncanonical_accepted",
    "Props.C60_ed448_bits_ignored"
   ],
   "note": ""
  },
  {
   "property": "C61",
   "status": "proved",
   "theorems": [
    "Props.C61_private_roundtrip",
    "Props.C61_keygen",
    "Props.C61_public_key",
    "Props.C61_decode_public",
    "Props.C61_export_accepted"
   ],
   "note": ""
  },
  {
   "property": "C62",
   "status": "proved",
   "theorems": [
    "Props.C62_sign_octets",
    "Props.C62_sign",
    "Props.C62_sign_incremental",
    "Props.C62_decode_signature",
    "Props.C62_verify",
    "Props.C62_verify_incremental",
    "Props.C62_sign_verify",
    "Props.C62_sign_verify_incremental",
    "Props.C62_encode_lengths"
   ],
   "note": ""
  },
  {
   "property": "C63",
   "status": "proved",
   "theorems": [
    "Props.C63_outcome_cached",
    "Props.C63_sign_keeps_key",
    "Props.C63_sign_repeats",
    "Props.C63_verify_keeps_public",
    "Props.C63_context_string",
    "Props.C63_domain_separation",
    "Props.C63_no_collision",
    "Props.C63_verify_overwrites_private_key",
    "Props.C63_refusal_forgotten",
    "Props.C63_second_incremental"
   ],
   "note": ""
  },
  {
   "property": "C64",
   "status": "proved",
   "theorems": [
    "Props.C64_decode",
    "Props.C64_encode",
    "Props.C64_export",
    "Props.C64_roundtrip",
    "Props.C64_ready",
    "Props.C64_not_strict"
   ],
   "note": ""
  },
  {
   "property": "C65",
   "status": "proved",
   "theorems": [
    "Props.C65_decode",
    "Props.C65_ready",
    "Props.C65_scratch",
    "Props.C65_query",
    "Props.C65_encode",
    "Props.C65_roundtrip",
    "Props.C65_export",
    "Props.C65_encode_four",
    "Props.C65_version_aborts"
   ],
   "note": ""
  },
  {
   "property": "C66",
   "status": "proved",
   "theorems": [
    "Props.C66_numbers",
    "Props.C66_valid",
    "Props.C66_bits",
    "Props.C66_restart",
    "Props.C66_returns",
    "Props.C66_equal_factors",
    "Props.C66_small_factors"
   ],
   "note": ""
  },
  {
   "property": "C67",
   "status": "proved",
   "theorems": [
    "Props.C67_layout",
    "Props.C67_ready",
    "Props.C67_scratch"
   ],
   "note": ""
  },
  {
   "property": "C68",
   "status": "proved",
   "theorems": [
    "Props.C68_sha1",
    "Props.C68_sha224",
    "Props.C68_sha256",
    "Props.C68_sha384",
    "Props.C68_sha512",
    "Props.C68_sha512_224",
    "Props.C68_sha512_256",
    "Props.C68_sm3"
   ],
   "note": ""
  },
  {
   "property": "C69",
   "status": "proved",
   "theorems": [
    "Props.C69_permutation",
    "Props.C69_permutations",
    "Props.C69_sha3_224",
    "Props.C69_sha3_256",
    "Props.C69_sha3_384",
    "Props.C69_sha3_512",
    "Props.C69_shake128",
    "Props.C69_shake256"
   ],
   "note": ""
  },
  {
   "property": "C70",
   "status": "proved",
   "theorems": [
    "Props.C70_128",
    "Props.C70_192",
    "Props.C70_256"
   ],
   "note": ""
  },
  {
   "property": "C71",
   "status": "proved",
   "theorems": [
    "Props.C71_seed"
   ],
   "note": ""
  },
  {
   "property": "C72",
   "status": "proved",
   "theorems": [
    "Props.C72_encrypt",
    "Props.C72_decrypt"
   ],
   "note": ""
  },
  {
   "property": "C73",
   "status": "proved",
   "theorems": [
    "Props.C73_permutation",
    "Props.C73_injective",
    "Props.C73_xof"
   ],
   "note": ""
  },
  {
   "property": "C74",
   "status": "proved",
   "theorems": [
    "Props.C74_product",
    "Props.C74_product_null",
    "Props.C74_variants"
   ],
   "note": ""
  },
  {
   "property": "C75",
   "status": "proved",
   "theorems": [
    "Props.C75_variants",
    "Props.C75_encrypt",
    "Props.C75_decrypt"
   ],
   "note": ""
  },
  {
   "property": "C76",
   "status": "proved",
   "theorems": [
    "Props.C76_compress",
    "Props.C76_variants",
    "Props.C76_sha1",
    "Props.C76_sha256",
    "Props.C76_sha512"
   ],
   "note": ""
  },
  {
   "property": "C77",
   "status": "proved",
   "theorems": [
    "Props.C77_sm3",
    "Props.C77_sm3_digest",
    "Props.C77_sm3_undefined",
    "Props.C77_sm4",
    "Props.C77_sm4_variants",
    "Props.C77_keccak"
   ],
   "note": ""
  },
  {
   "property": "C78",
   "status": "proved",
   "theorems": [
    "Props.C78_add",
    "Props.C78_sub"
   ],
   "note": ""
  },
  {
   "property": "C79",
   "status": "partial",
   "theorems": [
    "Props.C79_mul_partial",
    "Props.C79_mul_wrong",
    "Props.C79_mul_word"
   ],
   "note": "proved when the output is not longer than the second operand or the operand's top word is zero (C79_mul_partial); otherwise the code drops carries and the claim is false (C79_mul_wrong; exact result for one-word multipliers C79_mul_word)"
  },
  {
   "property": "C80",
   "status": "proved",
   "theorems": [
    "Props.C80_div",
    "Props.C80_rem",
    "Props.C80_quo",
    "Props.C80_short_quotient"
   ],
   "note": ""
  },
  {
   "property": "C81",
   "status": "proved",
   "theorems": [
    "Props.C81_hmac_sha1",
    "Props.C81_hmac_sha224",
    "Props.C81_hmac_sha256",
    "Props.C81_hmac_sha384",
    "Props.C81_hmac_sha512",
    "Props.C81_hmac_sm3",
    "Props.C81_hmac_sha3",
    "Props.C81_sha3_unique",
    "Props.C81_drbg_sha1",
    "Props.C81_drbg_sha256",
    "Props.C81_drbg_sha384"
   ],
   "note": ""
  },
  {
   "property": "C82",
   "status": "partial",
   "theorems": [
    "Props.C82_cmac_aes",
    "Props.C82_gcm_aes_encrypt",
    "Props.C82_gcm_aes_decrypt",
    "Props.C82_ccm_aes_partial",
    "Props.C82_ctr_drbg_aes_partial",
    "Props.C82_ctr_drbg_aes_df_partial",
    "Props.C82_ccm_objects_partial"
   ],
   "note": "CMAC and GCM in full; CCM up to 31 octets (C26_never_terminates beyond); CTR_DRBG up to the state left by a request (C29_generate_wrong): C82_ctr_drbg_aes_partial gives the outputs of every history of the code as it is"
  },
  {
   "property": "C83",
   "status": "partial",
   "theorems": [
    "Props.C83_cshake128_partial",
    "Props.C83_cshake256_partial",
    "Props.C83_kmac128_partial",
    "Props.C83_kmac256_partial",
    "Props.C83_kmacxof128_partial",
    "Props.C83_kmacxof256_partial",
    "Props.C83_cshake128_exact_fit",
    "Props.C83_cshake256_exact_fit",
    "Props.C83_k12_partial"
   ],
   "note": "proved unless an encoded prefix fills its last block exactly (there the code computes the value of the message with a block of zeros in front: C83_cshake128_exact_fit, C83_cshake256_exact_fit); K12 up to 2^24 chunks, as C18"
  },
  {
   "property": "C84",
   "status": "partial",
   "theorems": [
    "Props.C84_k12_partial",
    "Props.C84_k12_runs",
    "Props.C84_blake3_hash",
    "Props.C84_blake3_keyed",
    "Props.C84_blake3_runs",
    "Props.C84_stub_calls",
    "Props.C84_stub_wait_count_wrong",
    "Props.C84_stub_batch"
   ],
   "note": "BLAKE3 and the stub in full; K12 up to 2^24 chunks, as C18 (the code shifts an int by 32 beyond); the stub's waits return 0 instead of the documented number of jobs (C84_stub_wait_count_wrong)"
  },
  {
   "property": "C85",
   "status": "proved",
   "theorems": [
    "Props.C85_decode_pub",
    "Props.C85_decode_priv",
    "Props.C85_keygen",
    "Props.C85_announced_keygen",
    "Props.C85_announced_pub",
    "Props.C85_announced_priv",
    "Props.C85_pss_query_out_of_bounds",
    "Props.C85_oaep_exchange",
    "Props.C85_backup"
   ],
   "note": "proved; the exact condition under which the announced size holds a decoded public key is C85_announced_pub; the out-of-bounds read of tRSASSA_PSS is C85_pss_query_out_of_bounds"
  },
  {
   "property": "C86",
   "status": "proved",
   "theorems": [
    "Props.C86_kem",
    "Props.C86_dss",
    "Props.C86_eddsa",
    "Props.C86_xecdh",
    "Props.C86_curves"
   ],
   "note": ""
  },
  {
   "property": "C87",
   "status": "proved",
   "theorems": [
    "Props.C87_ecdsa_p256_sha256",
    "Props.C87_ecdsa_p384_sha384",
    "Props.C87_sm2_sm3",
    "Props.C87_hash_calls",
    "Props.C87_shake_calls",
    "Props.C87_base_points",
    "Props.C87_ed25519_sign",
    "Props.C87_ed25519_verify",
    "Props.C87_ed448_sign",
    "Props.C87_ed448_verify"
   ],
   "note": "proved; messages below 2^61 octets (2^60 for EdDSA and SM2); identities below 8192 octets; SM2 except for draws whose point has x-coordinate 0 and the private key n - 1 (C58)"
  },
  {
   "property": "C88",
   "status": "proved",
   "theorems": [
    "Props.C88_aes",
    "Props.C88_sm4",
    "Props.C88_seed",
    "Props.C88_aria",
    "Props.C88_camellia",
    "Props.C88_camellia_words",
    "Props.C88_sha1",
    "Props.C88_sha224",
    "Props.C88_sha256",
    "Props.C88_sha384",
    "Props.C88_sha512",
    "Props.C88_sm3",
    "Props.C88_sha512_224",
    "Props.C88_sha512_256",
    "Props.C88_sha3",
    "Props.C88_shake",
    "Props.C88_states",
    "Props.C88_cipher_mode_keys",
    "Props.C88_chacha_keys",
    "Props.C88_blake2_keys",
    "Props.C88_kmac_keys_not",
    "Props.C88_blake3_keys_not",
    "Props.C88_nonces",
    "Props.C88_members",
    "Props.C88_contexts",
    "Props.C88_parametrised",
    "Props.C88_drbg_contexts",
    "Props.C88_drbg_objects"
   ],
   "note": "proved as stated; the key announcements of KMAC and BLAKE3 are refuted by C88_kmac_keys_not and C88_blake3_keys_not; LP64 layout rules; function pointers are C89, public-key objects C85, C86"
  },
  {
   "property": "C89",
   "status": "proved",
   "theorems": [
    "Props.C89_sha",
    "Props.C89_sha3",
    "Props.C89_blake2",
    "Props.C89_blake2_keyed",
    "Props.C89_shake",
    "Props.C89_hmac_names",
    "Props.C89_hmac",
    "Props.C89_drbg",
    "Props.C89_cipher",
    "Props.C89_cmac",
    "Props.C89_gcm",
    "Props.C89_pk_hash",
    "Props.C89_pk_shake",
    "Props.C89_presets"
   ],
   "note": "proved; messages below 2^61 octets (2^60 for HMAC), BLAKE2 digests of 5 octets or more without key; CCM over all ciphers is C82_ccm_objects_partial; AEAD, KMAC, BLAKE3, K12 and public-key objects are not called through pointers here"
  },
  {
   "property": "C90",
   "status": "proved",
   "theorems": [
    "Props.C90_oaep_enc",
    "Props.C90_oaep_enc_plain",
    "Props.C90_oaep_dec",
    "Props.C90_pss_sign",
    "Props.C90_v15_sign",
    "Props.C90_v15_others",
    "Props.C90_slen",
    "Props.C90_pss_refuse",
    "Props.C90_pss_negative_salt",
    "Props.C90_presets",
    "Props.C90_context_functions",
    "Props.C90_oaep_exchange",
    "Props.C90_pss_generated",
    "Props.C90_v15_generated"
   ],
   "note": "proved; keys whose bit length is 1 modulo 8 excepted for signing (C34 finding); generated keys on the condition that the numbers drawn are distinct primes; RSA verification functions accept everything (C31), so verification is the standard's; the negative salt length is C90_pss_negative_salt"
  },
  {
   "property": "C91",
   "status": "partial",
   "theorems": [
    "Props.C91_gcm",
    "Props.C91_ccm_partial",
    "Props.C91_chacha",
    "Props.C91_exchange",
    "Props.C91_null_output",
    "Props.C91_ccm_runs_forever",
    "Props.C91_announced"
   ],
   "note": "CCM is proved up to 31 octets of message; beyond, the code does not terminate, C91_ccm_runs_forever (C24 finding); ChaCha20-Poly1305 tags as in C25 (reduction not canonical in a few cases); output pointer not null, otherwise C91_null_output"
  },
  {
   "property": "C92",
   "status": "partial",
   "theorems": [
    "Props.C92_kmac_partial",
    "Props.C92_kmacxof_partial",
    "Props.C92_cshake_partial",
    "Props.C92_control_refuses",
    "Props.C92_kmac_short_vector",
    "Props.C92_gimli",
    "Props.C92_cmac",
    "Props.C92_blake3",
    "Props.C92_k12_partial"
   ],
   "note": "partial where the code is false: exact-fit keys and strings (C83), K12 lengths from 2^24 on (C18); the KMAC control function with a short vector is undefined, C92_kmac_short_vector; a MAC is finalised once (C14 findings)"
  },
  {
   "property": "C93",
   "status": "proved",
   "theorems": [
    "Props.C93_verifier",
    "Props.C93_signer",
    "Props.C93_made_accepted",
    "Props.C93_signer_accepts_everything",
    "Props.C93_refused_signature"
   ],
   "note": "proved; 'is one of its message' is the standard's condition with the x-coordinate below n (C52 finding); keys and signatures in the history are well-formed, a refused signature is C93_refused_signature; feeding a hash after its end is outside (no message begun)"
  },
  {
   "property": "C94",
   "status": "proved",
   "theorems": [
    "Props.C94_verifier",
    "Props.C94_signer"
   ],
   "note": "proved; a signature taken serves for one verification (C63 finding: the point is overwritten), a second one without taking it again is outside the specification; keys in the history name points; a refused signature counts as a verdict of no until a message in pieces is begun"
  },
  {
   "property": "C95",
   "status": "proved",
   "theorems": [
    "Props.C95_verifier",
    "Props.C95_signer"
   ],
   "note": "proved; keys in the long form, identities below 8192 octets (C59 finding beyond); a signature taken serves for one verification (C57 finding: r is overwritten); giving an identity while a message is being fed is outside (it destroys the open hash); points with x-coordinate zero as in C57; private keys other than n - 1 for the signer (C58 finding)"
  },
  {
   "property": "C96",
   "status": "proved",
   "theorems": [
    "Props.C96_x25519",
    "Props.C96_x448",
    "Props.C96_written_after_opening"
   ],
   "note": "proved; outside the histories: public keys and ciphertexts longer than the standard length, encapsulating for the own key, opening a ciphertext this context made, writing the ciphertext after it was opened (finding: the call then writes the secret, C96_written_after_opening), and opening it again after a key was given"
  },
  {
   "property": "C97",
   "status": "proved",
   "theorems": [
    "Props.C97_history",
    "Props.C97_curves"
   ],
   "note": "proved; compressed ciphertexts (C56 finding), a second opening of a ciphertext and opening after encapsulating without a new private key (C55, C56 findings) are outside; histories end at a refused key or ciphertext; for the coordinate zero the octets of the prime may stand for zero"
  },
  {
   "property": "C98",
   "status": "proved",
   "theorems": [
    "Props.C98_v15",
    "Props.C98_oaep",
    "Props.C98_one_message",
    "Props.C98_empty_asked_twice"
   ],
   "note": "proved for histories in which a ciphertext asked about more than once does not hold the empty message; for that case the property is false of the code (C98_empty_asked_twice: the second answer contradicts the first); testing the label between the calls is outside (C33)"
  }
 ]
}