{
 "claims": [
  {
   "property": "C01",
   "status": "proved",
   "theorems": [
    "Verif.Props.C01_sm3_stream",
    "Verif.Props.C01_chunking_independent",
    "Verif.Props.C01_history_with_reset"
   ],
   "note": ""
  },
  {
   "property": "C02",
   "status": "proved",
   "theorems": [
    "Verif.Props.C02_sm3_spec",
    "Verif.Props.C02_compress",
    "Verif.Props.C01_sm3_stream"
   ],
   "note": ""
  },
  {
   "property": "C03",
   "status": "partial",
   "theorems": [
    "Verif.Props.C03_backends_agree_partial",
    "Verif.Props.C03_common_undefined"
   ],
   "note": "The reference backend shifts a 32-bit value by 32 (undefined in C++, proved); on platforms where that shift gives x or 0 the backends agree for all inputs."
  },
  {
   "property": "C04",
   "status": "proved",
   "theorems": [
    "Verif.Props.C04_update_blocks",
    "Verif.Props.C04_throws_iff"
   ],
   "note": ""
  },
  {
   "property": "C05",
   "status": "proved",
   "theorems": [
    "Verif.Props.C05_hmac"
   ],
   "note": "HMAC instantiated with SM3, the only 64-byte-block hash of the library."
  },
  {
   "property": "C06",
   "status": "proved",
   "theorems": [
    "Verif.Props.C06_ghash_field",
    "Verif.Props.C06_backends_agree",
    "Verif.Props.C06_ghash_object"
   ],
   "note": ""
  },
  {
   "property": "C07",
   "status": "partial",
   "theorems": [
    "Verif.Props.C07_safe_iff",
    "Verif.Props.C07_safe_64",
    "Verif.Props.C07_block16_violated",
    "Verif.Props.C07_chunking_64_partial"
   ],
   "note": "False as stated: memory safe exactly for block sizes 1 and 64 (proved); chunking independence proved for 64."
  },
  {
   "property": "C08",
   "status": "partial",
   "theorems": [
    "Verif.Props.C08_chunking_partial",
    "Verif.Props.C08_whole_block_chunks_partial",
    "Verif.Props.C08_outl_not_written",
    "Verif.Props.C08_stale_outl_violated"
   ],
   "note": "False as stated: some update calls leave *outl unwritten (proved for every mode and cipher). Chunking independence proved for callers that clear the variable before each call, or use whole-block chunks."
  },
  {
   "property": "C09",
   "status": "proved",
   "theorems": [
    "Verif.Props.C09_round_trip",
    "Verif.Props.C09_sm4_round_trip",
    "Verif.Props.C09_aes_round_trip"
   ],
   "note": ""
  },
  {
   "property": "C10",
   "status": "proved",
   "theorems": [
    "Verif.Props.C10_modes_spec",
    "Verif.Props.C10_sm4_modes",
    "Verif.Props.C10_aes_modes"
   ],
   "note": ""
  },
  {
   "property": "C11",
   "status": "proved",
   "theorems": [
    "Verif.Props.C11_ctr_inc",
    "Verif.Props.C11_ctr_inc_iterate"
   ],
   "note": ""
  },
  {
   "property": "C12",
   "status": "proved",
   "theorems": [
    "Verif.Props.C12_gctr_inc",
    "Verif.Props.C12_counters_distinct"
   ],
   "note": ""
  },
  {
   "property": "C13",
   "status": "proved",
   "theorems": [
    "Verif.Props.C13_gcm_encrypt",
    "Verif.Props.C13_sm4_gcm",
    "Verif.Props.C13_aes_gcm",
    "Verif.Props.C13_counter_repeats"
   ],
   "note": "For every length up to (2^64-1)/8 bytes; the shorter SP 800-38D limit is not enforced by the code (C13_counter_repeats)."
  },
  {
   "property": "C14",
   "status": "partial",
   "theorems": [
    "Verif.Props.C14_gcm_decrypt_partial",
    "Verif.Props.C14_gcm_decrypt_exact",
    "Verif.Props.C14_sm4_gcm_partial",
    "Verif.Props.C14_aes_gcm_partial",
    "Verif.Props.C14_round_trip_partial",
    "Verif.Props.C14_second_decryption_violated",
    "Verif.Props.C14_genuine_rejected_violated"
   ],
   "note": "False as stated: the padding of a ragged ciphertext is read from a function-local static that the previous decryption overwrote (proved). Proved for the first decryption in a process and for whole-block ciphertexts; C14_gcm_decrypt_exact gives the decision for every history; C14_genuine_rejected_violated shows for every cipher when a genuine message is rejected."
  },
  {
   "property": "C15",
   "status": "partial",
   "theorems": [
    "Verif.Props.C15_in_place_partial",
    "Verif.Props.C15_aes_inplace",
    "Verif.Props.C15_cbc_dec_in_place_violated",
    "Verif.Props.C15_buffered_in_place_violated"
   ],
   "note": "False for CBC decryption with batches of two or more blocks and for out==in calls while bytes are buffered (both proved); proved for all other modes and every chunking."
  },
  {
   "property": "C16",
   "status": "partial",
   "theorems": [
    "Verif.Props.C16_reset",
    "Verif.Props.C16_init_fresh_iff_partial",
    "Verif.Props.C16_init_after_final_violated",
    "Verif.Props.C16_gcm_reinit_partial",
    "Verif.Props.C16_gcm_reinit_violated",
    "Verif.Props.C89_reset_each"
   ],
   "note": "False: init() keeps buffered bytes (proved). Fresh exactly when the buffer is empty; reset() is right, also between any messages of a history (C89_reset_each)."
  },
  {
   "property": "C17",
   "status": "proved",
   "theorems": [
    "Verif.Props.C17_sm4_inverse",
    "Verif.Props.C17_common_inverse"
   ],
   "note": ""
  },
  {
   "property": "C18",
   "status": "proved",
   "theorems": [
    "Verif.Props.C18_sm4_spec",
    "Verif.Props.C18_sm4_blocks",
    "Verif.Props.C18_sm4_blocks_spec",
    "Verif.Props.C18_backends_agree",
    "Verif.Props.C18_common_blocks"
   ],
   "note": "Portable code paths; the AVX2 paths are C73."
  },
  {
   "property": "C19",
   "status": "proved",
   "theorems": [
    "Verif.Props.C19_aes_inverse",
    "Verif.Props.C19_fips_inverse"
   ],
   "note": "Look-up table backend; the AES-NI backend is C71."
  },
  {
   "property": "C20",
   "status": "proved",
   "theorems": [
    "Verif.Props.C20_aes_spec",
    "Verif.Props.C20_aes_blocks"
   ],
   "note": "Look-up table backend; the AES-NI backend is C71."
  },
  {
   "property": "C21",
   "status": "proved",
   "theorems": [
    "Verif.Props.C21_memxor_n",
    "Verif.Props.C21_memxor_fixed",
    "Verif.Props.C21_overlap_violated"
   ],
   "note": "All three build configurations, every length; holds for aliased, preceding or disjoint outputs; C21_overlap_violated shows the side condition is needed."
  },
  {
   "property": "C22",
   "status": "proved",
   "theorems": [
    "Verif.Props.C22_loads",
    "Verif.Props.C22_stores",
    "Verif.Props.C22_store_load",
    "Verif.Props.C22_load_store",
    "Verif.Props.C22_movbe_loads",
    "Verif.Props.C22_movbe_stores"
   ],
   "note": "Portable and MOVBE branches; alignment and aliasing of the cast pointers of the MOVBE branches are not modelled."
  },
  {
   "property": "C23",
   "status": "proved",
   "theorems": [
    "Verif.Props.C23_encode_der",
    "Verif.Props.C23_shortest",
    "Verif.Props.C23_decode_iff",
    "Verif.Props.C23_round_trip",
    "Verif.Props.C23_truncated",
    "Verif.Props.C23_overlong",
    "Verif.Props.C23_ber_accepted"
   ],
   "note": ""
  },
  {
   "property": "C24",
   "status": "proved",
   "theorems": [
    "Verif.Props.C24_identifier",
    "Verif.Props.C24_high_tag"
   ],
   "note": ""
  },
  {
   "property": "C25",
   "status": "partial",
   "theorems": [
    "Verif.Props.C25_violated",
    "Verif.Props.C25_bounds_partial",
    "Verif.Props.C25_boolean_exact",
    "Verif.Props.C25_bit_string_exact",
    "Verif.Props.C25_integer_exact",
    "Verif.Props.C25_caller_check",
    "Verif.Props.C25_caller_check_violated"
   ],
   "note": "The code violates the property (proved): declared lengths are not compared with the input length. Exactly which inputs are read past is proved, and exactly which check of the results a caller has to add."
  },
  {
   "property": "C26",
   "status": "partial",
   "theorems": [
    "Verif.Props.C26_encode",
    "Verif.Props.C26_round_trip_iff",
    "Verif.Props.C26_violated",
    "Verif.Props.C26_der_partial"
   ],
   "note": "The code violates the property (proved) for first octets 0x80 and above and for leading zeros; exact condition proved."
  },
  {
   "property": "C27",
   "status": "partial",
   "theorems": [
    "Verif.Props.C27_octet_string",
    "Verif.Props.C27_empty_violated",
    "Verif.Props.C27_boolean",
    "Verif.Props.C27_null",
    "Verif.Props.C27_sequence_set"
   ],
   "note": "Holds except for empty OCTET STRING/SEQUENCE/SET, which the decoders reject (proved)."
  },
  {
   "property": "C28",
   "status": "partial",
   "theorems": [
    "Verif.Props.C28_bit_string",
    "Verif.Props.C28_round_trip_iff",
    "Verif.Props.C28_violated"
   ],
   "note": "The code violates the property (proved); exact condition proved."
  },
  {
   "property": "C29",
   "status": "partial",
   "theorems": [
    "Verif.Props.C29_signature",
    "Verif.Props.C29_violated"
   ],
   "note": "The code violates the property (proved); exact condition proved."
  },
  {
   "property": "C30",
   "status": "partial",
   "theorems": [
    "Verif.Props.C30_mpz_add",
    "Verif.Props.C30_mpz_sub",
    "Verif.Props.C30_mpz_mul",
    "Verif.Props.C30_mpz_cmp",
    "Verif.Props.C30_mpz_cmp_x64_violated",
    "Verif.X64.Props.C30_x64_mpz_add",
    "Verif.X64.Props.C30_x64_mpz_sub",
    "Verif.X64.Props.C30_x64_mpz_mul"
   ],
   "note": "Both builds (32-bit and 64-bit limbs). Add, sub, mul, and the 32-bit cmp: proved in full. 64-bit limbs: mpz_cmp violates the property (proved)."
  },
  {
   "property": "C31",
   "status": "proved",
   "theorems": [
    "Verif.Props.C31_add_dbl_tpl",
    "Verif.Props.C31_sub",
    "Verif.Props.C31_mul_sqr",
    "Verif.Props.C31_word_ops",
    "Verif.Props.C31_div_word",
    "Verif.Props.C31_cmp",
    "Verif.Props.C31_bittest",
    "Verif.X64.Props.C31_x64_add_dbl_tpl",
    "Verif.X64.Props.C31_x64_sub",
    "Verif.X64.Props.C31_x64_mul_sqr",
    "Verif.X64.Props.C31_x64_word_ops",
    "Verif.X64.Props.C31_x64_div_word",
    "Verif.X64.Props.C31_x64_cmp",
    "Verif.X64.Props.C31_x64_bittest"
   ],
   "note": "Both builds."
  },
  {
   "property": "C32",
   "status": "proved",
   "theorems": [
    "Verif.Props.C32_uint256_mod",
    "Verif.Props.C32_zero_divisor_diverges",
    "Verif.X64.Props.C32_x64_uint256_mod",
    "Verif.X64.Props.C32_x64_zero_divisor_diverges"
   ],
   "note": "Both builds."
  },
  {
   "property": "C33",
   "status": "proved",
   "theorems": [
    "Verif.Props.C33_bytes",
    "Verif.Props.C33_mpz_bytes",
    "Verif.X64.Props.C33_x64_bytes",
    "Verif.X64.Props.C33_x64_mpz_bytes"
   ],
   "note": "Both builds."
  },
  {
   "property": "C34",
   "status": "proved",
   "theorems": [
    "Verif.Props.C34_mont_mul",
    "Verif.Props.C34_mont_mul_sqr",
    "Verif.Props.C34_unique",
    "Verif.X64.Props.C34_x64_mont_mul",
    "Verif.X64.Props.C34_x64_mont_mul_sqr",
    "Verif.X64.Props.C34_x64_unique"
   ],
   "note": "Both builds."
  },
  {
   "property": "C35",
   "status": "proved",
   "theorems": [
    "Verif.Props.C35_mont_linear",
    "Verif.Props.C35_mont_tpl",
    "Verif.X64.Props.C35_x64_mont_linear",
    "Verif.X64.Props.C35_x64_mont_tpl"
   ],
   "note": "Both builds."
  },
  {
   "property": "C36",
   "status": "partial",
   "theorems": [
    "Verif.Props.C36_mont_neg_partial",
    "Verif.Props.C36_neg_zero_violated",
    "Verif.Props.C36_neg_zero_observable",
    "Verif.X64.Props.C36_x64_mont_neg"
   ],
   "note": "The portable code violates the property at 0 (proved); proved for all non-zero operands. The 64-bit build satisfies it in full (proved)."
  },
  {
   "property": "C37",
   "status": "partial",
   "theorems": [
    "Verif.Props.C37_mont_pow_partial",
    "Verif.Props.C37_pow_exponent_zero_violated",
    "Verif.Props.C37_mont_inv",
    "Verif.X64.Props.C37_x64_mont_pow_partial",
    "Verif.X64.Props.C37_x64_pow_exponent_zero_violated",
    "Verif.X64.Props.C37_x64_mont_inv"
   ],
   "note": "Both builds violate the property at exponent 0 (proved); proved for every other exponent, and inversion in full."
  },
  {
   "property": "C38",
   "status": "proved",
   "theorems": [
    "Verif.Props.C38_mont_compute_N",
    "Verif.X64.Props.C38_x64_mont_compute_N"
   ],
   "note": "Both builds."
  },
  {
   "property": "C39",
   "status": "proved",
   "theorems": [
    "Verif.Props.C39_from_to_bytes",
    "Verif.Props.C39_to_bytes",
    "Verif.Props.C39_from_bytes_ex",
    "Verif.X64.Props.C39_x64_from_to_bytes",
    "Verif.X64.Props.C39_x64_to_bytes",
    "Verif.X64.Props.C39_x64_from_bytes_ex",
    "Verif.Props.C39_set_word",
    "Verif.X64.Props.C39_x64_set_word"
   ],
   "note": "Both builds."
  },
  {
   "property": "C40",
   "status": "proved",
   "theorems": [
    "Verif.Props.C40_primes",
    "Verif.Props.C40_sm2_constants",
    "Verif.Props.C40_sm2_group",
    "Verif.Props.C40_sm9_constants",
    "Verif.Props.C40_sm9_g1",
    "Verif.Props.C40_sm9_g2",
    "Verif.Props.C40_sm9_base",
    "Verif.Props.C40_sm2_default_id",
    "Verif.Props.C40_sm9_n_sub3"
   ],
   "note": "SM2 and SM9; group orders proved without counting points (no Hasse bound)."
  },
  {
   "property": "C41",
   "status": "partial",
   "theorems": [
    "Verif.Props.C41_dbl",
    "Verif.Props.C41_add_partial",
    "Verif.Props.C41_add_infinity_violated",
    "Verif.Props.C41_add_mixed_partial",
    "Verif.Props.C41_add_mixed_violated",
    "Verif.Props.C41_convert",
    "Verif.Props.C41_check"
   ],
   "note": "The code violates the property when exactly one operand is the point at infinity and for mixed doubling (proved); proved for all other points."
  },
  {
   "property": "C42",
   "status": "proved",
   "theorems": [
    "Verif.Props.C42_mul_a",
    "Verif.Props.C42_mul_g",
    "Verif.Props.C42_mul_affine"
   ],
   "note": ""
  },
  {
   "property": "C43",
   "status": "partial",
   "theorems": [
    "Verif.Props.C43_encode",
    "Verif.Props.C43_round_trip",
    "Verif.Props.C43_decode_full",
    "Verif.Props.C43_decode_compressed",
    "Verif.Props.C43_decode_other",
    "Verif.Props.C43_decode_on_curve",
    "Verif.Props.C43_truncated_reads_out_of_bounds",
    "Verif.Props.C43_mixed_parity_ignored",
    "Verif.Props.C43_noncanonical_accepted"
   ],
   "note": "Round trip and on-curve acceptance proved; the length argument is ignored, so truncated input is read out of bounds (proved), and the decoder is not injective (proved)."
  },
  {
   "property": "C44",
   "status": "proved",
   "theorems": [
    "Verif.Props.C44_sign_verify",
    "Verif.Props.C44_sign",
    "Verif.Props.C44_sign_step",
    "Verif.Props.SM2_hash_instance"
   ],
   "note": "For every hash class computing a hash function (SM3 is one), every key in [1,n-2], message, id and random answers."
  },
  {
   "property": "C45",
   "status": "partial",
   "theorems": [
    "Verif.Props.C45_verify",
    "Verif.Props.C45_verify_standard_partial",
    "Verif.Props.C45_infinity_accepted"
   ],
   "note": "The code accepts exactly the standard's signatures plus those whose point sum is the point at infinity with e = r mod n; such signatures exist for every key (C45_infinity_accepted), so the full claim is false of the code."
  },
  {
   "property": "C46",
   "status": "proved",
   "theorems": [
    "Verif.Props.C46_decrypt_encrypt",
    "Verif.Props.C46_encrypt",
    "Verif.Props.C46_encrypt_retry",
    "Verif.Props.C46_decrypt"
   ],
   "note": "Ciphertext layout C1 || C3 || C2 (the only one in the code), all three point encodings, every hash class computing a hash function."
  },
  {
   "property": "C47",
   "status": "partial",
   "theorems": [
    "Verif.Props.C47_gen_priv",
    "Verif.Props.C47_gen_priv_valid_partial",
    "Verif.Props.C47_gen_priv_can_be_invalid"
   ],
   "note": "The code can generate the key n-1 (one draw), which set_priv rejects and with which sign never returns; every other draw gives a valid key."
  },
  {
   "property": "C48",
   "status": "partial",
   "theorems": [
    "Verif.Props.C48_verify_terminates",
    "Verif.Props.C48_verify_returns_partial",
    "Verif.Props.C48_verify_not_total"
   ],
   "note": "verify is noexcept but the computation of Z throws for ids over 8191 octets: exact condition proved, with a concrete witness."
  },
  {
   "property": "C49",
   "status": "proved",
   "theorems": [
    "Verif.Props.C49_kdf"
   ],
   "note": "Every hash class computing a hash function with digests below 2^28 octets."
  },
  {
   "property": "C50",
   "status": "proved",
   "theorems": [
    "Verif.Props.C50_lengths",
    "Verif.Props.C50_plaintext_len"
   ],
   "note": ""
  },
  {
   "property": "C51",
   "status": "partial",
   "theorems": [
    "Verif.Props.C51_field_exists",
    "Verif.Props.C51_unique",
    "Verif.Props.C51_fp2",
    "Verif.Props.C51_fp4",
    "Verif.Props.C51_mixed",
    "Verif.Props.C51_fp12",
    "Verif.Props.C51_fp12_inv_partial",
    "Verif.Props.C51_inv_violated",
    "Verif.Props.C51_inv_one",
    "Verif.Props.C51_bytes"
   ],
   "note": "Every operation of the three levels in full, except fp12 inversion: the code inverts exactly the elements in InvRight and is wrong on all others, for example on every non-zero element of Fp4 (proved; inv(1) = 1 - w)."
  },
  {
   "property": "C52",
   "status": "proved",
   "theorems": [
    "Verif.Props.C52_hash_to_range"
   ],
   "note": "Every hash class computing a hash function; the function throws exactly when the input is too long to be hashed."
  },
  {
   "property": "C53",
   "status": "partial",
   "theorems": [
    "Verif.Props.C53_decoder_overread_iff",
    "Verif.Props.C53_decoder_violated",
    "Verif.Props.C53_decoder_partial"
   ],
   "note": "The code violates the property: the point decoder ignores the length and reads beyond a truncated signature (exact condition proved); no over-read with at least 65 octets."
  },
  {
   "property": "C54",
   "status": "partial",
   "theorems": [
    "Verif.Props.C54_encode",
    "Verif.Props.C54_round_trip_result",
    "Verif.Props.C54_round_trip_iff_partial",
    "Verif.Props.C54_violated",
    "Verif.Props.C54_standard_misread",
    "Verif.Props.C54_decode_decision",
    "Verif.Props.C54_compressed_encode",
    "Verif.Props.C54_mix_encode",
    "Verif.Props.C54_mix_round_trip_result",
    "Verif.Props.C54_compressed_violated",
    "Verif.Props.C54_compressed_opposite"
   ],
   "note": "The code violates the property: the round trip works only for points whose x0 equals y1 (exact result proved), fails for the generator, and standard encodings are misread."
  },
  {
   "property": "C55",
   "status": "proved",
   "theorems": [
    "Verif.Props.C55_sqrt"
   ],
   "note": "sqrt(0) fails, as the statement (non-zero squares) allows."
  },
  {
   "property": "C56",
   "status": "partial",
   "theorems": [
    "Verif.Props.C56_sign_verify_partial",
    "Verif.Props.C56_key_violated",
    "Verif.Props.C56_identity_violated",
    "Verif.Props.C56_point_violated"
   ],
   "note": "The code violates the property: for every identity there is a master key under which every signature is rejected, and an identity hashing to the master key or N-2 makes verification independent of the key (proved). Proved otherwise, when no pairing hits an inversion that fp12 inversion gets wrong."
  },
  {
   "property": "C57",
   "status": "partial",
   "theorems": [
    "Verif.Props.C57_mul_exact",
    "Verif.Props.C57_mul_partial",
    "Verif.Props.C57_mul_g_partial",
    "Verif.Props.C57_mul_violated",
    "Verif.Props.C57_g2_mul_exact",
    "Verif.Props.C57_g2_mul_g_partial",
    "Verif.Props.C57_g2_mul_violated"
   ],
   "note": "The code violates the property for k = -2 mod n, where it returns infinity for every point (exact behaviour proved for both groups); proved for every other scalar. G2 theorems are about points of order n."
  },
  {
   "property": "C58",
   "status": "proved",
   "theorems": [
    "Verif.Props.C58_set_priv",
    "Verif.Props.C58_pub_round_trip",
    "Verif.Props.C58_set_pub"
   ],
   "note": ""
  },
  {
   "property": "C59",
   "status": "partial",
   "theorems": [
    "Verif.Props.C59_outl",
    "Verif.Props.C59_overflow"
   ],
   "note": "Holds below 2^56; at or above 2^56 octets the helper overflows its scratch array (proved)."
  },
  {
   "property": "C60",
   "status": "partial",
   "theorems": [
    "Verif.Props.C60_private_key",
    "Verif.Props.C60_public_key",
    "Verif.Props.C60_public_key_length",
    "Verif.Props.C60_ciphertext"
   ],
   "note": "Public keys: proved. Private keys and ciphertexts round-trip exactly under the stated condition and are rejected otherwise (proved)."
  },
  {
   "property": "C61",
   "status": "partial",
   "theorems": [
    "Verif.Props.C61_fp12_pow_partial",
    "Verif.Props.C61_pow_zero_reads_past"
   ],
   "note": "Proved for every non-zero exponent; with exponent zero the code reads past the exponent (proved)."
  },
  {
   "property": "C62",
   "status": "proved",
   "theorems": [
    "Verif.Props.C62_frobenius",
    "Verif.Props.C62_card"
   ],
   "note": ""
  },
  {
   "property": "C63",
   "status": "partial",
   "theorems": [
    "Verif.Props.C63_final_exp_partial",
    "Verif.Props.C63_hypotheses_met",
    "Verif.Props.C63_order_divides",
    "Verif.Props.C63_final_exp_violated"
   ],
   "note": "Proved whenever neither inversion hits the elements fp12 inversion gets wrong; violated at 1 (proved)."
  },
  {
   "property": "C64",
   "status": "partial",
   "theorems": [
    "Verif.Props.C64_g1_partial",
    "Verif.Props.C64_g1_add_infinity_violated",
    "Verif.Props.C64_g1_check",
    "Verif.Props.C64_g2_partial",
    "Verif.Props.C64_g2_add_infinity_violated",
    "Verif.Props.C64_g2_check"
   ],
   "note": "The code violates the property when exactly one operand of an addition is infinity and for mixed doubling (proved); proved for all other points of both groups."
  },
  {
   "property": "C65",
   "status": "partial",
   "theorems": [
    "Verif.Props.C65_encode",
    "Verif.Props.C65_round_trip",
    "Verif.Props.C65_decode_full",
    "Verif.Props.C65_decode_compressed",
    "Verif.Props.C65_decode_other",
    "Verif.Props.C65_decode_on_curve",
    "Verif.Props.C65_noncanonical_accepted"
   ],
   "note": "Encoding, round trip and on-curve acceptance proved; the decoder is not injective (proved), and truncated input is C53."
  },
  {
   "property": "C66",
   "status": "partial",
   "theorems": [
    "Verif.Props.C66_pairing_total",
    "Verif.Props.C66_pairing_partial",
    "Verif.Props.C66_pairing_zero_violated",
    "Verif.Props.C102_pairing_value_partial"
   ],
   "note": "Bilinearity and non-degeneracy proved whenever neither inversion of the final exponentiation hits the elements fp12 inversion gets wrong; totality in full; the point at infinity of G2 pairs to 0 instead of 1 (proved)."
  },
  {
   "property": "C67",
   "status": "partial",
   "theorems": [
    "Verif.Props.C67_set_priv_range",
    "Verif.Props.C67_set_priv_partial",
    "Verif.Props.C67_gen_priv",
    "Verif.Props.C67_weak_key_violated",
    "Verif.Props.C67_forgery_violated"
   ],
   "note": "The code violates the property for the master key N-2, whose public key is (0,0) and allows forging any signature (proved). Range check, derived keys and generation proved; the stored pairing value under the same condition as C66."
  },
  {
   "property": "C68",
   "status": "partial",
   "theorems": [
    "Verif.Props.C68_equation_partial",
    "Verif.Props.C68_accept",
    "Verif.Props.C68_total",
    "Verif.Props.C68_keys_ok"
   ],
   "note": "Acceptance conditions, and exact conditions for termination and out-of-bounds reads, proved in full; the equation for all identities with h1 not N-2, ks or N-ks. The code violates totality: over-reads and std::terminate (exact conditions proved)."
  },
  {
   "property": "C69",
   "status": "partial",
   "theorems": [
    "Verif.Props.C69_set_pub",
    "Verif.Props.C69_pub_round_trip",
    "Verif.Props.C69_master_pub_partial",
    "Verif.Props.C69_priv_partial",
    "Verif.Props.C69_set_sign_priv",
    "Verif.Props.C69_subgroup_violated"
   ],
   "note": "Import checks and round trips proved; set_pub accepts points of the twist outside G2 (proved), and the public key of N-2 does not come back (C67_weak_key_violated)."
  },
  {
   "property": "C70",
   "status": "partial",
   "theorems": [
    "Verif.X64.Props.C70_x64_same_bytes_partial",
    "Verif.X64.Props.C70_x64_all_programs",
    "Verif.X64.Props.C70_x64_neg_violated"
   ],
   "note": "Proved for every program of field operations that does not negate zero; negating zero makes the two builds differ (proved)."
  },
  {
   "property": "C71",
   "status": "partial",
   "theorems": [
    "Verif.Props.C71_aesni_spec_partial",
    "Verif.Props.C71_aesni_exact",
    "Verif.Props.C71_aesni_192_violated",
    "Verif.Props.C71_aesni_rest_ignored",
    "Verif.Props.C71_aesni_same_as_lut",
    "Verif.Props.C71_aesni_blocks",
    "Verif.Props.C71_aesni_inverse",
    "Verif.Props.C71_aesni_modes",
    "Verif.Props.C71_aesni_gcm"
   ],
   "note": "FIPS 197 and agreement with the table build proved for all keys and blocks; 192-bit key setup reads eight bytes past the key (proved), the bytes read have no influence (proved)."
  },
  {
   "property": "C72",
   "status": "proved",
   "theorems": [
    "Verif.Props.C72_pclmul_same_as_lut",
    "Verif.Props.C72_pclmul_spec",
    "Verif.Props.C72_pclmul_field"
   ],
   "note": ""
  },
  {
   "property": "C73",
   "status": "proved",
   "theorems": [
    "Verif.Props.C73_avx2_blocks",
    "Verif.Props.C73_avx2_same_as_portable",
    "Verif.Props.C73_avx2_spec",
    "Verif.Props.C73_avx2_modes",
    "Verif.Props.C73_avx2_gcm"
   ],
   "note": ""
  },
  {
   "property": "C74",
   "status": "partial",
   "theorems": [
    "Verif.Props.C74_dump_partial",
    "Verif.Props.C74_dump_valid",
    "Verif.Props.C74_overread_violated",
    "Verif.Props.C74_nested_error_violated",
    "Verif.Props.C74_termination_violated"
   ],
   "note": "Exact output, termination and memory safety proved for input whose lengths stay inside the enclosing element; otherwise the code over-reads, hides nested errors and can loop for ever (proved)."
  },
  {
   "property": "C75",
   "status": "proved",
   "theorems": [
    "Verif.Props.C75_rows",
    "Verif.Props.C75_rows_cover",
    "Verif.Props.C75_aligned",
    "Verif.Props.C75_maxline_zero"
   ],
   "note": "For item formats that consume one integer."
  },
  {
   "property": "C76",
   "status": "proved",
   "theorems": [
    "Verif.Props.C76_hardware_fills",
    "Verif.Props.C76_hardware_throws",
    "Verif.Props.C76_os_fills",
    "Verif.Props.C76_std_fills"
   ],
   "note": "The answers of hardware, operating system and random_device are parameters."
  },
  {
   "property": "C77",
   "status": "partial",
   "theorems": [
    "Verif.Props.C77_cstd_repeats_violated",
    "Verif.Props.C77_cstd_seed_violated",
    "Verif.Props.C77_cstd_key_violated"
   ],
   "note": "False of CstdRng whatever the C library (proved), down to the loss of an SM2 key. For the other generators distinctness is a property of the source, outside the code."
  },
  {
   "property": "C78",
   "status": "partial",
   "theorems": [
    "Verif.Props.C78_sm2_field",
    "Verif.Props.C78_sm9_field",
    "Verif.Props.C78_div2",
    "Verif.Props.C78_sm9_fp2",
    "Verif.Props.C78_sm9_fp4",
    "Verif.Props.C78_sm9_fp12",
    "Verif.Props.C78_sm2_points",
    "Verif.Props.C78_sm9_points",
    "Verif.Props.C78_sm9_points2",
    "Verif.Props.C78_fp2_mul_fp_violated",
    "Verif.Props.C78_fp2_mul_fp_partial",
    "Verif.Props.C78_fp4_mul_fp2_partial",
    "Verif.Props.C78_fp12_mul_fp4_partial",
    "Verif.Props.C78_fp4_mul_fp_partial"
   ],
   "note": "Proved for every field and point function on operands of the same field; the products with an element of a subfield are wrong when the factor is a component of the result (proved, no caller does this) and right otherwise."
  },
  {
   "property": "C79",
   "status": "proved",
   "theorems": [
    "Verif.X64.Props.C79_x64_pub_session",
    "Verif.X64.Props.C79_x64_priv_session",
    "Verif.X64.Props.C79_x64_gen_session",
    "Verif.X64.Props.C79_x64_sign_verify",
    "Verif.X64.Props.C79_x64_encrypt_decrypt"
   ],
   "note": "SM2 functions restated over the 64-bit limbs; octet-only parts (Z, KDF) are shared by both builds."
  },
  {
   "property": "C80",
   "status": "proved",
   "theorems": [
    "Verif.X64.Props.C80_x64_fp12_inv",
    "Verif.X64.Props.C80_x64_fp12",
    "Verif.X64.Props.C80_x64_final_exp",
    "Verif.X64.Props.C80_x64_pairing_total",
    "Verif.X64.Props.C80_x64_pairing",
    "Verif.X64.Props.C80_x64_inv_one_differs",
    "Verif.X64.Props.C80_x64_pairing_zero_violated"
   ],
   "note": "Right for every element and every pair of finite points; at the representation (0, 0) of infinity the pairing is 0 (proved)."
  },
  {
   "property": "C81",
   "status": "partial",
   "theorems": [
    "Verif.X64.Props.C81_x64_set_priv_range",
    "Verif.X64.Props.C81_x64_gen_priv",
    "Verif.X64.Props.C81_x64_set_priv_partial",
    "Verif.X64.Props.C81_x64_sign_verify_partial",
    "Verif.X64.Props.C81_x64_equation_partial",
    "Verif.X64.Props.C81_x64_accept",
    "Verif.X64.Props.C81_x64_total",
    "Verif.X64.Props.C81_x64_keys_ok",
    "Verif.X64.Props.C81_x64_set_pub",
    "Verif.X64.Props.C81_x64_pub_round_trip",
    "Verif.X64.Props.C81_x64_master_pub_partial",
    "Verif.X64.Props.C81_x64_forgery_violated",
    "Verif.X64.Props.C81_x64_weak_key_violated",
    "Verif.X64.Props.C81_x64_key_violated",
    "Verif.X64.Props.C81_x64_identity_violated",
    "Verif.X64.Props.C81_x64_point_violated"
   ],
   "note": "No assumption on pairings is needed; what is excluded are the failures of the algorithms (key N-2, identities hashing to N-2 or the master key, 3ks+2h1 = 0, the point (0,0)), each proved to be a failure."
  },
  {
   "property": "C82",
   "status": "partial",
   "theorems": [
    "Verif.X64.Props.C82_x64_master_octets",
    "Verif.X64.Props.C82_x64_generated_octets",
    "Verif.X64.Props.C82_x64_public_octets",
    "Verif.X64.Props.C82_x64_issued_octets",
    "Verif.X64.Props.C82_x64_sign_partial",
    "Verif.X64.Props.C82_x64_verify_partial",
    "Verif.X64.Props.C82_x64_accepts_portable_partial"
   ],
   "note": "Key octets agree for all inputs; signatures and verdicts agree unless an inversion goes wrong in a pairing of the portable build (C51, C66)."
  },
  {
   "property": "C83",
   "status": "partial",
   "theorems": [
    "Verif.Props.C83_sm2_priv",
    "Verif.Props.C83_sm2_pub",
    "Verif.Props.C83_sm9_master",
    "Verif.Props.C83_sm9_pub",
    "Verif.Props.C83_sm9_sign_priv_partial",
    "Verif.Props.C83_sm9_sign_priv_violated"
   ],
   "note": "Proved for every history of calls on SM2PrivateKey, SM2PublicKey, SM9SignMasterPrivateKey and SM9SignMasterPublicKey; SM9SignPrivateKey::set_priv throws half-way and mixes two keys (proved)."
  },
  {
   "property": "C84",
   "status": "partial",
   "theorems": [
    "Verif.Props.C84_encrypt_frame",
    "Verif.Props.C84_decrypt_frame",
    "Verif.Props.C84_encrypt_partial",
    "Verif.Props.C84_decrypt_partial",
    "Verif.Props.C84_decrypt_release_violated",
    "Verif.Props.C84_decrypt_over_digest_violated",
    "Verif.Props.C84_encrypt_in_place_violated",
    "Verif.Props.C84_retry_plaintext_violated"
   ],
   "note": "No octet outside the output is written, whatever overlaps. Right for buffers that are apart and for several overlaps; the other overlaps, the plaintext left behind by a refused decryption and the plaintext exposed while encryption retries are proved failures."
  },
  {
   "property": "C85",
   "status": "partial",
   "theorems": [
    "Verif.X64.Props.C85_x64_encode",
    "Verif.X64.Props.C85_x64_round_trip",
    "Verif.X64.Props.C85_x64_decode_full",
    "Verif.X64.Props.C85_x64_decode_compressed",
    "Verif.X64.Props.C85_x64_decode_other",
    "Verif.X64.Props.C85_x64_overread_iff",
    "Verif.X64.Props.C85_x64_overread_violated",
    "Verif.X64.Props.C85_x64_twist_encode",
    "Verif.X64.Props.C85_x64_twist_round_trip",
    "Verif.X64.Props.C85_x64_twist_round_trip_iff_partial",
    "Verif.X64.Props.C85_x64_twist_violated",
    "Verif.X64.Props.C85_x64_twist_decode",
    "Verif.X64.Props.C85_x64_twist_forms",
    "Verif.X64.Props.C85_x64_fp12_octets",
    "Verif.X64.Props.C85_x64_fp12_read",
    "Verif.X64.Props.C85_x64_set_sign_priv",
    "Verif.X64.Props.C85_x64_sign_priv_round_trip",
    "Verif.X64.Props.C85_x64_sign_priv_octets",
    "Verif.X64.Props.C85_x64_priv_round_trip"
   ],
   "note": "Proved for G1 points, target-group elements and private keys, and both builds agree on all octets; as in the portable build the G1 decoder reads beyond short inputs and the G2 encoding does not round-trip (both proved, with exact conditions)."
  },
  {
   "property": "C86",
   "status": "partial",
   "theorems": [
    "Verif.Props.C86_any_schedule",
    "Verif.Props.C86_serial_exact",
    "Verif.Props.C86_serial_whole_partial",
    "Verif.Props.C86_serial_first_partial",
    "Verif.Props.C86_race_forgery_violated",
    "Verif.Props.C86_race_reject_violated",
    "Verif.Props.C86_serial_after_any_violated",
    "Verif.Props.C86_agrees_with_C14",
    "Verif.Props.C86_can_start"
   ],
   "note": "Plaintext and memory safety proved under every schedule; the verdict is right when calls do not overlap in time and the ciphertext is whole blocks or the first of the process. Otherwise a forged message can be accepted and a genuine one rejected (proved for every cipher): the computed tag lives in a function-local static."
  },
  {
   "property": "C87",
   "status": "partial",
   "theorems": [
    "Verif.Props.C87_encryptor_same",
    "Verif.Props.C87_decryptor_same",
    "Verif.Props.C87_encrypt",
    "Verif.Props.C87_decrypt_partial",
    "Verif.Props.C87_second_decryption_violated",
    "Verif.Props.C87_aesni_gcm",
    "Verif.Props.C87_sm4_avx2_gcm"
   ],
   "note": "Proved in full except that decryption of ragged messages inherits the failure of C14 (proved for this build as well)."
  },
  {
   "property": "C88",
   "status": "proved",
   "theorems": [
    "Verif.Props.C88_sm3_history",
    "Verif.Props.C88_sm3_history_total",
    "Verif.Props.C88_hmac_history",
    "Verif.Props.C88_hmac_history_total",
    "Verif.Props.C88_sm3_final_needs_reset",
    "Verif.Props.C88_hmac_final_needs_key"
   ],
   "note": "Proved for all histories; the two needs_ theorems show that the reset() / set_key of the statement cannot be dropped."
  },
  {
   "property": "C89",
   "status": "partial",
   "theorems": [
    "Verif.Props.C89_history_exact",
    "Verif.Props.C89_reset_each",
    "Verif.Props.C89_init_whole_partial",
    "Verif.Props.C89_init_carries_over_violated",
    "Verif.Props.C89_final_agrees"
   ],
   "note": "Exact behaviour proved for all histories (C89_history_exact); it is the expected one when messages are begun with reset or all are whole blocks. A message begun with init is processed with the tail of the previous one in front (proved for every cipher)."
  },
  {
   "property": "C90",
   "status": "partial",
   "theorems": [
    "Verif.Props.C90_encrypt_exact",
    "Verif.Props.C90_decrypt_exact",
    "Verif.Props.C90_encrypt_whole_partial",
    "Verif.Props.C90_decrypt_whole_partial",
    "Verif.Props.C90_encrypt_carries_over_violated",
    "Verif.Props.C90_decrypt_carries_over_violated",
    "Verif.Props.C90_final_agrees",
    "Verif.Props.C90_run_agrees"
   ],
   "note": "Exact behaviour proved for all histories (C90_encrypt_exact, C90_decrypt_exact); it is the expected one if all messages are whole blocks. After any other message the next one has its tail in front (proved for every cipher), and decryption pads with what the last decryption left in a static variable."
  },
  {
   "property": "C91",
   "status": "proved",
   "theorems": [
    "Verif.Props.C91_field",
    "Verif.Props.C91_key_count",
    "Verif.Props.C91_forgery_bound",
    "Verif.Props.C91_same_message"
   ],
   "note": "The modulus of GHASH is proved irreducible (Rabin), tags are polynomials in the hash key, different messages have different polynomials. Hash keys are counted; nothing is assumed or proved about how the cipher distributes them."
  },
  {
   "property": "C92",
   "status": "proved",
   "theorems": [
    "Verif.Props.C92_digest",
    "Verif.Props.C92_mac",
    "Verif.Props.C92_sm2_digest",
    "Verif.Props.C92_signature",
    "Verif.Props.C92_different"
   ],
   "note": "The Merkle-Damgard argument: the padding is injective and ends with the length, so equal digests can be followed back to a collision. Collisions exist (counting); the theorem says where one is, in the two runs."
  },
  {
   "property": "C93",
   "status": "partial",
   "theorems": [
    "Verif.X64.Props.C93_x64_sm2_field",
    "Verif.X64.Props.C93_x64_sm9_field",
    "Verif.X64.Props.C93_x64_div2",
    "Verif.X64.Props.C93_x64_sm9_fp2",
    "Verif.X64.Props.C93_x64_sm9_fp4",
    "Verif.X64.Props.C93_x64_sm9_fp12",
    "Verif.X64.Props.C93_x64_sm2_points",
    "Verif.X64.Props.C93_x64_sm9_points",
    "Verif.X64.Props.C93_x64_sm9_points2",
    "Verif.X64.Props.C93_x64_fp2_mul_fp_violated",
    "Verif.X64.Props.C93_x64_fp2_mul_fp_partial",
    "Verif.X64.Props.C93_x64_fp4_mul_fp2_partial",
    "Verif.X64.Props.C93_x64_fp12_mul_fp4_partial",
    "Verif.X64.Props.C93_x64_fp4_mul_fp_partial"
   ],
   "note": "Partial for the same reason as C78: sm9_fp2_mul_fp and its relatives may not get a component of the result as factor (C93_x64_fp2_mul_fp_violated)."
  },
  {
   "property": "C94",
   "status": "proved",
   "theorems": [
    "Verif.Props.C94_gives_something",
    "Verif.Props.C94_ecb",
    "Verif.Props.C94_cbc",
    "Verif.Props.C94_cfb",
    "Verif.Props.C94_ofb",
    "Verif.Props.C94_ctr",
    "Verif.Props.C94_gcm",
    "Verif.Props.C94_gcm_tag",
    "Verif.Props.C94_gcm_iv_reuse",
    "Verif.Props.C94_gcm_wrong_iv",
    "Verif.Props.C94_sm4",
    "Verif.Props.C94_aes",
    "Verif.Props.C94_sm4_ctr"
   ],
   "note": "For every cipher injective on blocks, with SM4 and AES as instances. The rejection of a wrong IV is stated for processes where the defect of C14 does not show. GCM messages of more than 2^32 blocks are not refused and repeat their masks, as the equivalence says."
  },
  {
   "property": "C95",
   "status": "proved",
   "theorems": [
    "Verif.Props.C95_start_anywhere",
    "Verif.Props.C95_start_exists",
    "Verif.Props.C95_ecb",
    "Verif.Props.C95_cbc",
    "Verif.Props.C95_cfb",
    "Verif.Props.C95_ofb_ctr",
    "Verif.Props.C95_error_spread",
    "Verif.Props.C95_sm4",
    "Verif.Props.C95_aes"
   ],
   "note": "For every cipher; where a change must be felt, for ciphers injective on blocks, with SM4 and AES as instances."
  },
  {
   "property": "C96",
   "status": "proved",
   "theorems": [
    "Verif.Props.C96_public_keys",
    "Verif.Props.C96_one_draw",
    "Verif.Props.C96_signature_nonce",
    "Verif.Props.C96_nonce_reuse",
    "Verif.Props.C96_accepted_halves",
    "Verif.Props.C96_degenerate_key",
    "Verif.Props.C96_ciphertext_nonce",
    "Verif.Props.C96_encrypt_nonce_reuse",
    "Verif.Props.C96_ciphertext_message",
    "Verif.X64.Props.C96_x64_public_keys",
    "Verif.X64.Props.C96_x64_signature_nonce",
    "Verif.X64.Props.C96_x64_nonce_reuse",
    "Verif.X64.Props.C96_x64_accepted_halves",
    "Verif.X64.Props.C96_x64_degenerate_key",
    "Verif.X64.Props.C96_x64_ciphertext_nonce",
    "Verif.X64.Props.C96_x64_encrypt_nonce_reuse",
    "Verif.X64.Props.C96_x64_ciphertext_message"
   ],
   "note": "Both builds. Five instead of four accepted halves because the point at infinity is accepted (C45)."
  },
  {
   "property": "C97",
   "status": "partial",
   "theorems": [
    "Verif.Props.C97_master_keys",
    "Verif.Props.C97_identity_keys",
    "Verif.Props.C97_signature_nonce",
    "Verif.Props.C97_nonce_reuse",
    "Verif.X64.Props.C97_x64_master_keys",
    "Verif.X64.Props.C97_x64_identity_keys",
    "Verif.X64.Props.C97_x64_signature_nonce",
    "Verif.X64.Props.C97_x64_nonce_reuse",
    "Verif.X64.Props.C97_x64_point_partial",
    "Verif.X64.Props.C97_x64_point_violated",
    "Verif.Props.C97_point_partial",
    "Verif.Props.C97_point_violated"
   ],
   "note": "All clauses but the last in full, for both builds. The last one is false for the master key N-2 and for identities whose H1 is the master key, its negative or N-2 (C81_x64_forgery_violated, C97_x64_point_violated, C97_point_violated); proved for all others in the 64-bit build, and in the portable build for pairings in which no inversion goes wrong."
  },
  {
   "property": "C98",
   "status": "partial",
   "theorems": [
    "Verif.X64.Props.C98_x64_sm2_priv",
    "Verif.X64.Props.C98_x64_sm2_pub",
    "Verif.X64.Props.C98_x64_sm9_master",
    "Verif.X64.Props.C98_x64_sm9_pub",
    "Verif.X64.Props.C98_x64_sm9_sign_priv_partial",
    "Verif.X64.Props.C98_x64_sm9_sign_priv_violated"
   ],
   "note": "Partial for the same reason as C83: SM9SignPrivateKey::set_priv throws half-way and mixes two keys (proved). In full for the other four classes."
  },
  {
   "property": "C99",
   "status": "partial",
   "theorems": [
    "Verif.Props.C99_same",
    "Verif.Props.C99_encrypt_exact",
    "Verif.Props.C99_decrypt_exact",
    "Verif.Props.C99_encrypt_whole_partial",
    "Verif.Props.C99_decrypt_whole_partial",
    "Verif.Props.C99_encrypt_carries_over_violated",
    "Verif.Props.C99_decrypt_carries_over_violated",
    "Verif.Props.C99_forgery_bound",
    "Verif.Props.C99_same_message",
    "Verif.Props.C99_genuine_rejected_violated"
   ],
   "note": "Partial for the same reasons as C90 and C14: buffered octets of a ragged message are carried over into the next one, and a static buffer is not cleared (both proved). In full: exact behaviour of every history, equality with the table build, the forgery bound."
  },
  {
   "property": "C100",
   "status": "partial",
   "theorems": [
    "Verif.Props.C100_mpz_add_sub",
    "Verif.Props.C100_mpz_add_exact",
    "Verif.Props.C100_mpz_sub_exact",
    "Verif.Props.C100_uint256",
    "Verif.Props.C100_div_word",
    "Verif.Props.C100_mul_partial",
    "Verif.Props.C100_mul_in_place_violated",
    "Verif.Props.C100_mul_placement_exact",
    "Verif.Props.C100_mod_add_sub_partial",
    "Verif.Props.C100_mod_add_over_divisor",
    "Verif.Props.C100_mod_add_over_divisor_violated",
    "Verif.Props.C100_mod_partial",
    "Verif.Props.C100_mod_over_divisor_violated",
    "Verif.X64.Props.C100_x64_mpz_add_sub",
    "Verif.X64.Props.C100_x64_mpz_add_exact",
    "Verif.X64.Props.C100_x64_mpz_sub_exact",
    "Verif.X64.Props.C100_x64_uint256",
    "Verif.X64.Props.C100_x64_div_word",
    "Verif.X64.Props.C100_x64_mul_partial",
    "Verif.X64.Props.C100_x64_mul_in_place_violated",
    "Verif.X64.Props.C100_x64_mul_placement_exact",
    "Verif.X64.Props.C100_x64_mod_add_sub_partial",
    "Verif.X64.Props.C100_x64_mod_add_over_divisor",
    "Verif.X64.Props.C100_x64_mod_partial",
    "Verif.X64.Props.C100_x64_mod_over_divisor_violated"
   ],
   "note": "Full for the functions that run once through the words, with the exact condition on the placement for addition and subtraction. A product stored over an operand is wrong, a modular sum stored over the divisor is always zero, uint256_mod with the remainder over the divisor never returns (all proved, for both builds); the _partial theorems exclude these placements. Byte arrays that overlap limb arrays: C106."
  },
  {
   "property": "C101",
   "status": "proved",
   "theorems": [
    "Verif.Props.C101_pow",
    "Verif.Props.C101_inv",
    "Verif.Props.C101_sqrt",
    "Verif.Props.C101_fp12_pow",
    "Verif.Props.C101_sm2_mul",
    "Verif.Props.C101_sm9_mul",
    "Verif.X64.Props.C101_x64_pow",
    "Verif.X64.Props.C101_x64_inv",
    "Verif.X64.Props.C101_x64_sqrt",
    "Verif.X64.Props.C101_x64_fp12_pow",
    "Verif.X64.Props.C101_x64_sm2_mul",
    "Verif.X64.Props.C101_x64_sm9_mul"
   ],
   "note": "The programs on memory call the field functions proved safe in place in C78 and C93; the octets of exponents and scalars that are given as octets are values."
  },
  {
   "property": "C102",
   "status": "proved",
   "theorems": [
    "Verif.Props.C102_pairing",
    "Verif.Props.C102_pairing_gen",
    "Verif.Props.C102_final_exp",
    "Verif.Props.C102_frobenius",
    "Verif.Props.C102_frobenius_point",
    "Verif.Props.C102_pairing_returns",
    "Verif.X64.Props.C102_x64_pairing",
    "Verif.X64.Props.C102_x64_pairing_gen",
    "Verif.X64.Props.C102_x64_final_exp",
    "Verif.X64.Props.C102_x64_frobenius",
    "Verif.X64.Props.C102_x64_frobenius_point",
    "Verif.X64.Props.C102_x64_pairing_returns",
    "Verif.X64.Props.C102_x64_pairing_value"
   ],
   "note": "The program on memory computes the function on values proved about in C66 and C80; that C66 does not cover all points of the portable build is recorded there (C102_pairing_value_partial). The second result of the line functions is in the model of the memory; no caller reads it."
  },
  {
   "property": "C103",
   "status": "proved",
   "theorems": [
    "Verif.Props.C103_sm2_sign",
    "Verif.Props.C103_sm2_sign_verify",
    "Verif.Props.C103_sm9_sign",
    "Verif.Props.C103_sm9_sign_frame",
    "Verif.Props.C103_sm9_verify",
    "Verif.Props.C103_sm9_issue",
    "Verif.Props.C103_sm9_issue_throws",
    "Verif.X64.Props.C103_x64_sm2_sign",
    "Verif.X64.Props.C103_x64_sm2_sign_verify",
    "Verif.X64.Props.C103_x64_sm9_sign",
    "Verif.X64.Props.C103_x64_sm9_sign_frame",
    "Verif.X64.Props.C103_x64_sm9_verify",
    "Verif.X64.Props.C103_x64_sm9_issue",
    "Verif.X64.Props.C103_x64_sm9_issue_throws"
   ],
   "note": "On memory the functions give what the functions on values of C44, C45, C56, C68, C79 and C81 give; which SM9 signatures verify is stated there. The place of *outl is not modelled; SM2 verify reads only and is covered by C45."
  },
  {
   "property": "C104",
   "status": "partial",
   "theorems": [
    "Verif.Props.C104_octet_string",
    "Verif.Props.C104_bit_string",
    "Verif.Props.C104_integer",
    "Verif.Props.C104_in_place_violated",
    "Verif.Props.C104_octet_string_in_place",
    "Verif.Props.C104_signature_partial",
    "Verif.Props.C104_signature_violated",
    "Verif.Props.C104_signature_reencode",
    "Verif.Props.C104_ciphertext_partial"
   ],
   "note": "The code violates the claim for data under the header octets (C104_in_place_violated, C104_signature_violated); C104_octet_string, C104_bit_string and C104_integer give the exact condition under which it holds. For the SM2 structures a sufficient condition is proved."
  },
  {
   "property": "C105",
   "status": "proved",
   "theorems": [
    "Verif.Props.C105_history",
    "Verif.Props.C105_digest_over_data",
    "Verif.Props.C105_mac_over_key"
   ],
   "note": "For programs that stay inside the memory, begin every message and hash fewer than 2^61 - 64 octets in all; beyond that C04 and C88 say what happens."
  },
  {
   "property": "C106",
   "status": "proved",
   "theorems": [
    "Verif.Props.C106_from_bytes",
    "Verif.Props.C106_to_bytes",
    "Verif.Props.C106_uint256",
    "Verif.Props.C106_in_place",
    "Verif.Props.C106_in_place_exact",
    "Verif.X64.Props.C106_x64_mpz",
    "Verif.X64.Props.C106_x64_uint256",
    "Verif.X64.Props.C106_x64_in_place"
   ],
   "note": "Limbs lie in memory with the low octet first. The Montgomery conversions mont256_to_bytes and mont256_from_bytes_ex work in a local array and are not part of the claim."
  },
  {
   "property": "C107",
   "status": "partial",
   "theorems": [
    "Verif.Props.C107_private_key_iff",
    "Verif.Props.C107_public_key_iff",
    "Verif.Props.C107_signature_iff",
    "Verif.Props.C107_ciphertext_iff",
    "Verif.Props.C107_truncated_violated",
    "Verif.Props.C107_malleable_violated",
    "Verif.Props.C107_ciphertext_violated",
    "Verif.Props.C107_short_violated",
    "Verif.Props.C107_checked_partial",
    "Verif.Props.C107_padded",
    "Verif.Props.C107_padded_tight",
    "Verif.Props.C107_ciphertext_padded_violated"
   ],
   "note": "The claim is false of the code: the accepted set is proved exactly (iff) for the four decoders, and it contains truncated and malleable encodings. How many readable octets keep the decoders inside the buffer is proved too; for ciphertexts no number is enough."
  },
  {
   "property": "C108",
   "status": "proved",
   "theorems": [
    "Verif.Props.C108_history",
    "Verif.Props.C108_in_place_round_trip",
    "Verif.Props.C108_library",
    "Verif.Props.C108_library_round_trip",
    "Verif.Props.C108_aesni",
    "Verif.Props.C108_aesni_round_trip",
    "Verif.Props.C108_library_sizes"
   ],
   "note": "Any cipher that preserves the block length; GCM objects are in C90. What init does while octets are left over, and CBC decryption in place with several blocks at a time, are C89 and C15."
  },
  {
   "property": "C109",
   "status": "partial",
   "theorems": [
    "Verif.Props.C109_history",
    "Verif.Props.C109_ideal_tag",
    "Verif.Props.C109_alone_partial",
    "Verif.Props.C109_in_place_round_trip_partial",
    "Verif.Props.C109_other_decryptor_violated",
    "Verif.Props.C109_genuine_refused_violated",
    "Verif.Props.C109_library",
    "Verif.Props.C109_library_round_trip_partial",
    "Verif.Props.C109_aesni"
   ],
   "note": "C109_history is exact for every program within the rules. The English property is false of the code: decryptors of one cipher share a static array that fills up the last block, so a genuine message that is not whole blocks is refused after another decryptor has finished (C109_other_decryptor_violated; exactly when, C109_genuine_refused_violated), and octets left over from one message stand in front of the next. C109_alone_partial proves it when messages are begun with nothing left over and decryptions end at whole blocks."
  }
 ]
}