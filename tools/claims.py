CLAIMS = {
'C01': ('proved', ['C01_sm3_stream', 'C01_chunking_independent', 'C01_history_with_reset'], ''),
'C02': ('proved', ['C02_sm3_spec', 'C02_compress', 'C01_sm3_stream'], ''),
'C03': ('partial', ['C03_backends_agree_partial', 'C03_common_undefined'], 'The reference backend shifts a 32-bit value by 32 (undefined in C++, proved); on platforms where that shift gives x or 0 the backends agree for all inputs.'),
'C04': ('proved', ['C04_update_blocks', 'C04_throws_iff'], ''),
'C05': ('proved', ['C05_hmac'], 'HMAC instantiated with SM3, the only 64-byte-block hash of the library.'),
'C06': ('proved', ['C06_ghash_field', 'C06_backends_agree', 'C06_ghash_object'], ''),
'C07': ('partial', ['C07_safe_iff', 'C07_safe_64', 'C07_block16_violated', 'C07_chunking_64_partial'], 'False as stated: memory safe exactly for block sizes 1 and 64 (proved); chunking independence proved for 64.'),
'C08': ('partial', ['C08_chunking_partial', 'C08_whole_block_chunks_partial', 'C08_outl_not_written', 'C08_stale_outl_violated'], 'False as stated: some update calls leave *outl unwritten (proved for every mode and cipher). Chunking independence proved for callers that clear the variable before each call, or use whole-block chunks.'),
'C09': ('proved', ['C09_round_trip', 'C09_sm4_round_trip', 'C09_aes_round_trip'], ''),
'C10': ('proved', ['C10_modes_spec', 'C10_sm4_modes', 'C10_aes_modes'], ''),
'C11': ('proved', ['C11_ctr_inc', 'C11_ctr_inc_iterate'], ''),
'C12': ('proved', ['C12_gctr_inc', 'C12_counters_distinct'], ''),
'C13': ('proved', ['C13_gcm_encrypt', 'C13_sm4_gcm', 'C13_aes_gcm', 'C13_counter_repeats'], 'For every length up to (2^64-1)/8 bytes; the shorter SP 800-38D limit is not enforced by the code (C13_counter_repeats).'),
'C14': ('partial', ['C14_gcm_decrypt_partial', 'C14_gcm_decrypt_exact', 'C14_sm4_gcm_partial', 'C14_aes_gcm_partial', 'C14_round_trip_partial', 'C14_second_decryption_violated', 'C14_genuine_rejected_violated'], 'False as stated: the padding of a ragged ciphertext is read from a function-local static that the previous decryption overwrote (proved). Proved for the first decryption in a process and for whole-block ciphertexts; C14_gcm_decrypt_exact gives the decision for every history; C14_genuine_rejected_violated shows for every cipher when a genuine message is rejected.'),
'C15': ('partial', ['C15_in_place_partial', 'C15_aes_inplace', 'C15_cbc_dec_in_place_violated', 'C15_buffered_in_place_violated'], 'False for CBC decryption with batches of two or more blocks and for out==in calls while bytes are buffered (both proved); proved for all other modes and every chunking.'),
'C16': ('partial', ['C16_reset', 'C16_init_fresh_iff_partial', 'C16_init_after_final_violated', 'C16_gcm_reinit_partial', 'C16_gcm_reinit_violated', 'C89_reset_each'], 'False: init() keeps buffered bytes (proved). Fresh exactly when the buffer is empty; reset() is right, also between any messages of a history (C89_reset_each).'),
'C17': ('proved', ['C17_sm4_inverse', 'C17_common_inverse'], ''),
'C18': ('proved', ['C18_sm4_spec', 'C18_sm4_blocks', 'C18_sm4_blocks_spec', 'C18_backends_agree', 'C18_common_blocks'], 'Portable code paths; the AVX2 paths are C73.'),
'C19': ('proved', ['C19_aes_inverse', 'C19_fips_inverse'], 'Look-up table backend; the AES-NI backend is C71.'),
'C20': ('proved', ['C20_aes_spec', 'C20_aes_blocks'], 'Look-up table backend; the AES-NI backend is C71.'),
'C21': ('proved', ['C21_memxor_n', 'C21_memxor_fixed', 'C21_overlap_violated'], 'All three build configurations, every length; holds for aliased, preceding or disjoint outputs; C21_overlap_violated shows the side condition is needed.'),
'C22': ('proved', ['C22_loads', 'C22_stores', 'C22_store_load', 'C22_load_store', 'C22_movbe_loads', 'C22_movbe_stores'], 'Portable and MOVBE branches; alignment and aliasing of the cast pointers of the MOVBE branches are not modelled.'),
'C23': ('proved', ['C23_encode_der', 'C23_shortest', 'C23_decode_iff', 'C23_round_trip', 'C23_truncated', 'C23_overlong', 'C23_ber_accepted'], ''),
'C24': ('proved', ['C24_identifier', 'C24_high_tag'], ''),
'C25': ('partial', ['C25_violated', 'C25_bounds_partial', 'C25_boolean_exact', 'C25_bit_string_exact', 'C25_integer_exact', 'C25_caller_check', 'C25_caller_check_violated'], 'The code violates the property (proved): declared lengths are not compared with the input length. Exactly which inputs are read past is proved, and exactly which check of the results a caller has to add.'),
'C26': ('partial', ['C26_encode', 'C26_round_trip_iff', 'C26_violated', 'C26_der_partial'], 'The code violates the property (proved) for first octets 0x80 and above and for leading zeros; exact condition proved.'),
'C27': ('partial', ['C27_octet_string', 'C27_empty_violated', 'C27_boolean', 'C27_null', 'C27_sequence_set'], 'Holds except for empty OCTET STRING/SEQUENCE/SET, which the decoders reject (proved).'),
'C28': ('partial', ['C28_bit_string', 'C28_round_trip_iff', 'C28_violated'], 'The code violates the property (proved); exact condition proved.'),
'C29': ('partial', ['C29_signature', 'C29_violated'], 'The code violates the property (proved); exact condition proved.'),
'C30': ('partial', ['C30_mpz_add', 'C30_mpz_sub', 'C30_mpz_mul', 'C30_mpz_cmp', 'C30_mpz_cmp_x64_violated', 'C30_x64_mpz_add', 'C30_x64_mpz_sub', 'C30_x64_mpz_mul'],
        'Both builds (32-bit and 64-bit limbs). Add, sub, mul, and the 32-bit cmp: proved in full. 64-bit limbs: mpz_cmp violates the property (proved).'),
'C31': ('proved', ['C31_add_dbl_tpl', 'C31_sub', 'C31_mul_sqr', 'C31_word_ops', 'C31_div_word', 'C31_cmp', 'C31_bittest', 'C31_x64_add_dbl_tpl', 'C31_x64_sub', 'C31_x64_mul_sqr', 'C31_x64_word_ops', 'C31_x64_div_word', 'C31_x64_cmp', 'C31_x64_bittest'],
        'Both builds.'),
'C32': ('proved', ['C32_uint256_mod', 'C32_zero_divisor_diverges', 'C32_x64_uint256_mod', 'C32_x64_zero_divisor_diverges'],
        'Both builds.'),
'C33': ('proved', ['C33_bytes', 'C33_mpz_bytes', 'C33_x64_bytes', 'C33_x64_mpz_bytes'],
        'Both builds.'),
'C34': ('proved', ['C34_mont_mul', 'C34_mont_mul_sqr', 'C34_unique', 'C34_x64_mont_mul', 'C34_x64_mont_mul_sqr', 'C34_x64_unique'],
        'Both builds.'),
'C35': ('proved', ['C35_mont_linear', 'C35_mont_tpl', 'C35_x64_mont_linear', 'C35_x64_mont_tpl'],
        'Both builds.'),
'C36': ('partial', ['C36_mont_neg_partial', 'C36_neg_zero_violated', 'C36_neg_zero_observable', 'C36_x64_mont_neg'],
        'The portable code violates the property at 0 (proved); proved for all non-zero operands. The 64-bit build satisfies it in full (proved).'),
'C37': ('partial', ['C37_mont_pow_partial', 'C37_pow_exponent_zero_violated', 'C37_mont_inv', 'C37_x64_mont_pow_partial', 'C37_x64_pow_exponent_zero_violated', 'C37_x64_mont_inv'],
        'Both builds violate the property at exponent 0 (proved); proved for every other exponent, and inversion in full.'),
'C38': ('proved', ['C38_mont_compute_N', 'C38_x64_mont_compute_N'],
        'Both builds.'),
'C39': ('proved', ['C39_from_to_bytes', 'C39_to_bytes', 'C39_from_bytes_ex', 'C39_x64_from_to_bytes', 'C39_x64_to_bytes', 'C39_x64_from_bytes_ex', 'C39_set_word', 'C39_x64_set_word'],
        'Both builds.'),
'C59': ('partial', ['C59_outl', 'C59_overflow'], 'Holds below 2^56; at or above 2^56 octets the helper overflows its scratch array (proved).'),
'C60': ('partial', ['C60_private_key', 'C60_public_key', 'C60_public_key_length', 'C60_ciphertext'], 'Public keys: proved. Private keys and ciphertexts round-trip exactly under the stated condition and are rejected otherwise (proved).'),

'C40': ('proved', ['C40_primes', 'C40_sm2_constants', 'C40_sm2_group', 'C40_sm9_constants', 'C40_sm9_g1', 'C40_sm9_g2', 'C40_sm9_base', 'C40_sm2_default_id', 'C40_sm9_n_sub3'], 'SM2 and SM9; group orders proved without counting points (no Hasse bound).'),
'C41': ('partial', ['C41_dbl', 'C41_add_partial', 'C41_add_infinity_violated', 'C41_add_mixed_partial', 'C41_add_mixed_violated', 'C41_convert', 'C41_check'], 'The code violates the property when exactly one operand is the point at infinity and for mixed doubling (proved); proved for all other points.'),
'C42': ('proved', ['C42_mul_a', 'C42_mul_g', 'C42_mul_affine'], ''),
'C43': ('partial', ['C43_encode', 'C43_round_trip', 'C43_decode_full', 'C43_decode_compressed', 'C43_decode_other', 'C43_decode_on_curve', 'C43_truncated_reads_out_of_bounds', 'C43_mixed_parity_ignored', 'C43_noncanonical_accepted'], 'Round trip and on-curve acceptance proved; the length argument is ignored, so truncated input is read out of bounds (proved), and the decoder is not injective (proved).'),
    "C44": ("proved", ["C44_sign_verify", "C44_sign", "C44_sign_step", "SM2_hash_instance"],
      "For every hash class computing a hash function (SM3 is one), every key in [1,n-2], message, id and random answers."),
    "C45": ("partial", ["C45_verify", "C45_verify_standard_partial", "C45_infinity_accepted"],
      "The code accepts exactly the standard's signatures plus those whose point sum is the point at infinity with e = r mod n; such signatures exist for every key (C45_infinity_accepted), so the full claim is false of the code."),
    "C46": ("proved", ["C46_decrypt_encrypt", "C46_encrypt", "C46_encrypt_retry", "C46_decrypt"],
      "Ciphertext layout C1 || C3 || C2 (the only one in the code), all three point encodings, every hash class computing a hash function."),
    "C47": ("partial", ["C47_gen_priv", "C47_gen_priv_valid_partial", "C47_gen_priv_can_be_invalid"],
      "The code can generate the key n-1 (one draw), which set_priv rejects and with which sign never returns; every other draw gives a valid key."),
    "C48": ("partial", ["C48_verify_terminates", "C48_verify_returns_partial", "C48_verify_not_total"],
      "verify is noexcept but the computation of Z throws for ids over 8191 octets: exact condition proved, with a concrete witness."),
    "C49": ("proved", ["C49_kdf"], "Every hash class computing a hash function with digests below 2^28 octets."),
    "C50": ("proved", ["C50_lengths", "C50_plaintext_len"], ""),
    "C58": ("proved", ["C58_set_priv", "C58_pub_round_trip", "C58_set_pub"], ""),
    "C51": ("partial", ["C51_field_exists", "C51_unique", "C51_fp2", "C51_fp4", "C51_mixed", "C51_fp12", "C51_fp12_inv_partial", "C51_inv_violated", "C51_inv_one", "C51_bytes"],
      "Every operation of the three levels in full, except fp12 inversion: the code inverts exactly the elements in InvRight and is wrong on all others, for example on every non-zero element of Fp4 (proved; inv(1) = 1 - w)."),
    "C55": ("proved", ["C55_sqrt"], "sqrt(0) fails, as the statement (non-zero squares) allows."),
    "C61": ("partial", ["C61_fp12_pow_partial", "C61_pow_zero_reads_past"],
      "Proved for every non-zero exponent; with exponent zero the code reads past the exponent (proved)."),
    "C62": ("proved", ["C62_frobenius", "C62_card"], ""),
    "C63": ("partial", ["C63_final_exp_partial", "C63_hypotheses_met", "C63_order_divides", "C63_final_exp_violated"],
      "Proved whenever neither inversion hits the elements fp12 inversion gets wrong; violated at 1 (proved)."),
    "C53": ("partial", ["C53_decoder_overread_iff", "C53_decoder_violated", "C53_decoder_partial"],
      "The code violates the property: the point decoder ignores the length and reads beyond a truncated signature (exact condition proved); no over-read with at least 65 octets."),
    "C54": ("partial", ["C54_encode", "C54_round_trip_result", "C54_round_trip_iff_partial", "C54_violated", "C54_standard_misread", "C54_decode_decision", "C54_compressed_encode", "C54_mix_encode", "C54_mix_round_trip_result", "C54_compressed_violated", "C54_compressed_opposite"],
      "The code violates the property: the round trip works only for points whose x0 equals y1 (exact result proved), fails for the generator, and standard encodings are misread."),
    "C57": ("partial", ["C57_mul_exact", "C57_mul_partial", "C57_mul_g_partial", "C57_mul_violated", "C57_g2_mul_exact", "C57_g2_mul_g_partial", "C57_g2_mul_violated"],
      "The code violates the property for k = -2 mod n, where it returns infinity for every point (exact behaviour proved for both groups); proved for every other scalar. G2 theorems are about points of order n."),
    "C64": ("partial", ["C64_g1_partial", "C64_g1_add_infinity_violated", "C64_g1_check", "C64_g2_partial", "C64_g2_add_infinity_violated", "C64_g2_check"],
      "The code violates the property when exactly one operand of an addition is infinity and for mixed doubling (proved); proved for all other points of both groups."),
    "C65": ("partial", ["C65_encode", "C65_round_trip", "C65_decode_full", "C65_decode_compressed", "C65_decode_other", "C65_decode_on_curve", "C65_noncanonical_accepted"],
      "Encoding, round trip and on-curve acceptance proved; the decoder is not injective (proved), and truncated input is C53."),
    "C52": ("proved", ["C52_hash_to_range"], "Every hash class computing a hash function; the function throws exactly when the input is too long to be hashed."),
    "C56": ("partial", ["C56_sign_verify_partial", "C56_key_violated", "C56_identity_violated", "C56_point_violated"],
      "The code violates the property: for every identity there is a master key under which every signature is rejected, and an identity hashing to the master key or N-2 makes verification independent of the key (proved). Proved otherwise, when no pairing hits an inversion that fp12 inversion gets wrong."),
    "C66": ("partial", ["C66_pairing_total", "C66_pairing_partial", "C66_pairing_zero_violated", "C102_pairing_value_partial"],
      "Bilinearity and non-degeneracy proved whenever neither inversion of the final exponentiation hits the elements fp12 inversion gets wrong; totality in full; the point at infinity of G2 pairs to 0 instead of 1 (proved)."),
    "C67": ("partial", ["C67_set_priv_range", "C67_set_priv_partial", "C67_gen_priv", "C67_weak_key_violated", "C67_forgery_violated"],
      "The code violates the property for the master key N-2, whose public key is (0,0) and allows forging any signature (proved). Range check, derived keys and generation proved; the stored pairing value under the same condition as C66."),
    "C68": ("partial", ["C68_equation_partial", "C68_accept", "C68_total", "C68_keys_ok"],
      "Acceptance conditions, and exact conditions for termination and out-of-bounds reads, proved in full; the equation for all identities with h1 not N-2, ks or N-ks. The code violates totality: over-reads and std::terminate (exact conditions proved)."),
    "C69": ("partial", ["C69_set_pub", "C69_pub_round_trip", "C69_master_pub_partial", "C69_priv_partial", "C69_set_sign_priv", "C69_subgroup_violated"],
      "Import checks and round trips proved; set_pub accepts points of the twist outside G2 (proved), and the public key of N-2 does not come back (C67_weak_key_violated)."),
    'C70': ('partial', ['C70_x64_same_bytes_partial', 'C70_x64_all_programs', 'C70_x64_neg_violated'],
      'Proved for every program of field operations that does not negate zero; negating zero makes the two builds differ (proved).'),
    'C71': ('partial', ['C71_aesni_spec_partial', 'C71_aesni_exact', 'C71_aesni_192_violated', 'C71_aesni_rest_ignored', 'C71_aesni_same_as_lut', 'C71_aesni_blocks', 'C71_aesni_inverse', 'C71_aesni_modes', 'C71_aesni_gcm'],
      'FIPS 197 and agreement with the table build proved for all keys and blocks; 192-bit key setup reads eight bytes past the key (proved), the bytes read have no influence (proved).'),
    'C72': ('proved', ['C72_pclmul_same_as_lut', 'C72_pclmul_spec', 'C72_pclmul_field'], ''),
    'C73': ('proved', ['C73_avx2_blocks', 'C73_avx2_same_as_portable', 'C73_avx2_spec', 'C73_avx2_modes', 'C73_avx2_gcm'], ''),
    'C74': ('partial', ['C74_dump_partial', 'C74_dump_valid', 'C74_overread_violated', 'C74_nested_error_violated', 'C74_termination_violated'],
      'Exact output, termination and memory safety proved for input whose lengths stay inside the enclosing element; otherwise the code over-reads, hides nested errors and can loop for ever (proved).'),
    'C75': ('proved', ['C75_rows', 'C75_rows_cover', 'C75_aligned', 'C75_maxline_zero'], 'For item formats that consume one integer.'),
    'C76': ('proved', ['C76_hardware_fills', 'C76_hardware_throws', 'C76_os_fills', 'C76_std_fills'], 'The answers of hardware, operating system and random_device are parameters.'),
    'C77': ('partial', ['C77_cstd_repeats_violated', 'C77_cstd_seed_violated', 'C77_cstd_key_violated'],
      'False of CstdRng whatever the C library (proved), down to the loss of an SM2 key. For the other generators distinctness is a property of the source, outside the code.'),
    'C78': ('partial', ['C78_sm2_field', 'C78_sm9_field', 'C78_div2', 'C78_sm9_fp2', 'C78_sm9_fp4', 'C78_sm9_fp12', 'C78_sm2_points', 'C78_sm9_points', 'C78_sm9_points2', 'C78_fp2_mul_fp_violated', 'C78_fp2_mul_fp_partial', 'C78_fp4_mul_fp2_partial', 'C78_fp12_mul_fp4_partial', 'C78_fp4_mul_fp_partial'],
      'Proved for every field and point function on operands of the same field; the products with an element of a subfield are wrong when the factor is a component of the result (proved, no caller does this) and right otherwise.'),
    'C79': ('proved', ['C79_x64_pub_session', 'C79_x64_priv_session', 'C79_x64_gen_session', 'C79_x64_sign_verify', 'C79_x64_encrypt_decrypt'],
      'SM2 functions restated over the 64-bit limbs; octet-only parts (Z, KDF) are shared by both builds.'),
    'C80': ('proved', ['C80_x64_fp12_inv', 'C80_x64_fp12', 'C80_x64_final_exp', 'C80_x64_pairing_total', 'C80_x64_pairing', 'C80_x64_inv_one_differs', 'C80_x64_pairing_zero_violated'],
      'Right for every element and every pair of finite points; at the representation (0, 0) of infinity the pairing is 0 (proved).'),
    'C81': ('partial', ['C81_x64_set_priv_range', 'C81_x64_gen_priv', 'C81_x64_set_priv_partial', 'C81_x64_sign_verify_partial', 'C81_x64_equation_partial', 'C81_x64_accept', 'C81_x64_total', 'C81_x64_keys_ok', 'C81_x64_set_pub', 'C81_x64_pub_round_trip', 'C81_x64_master_pub_partial', 'C81_x64_forgery_violated', 'C81_x64_weak_key_violated', 'C81_x64_key_violated', 'C81_x64_identity_violated', 'C81_x64_point_violated'],
      'No assumption on pairings is needed; what is excluded are the failures of the algorithms (key N-2, identities hashing to N-2 or the master key, 3ks+2h1 = 0, the point (0,0)), each proved to be a failure.'),
    'C82': ('partial', ['C82_x64_master_octets', 'C82_x64_generated_octets', 'C82_x64_public_octets', 'C82_x64_issued_octets', 'C82_x64_sign_partial', 'C82_x64_verify_partial', 'C82_x64_accepts_portable_partial'],
      'Key octets agree for all inputs; signatures and verdicts agree unless an inversion goes wrong in a pairing of the portable build (C51, C66).'),
    'C83': ('partial', ['C83_sm2_priv', 'C83_sm2_pub', 'C83_sm9_master', 'C83_sm9_pub', 'C83_sm9_sign_priv_partial', 'C83_sm9_sign_priv_violated'],
      'Proved for every history of calls on SM2PrivateKey, SM2PublicKey, SM9SignMasterPrivateKey and SM9SignMasterPublicKey; SM9SignPrivateKey::set_priv throws half-way and mixes two keys (proved).'),
    'C84': ('partial', ['C84_encrypt_frame', 'C84_decrypt_frame', 'C84_encrypt_partial', 'C84_decrypt_partial', 'C84_decrypt_release_violated', 'C84_decrypt_over_digest_violated', 'C84_encrypt_in_place_violated', 'C84_retry_plaintext_violated'],
      'No octet outside the output is written, whatever overlaps. Right for buffers that are apart and for several overlaps; the other overlaps, the plaintext left behind by a refused decryption and the plaintext exposed while encryption retries are proved failures.'),
    'C85': ('partial', ['C85_x64_encode', 'C85_x64_round_trip', 'C85_x64_decode_full', 'C85_x64_decode_compressed', 'C85_x64_decode_other', 'C85_x64_overread_iff', 'C85_x64_overread_violated', 'C85_x64_twist_encode', 'C85_x64_twist_round_trip', 'C85_x64_twist_round_trip_iff_partial', 'C85_x64_twist_violated', 'C85_x64_twist_decode', 'C85_x64_twist_forms', 'C85_x64_fp12_octets', 'C85_x64_fp12_read', 'C85_x64_set_sign_priv', 'C85_x64_sign_priv_round_trip', 'C85_x64_sign_priv_octets', 'C85_x64_priv_round_trip'],
      'Proved for G1 points, target-group elements and private keys, and both builds agree on all octets; as in the portable build the G1 decoder reads beyond short inputs and the G2 encoding does not round-trip (both proved, with exact conditions).'),
    'C86': ('partial', ['C86_any_schedule', 'C86_serial_exact', 'C86_serial_whole_partial', 'C86_serial_first_partial', 'C86_race_forgery_violated', 'C86_race_reject_violated', 'C86_serial_after_any_violated', 'C86_agrees_with_C14', 'C86_can_start'],
      'Plaintext and memory safety proved under every schedule; the verdict is right when calls do not overlap in time and the ciphertext is whole blocks or the first of the process. Otherwise a forged message can be accepted and a genuine one rejected (proved for every cipher): the computed tag lives in a function-local static.'),
    'C87': ('partial', ['C87_encryptor_same', 'C87_decryptor_same', 'C87_encrypt', 'C87_decrypt_partial', 'C87_second_decryption_violated', 'C87_aesni_gcm', 'C87_sm4_avx2_gcm'],
      'Proved in full except that decryption of ragged messages inherits the failure of C14 (proved for this build as well).'),
    'C88': ('proved', ['C88_sm3_history', 'C88_sm3_history_total', 'C88_hmac_history', 'C88_hmac_history_total', 'C88_sm3_final_needs_reset', 'C88_hmac_final_needs_key'],
      'Proved for all histories; the two needs_ theorems show that the reset() / set_key of the statement cannot be dropped.'),
    'C89': ('partial', ['C89_history_exact', 'C89_reset_each', 'C89_init_whole_partial', 'C89_init_carries_over_violated', 'C89_final_agrees'],
      'Exact behaviour proved for all histories (C89_history_exact); it is the expected one when messages are begun with reset or all are whole blocks. A message begun with init is processed with the tail of the previous one in front (proved for every cipher).'),
    'C90': ('partial', ['C90_encrypt_exact', 'C90_decrypt_exact', 'C90_encrypt_whole_partial', 'C90_decrypt_whole_partial', 'C90_encrypt_carries_over_violated', 'C90_decrypt_carries_over_violated', 'C90_final_agrees', 'C90_run_agrees'],
      'Exact behaviour proved for all histories (C90_encrypt_exact, C90_decrypt_exact); it is the expected one if all messages are whole blocks. After any other message the next one has its tail in front (proved for every cipher), and decryption pads with what the last decryption left in a static variable.'),
    'C91': ('proved', ['C91_field', 'C91_key_count', 'C91_forgery_bound', 'C91_same_message'],
      'The modulus of GHASH is proved irreducible (Rabin), tags are polynomials in the hash key, different messages have different polynomials. Hash keys are counted; nothing is assumed or proved about how the cipher distributes them.'),
    'C92': ('proved', ['C92_digest', 'C92_mac', 'C92_sm2_digest', 'C92_signature', 'C92_different'],
      'The Merkle-Damgard argument: the padding is injective and ends with the length, so equal digests can be followed back to a collision. Collisions exist (counting); the theorem says where one is, in the two runs.'),
    'C93': ('partial', ['C93_x64_sm2_field', 'C93_x64_sm9_field', 'C93_x64_div2', 'C93_x64_sm9_fp2', 'C93_x64_sm9_fp4', 'C93_x64_sm9_fp12', 'C93_x64_sm2_points', 'C93_x64_sm9_points', 'C93_x64_sm9_points2', 'C93_x64_fp2_mul_fp_violated', 'C93_x64_fp2_mul_fp_partial', 'C93_x64_fp4_mul_fp2_partial', 'C93_x64_fp12_mul_fp4_partial', 'C93_x64_fp4_mul_fp_partial'],
      'Partial for the same reason as C78: sm9_fp2_mul_fp and its relatives may not get a component of the result as factor (C93_x64_fp2_mul_fp_violated).'),
    'C94': ('proved', ['C94_gives_something', 'C94_ecb', 'C94_cbc', 'C94_cfb', 'C94_ofb', 'C94_ctr', 'C94_gcm', 'C94_gcm_tag', 'C94_gcm_iv_reuse', 'C94_gcm_wrong_iv', 'C94_sm4', 'C94_aes', 'C94_sm4_ctr'],
      'For every cipher injective on blocks, with SM4 and AES as instances. The rejection of a wrong IV is stated for processes where the defect of C14 does not show. GCM messages of more than 2^32 blocks are not refused and repeat their masks, as the equivalence says.'),
    'C95': ('proved', ['C95_start_anywhere', 'C95_start_exists', 'C95_ecb', 'C95_cbc', 'C95_cfb', 'C95_ofb_ctr', 'C95_error_spread', 'C95_sm4', 'C95_aes'],
      'For every cipher; where a change must be felt, for ciphers injective on blocks, with SM4 and AES as instances.'),
    'C96': ('proved', ['C96_public_keys', 'C96_one_draw', 'C96_signature_nonce', 'C96_nonce_reuse', 'C96_accepted_halves', 'C96_degenerate_key', 'C96_ciphertext_nonce', 'C96_encrypt_nonce_reuse', 'C96_ciphertext_message', 'C96_x64_public_keys', 'C96_x64_signature_nonce', 'C96_x64_nonce_reuse', 'C96_x64_accepted_halves', 'C96_x64_degenerate_key', 'C96_x64_ciphertext_nonce', 'C96_x64_encrypt_nonce_reuse', 'C96_x64_ciphertext_message'],
      'Both builds. Five instead of four accepted halves because the point at infinity is accepted (C45).'),
    'C97': ('partial', ['C97_master_keys', 'C97_identity_keys', 'C97_signature_nonce', 'C97_nonce_reuse', 'C97_x64_master_keys', 'C97_x64_identity_keys', 'C97_x64_signature_nonce', 'C97_x64_nonce_reuse', 'C97_x64_point_partial', 'C97_x64_point_violated', 'C97_point_partial', 'C97_point_violated'],
      'All clauses but the last in full, for both builds. The last one is false for the master key N-2 and for identities whose H1 is the master key, its negative or N-2 (C81_x64_forgery_violated, C97_x64_point_violated, C97_point_violated); proved for all others in the 64-bit build, and in the portable build for pairings in which no inversion goes wrong.'),
    'C98': ('partial', ['C98_x64_sm2_priv', 'C98_x64_sm2_pub', 'C98_x64_sm9_master', 'C98_x64_sm9_pub', 'C98_x64_sm9_sign_priv_partial', 'C98_x64_sm9_sign_priv_violated'],
      'Partial for the same reason as C83: SM9SignPrivateKey::set_priv throws half-way and mixes two keys (proved). In full for the other four classes.'),
    'C99': ('partial', ['C99_same', 'C99_encrypt_exact', 'C99_decrypt_exact', 'C99_encrypt_whole_partial', 'C99_decrypt_whole_partial', 'C99_encrypt_carries_over_violated', 'C99_decrypt_carries_over_violated', 'C99_forgery_bound', 'C99_same_message', 'C99_genuine_rejected_violated'],
      'Partial for the same reasons as C90 and C14: buffered octets of a ragged message are carried over into the next one, and a static buffer is not cleared (both proved). In full: exact behaviour of every history, equality with the table build, the forgery bound.'),
    'C100': ('partial', ['C100_mpz_add_sub', 'C100_mpz_add_exact', 'C100_mpz_sub_exact', 'C100_uint256', 'C100_div_word', 'C100_mul_partial', 'C100_mul_in_place_violated', 'C100_mul_placement_exact', 'C100_mod_add_sub_partial', 'C100_mod_add_over_divisor', 'C100_mod_add_over_divisor_violated', 'C100_mod_partial', 'C100_mod_over_divisor_violated', 'C100_x64_mpz_add_sub', 'C100_x64_mpz_add_exact', 'C100_x64_mpz_sub_exact', 'C100_x64_uint256', 'C100_x64_div_word', 'C100_x64_mul_partial', 'C100_x64_mul_in_place_violated', 'C100_x64_mul_placement_exact', 'C100_x64_mod_add_sub_partial', 'C100_x64_mod_add_over_divisor', 'C100_x64_mod_partial', 'C100_x64_mod_over_divisor_violated'],
      'Full for the functions that run once through the words, with the exact condition on the placement for addition and subtraction. A product stored over an operand is wrong, a modular sum stored over the divisor is always zero, uint256_mod with the remainder over the divisor never returns (all proved, for both builds); the _partial theorems exclude these placements. Byte arrays that overlap limb arrays: C106.'),
    'C101': ('proved', ['C101_pow', 'C101_inv', 'C101_sqrt', 'C101_fp12_pow', 'C101_sm2_mul', 'C101_sm9_mul', 'C101_x64_pow', 'C101_x64_inv', 'C101_x64_sqrt', 'C101_x64_fp12_pow', 'C101_x64_sm2_mul', 'C101_x64_sm9_mul'],
      'The programs on memory call the field functions proved safe in place in C78 and C93; the octets of exponents and scalars that are given as octets are values.'),
    'C102': ('proved', ['C102_pairing', 'C102_pairing_gen', 'C102_final_exp', 'C102_frobenius', 'C102_frobenius_point', 'C102_pairing_returns', 'C102_x64_pairing', 'C102_x64_pairing_gen', 'C102_x64_final_exp', 'C102_x64_frobenius', 'C102_x64_frobenius_point', 'C102_x64_pairing_returns', 'C102_x64_pairing_value'],
      'The program on memory computes the function on values proved about in C66 and C80; that C66 does not cover all points of the portable build is recorded there (C102_pairing_value_partial). The second result of the line functions is in the model of the memory; no caller reads it.'),
    'C103': ('proved', ['C103_sm2_sign', 'C103_sm2_sign_verify', 'C103_sm9_sign', 'C103_sm9_sign_frame', 'C103_sm9_verify', 'C103_sm9_issue', 'C103_sm9_issue_throws', 'C103_x64_sm2_sign', 'C103_x64_sm2_sign_verify', 'C103_x64_sm9_sign', 'C103_x64_sm9_sign_frame', 'C103_x64_sm9_verify', 'C103_x64_sm9_issue', 'C103_x64_sm9_issue_throws'],
      'On memory the functions give what the functions on values of C44, C45, C56, C68, C79 and C81 give; which SM9 signatures verify is stated there. The place of *outl is not modelled; SM2 verify reads only and is covered by C45.'),
    'C104': ('partial', ['C104_octet_string', 'C104_bit_string', 'C104_integer', 'C104_in_place_violated', 'C104_octet_string_in_place', 'C104_signature_partial', 'C104_signature_violated', 'C104_signature_reencode', 'C104_ciphertext_partial'],
      'The code violates the claim for data under the header octets (C104_in_place_violated, C104_signature_violated); C104_octet_string, C104_bit_string and C104_integer give the exact condition under which it holds. For the SM2 structures a sufficient condition is proved.'),
    'C105': ('proved', ['C105_history', 'C105_digest_over_data', 'C105_mac_over_key'],
      'For programs that stay inside the memory, begin every message and hash fewer than 2^61 - 64 octets in all; beyond that C04 and C88 say what happens.'),
    'C106': ('proved', ['C106_from_bytes', 'C106_to_bytes', 'C106_uint256', 'C106_in_place', 'C106_in_place_exact', 'C106_x64_mpz', 'C106_x64_uint256', 'C106_x64_in_place'],
      'Limbs lie in memory with the low octet first. The Montgomery conversions mont256_to_bytes and mont256_from_bytes_ex work in a local array and are not part of the claim.'),
    'C107': ('partial', ['C107_private_key_iff', 'C107_public_key_iff', 'C107_signature_iff', 'C107_ciphertext_iff', 'C107_truncated_violated', 'C107_malleable_violated', 'C107_ciphertext_violated', 'C107_short_violated', 'C107_checked_partial', 'C107_padded', 'C107_padded_tight', 'C107_ciphertext_padded_violated'],
      'The claim is false of the code: the accepted set is proved exactly (iff) for the four decoders, and it contains truncated and malleable encodings. How many readable octets keep the decoders inside the buffer is proved too; for ciphertexts no number is enough.'),
    'C108': ('proved', ['C108_history', 'C108_in_place_round_trip', 'C108_library', 'C108_library_round_trip', 'C108_aesni', 'C108_aesni_round_trip', 'C108_library_sizes'],
      'Any cipher that preserves the block length; GCM objects are in C90. What init does while octets are left over, and CBC decryption in place with several blocks at a time, are C89 and C15.'),
    'C109': ('partial', ['C109_history', 'C109_ideal_tag', 'C109_alone_partial', 'C109_in_place_round_trip_partial', 'C109_other_decryptor_violated', 'C109_genuine_refused_violated', 'C109_library', 'C109_library_round_trip_partial', 'C109_aesni'],
      'C109_history is exact for every program within the rules. The English property is false of the code: decryptors of one cipher share a static array that fills up the last block, so a genuine message that is not whole blocks is refused after another decryptor has finished (C109_other_decryptor_violated; exactly when, C109_genuine_refused_violated), and octets left over from one message stand in front of the next. C109_alone_partial proves it when messages are begun with nothing left over and decryptions end at whole blocks.'),
}
