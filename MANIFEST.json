{
 "claims": [
  {
   "property": "C01",
   "status": "proved",
   "theorems": [
    "Verif.Props.C01_pad_roundtrip"
   ],
   "note": ""
  },
  {
   "property": "C02",
   "status": "proved",
   "theorems": [
    "Verif.Props.C02_aligned_loss",
    "Verif.Props.C02_roundtrip_fails"
   ],
   "note": "Exact loss condition proved; the naive round-trip claim is refuted by C02_roundtrip_fails."
  },
  {
   "property": "C03",
   "status": "proved",
   "theorems": [
    "Verif.Props.C03_cbc_encrypt",
    "Verif.Props.C03_realloc_move_undefined"
   ],
   "note": "Under the condition that the internal realloc does not move the buffer; C03_realloc_move_undefined shows a use-after-free otherwise."
  },
  {
   "property": "C04",
   "status": "proved",
   "theorems": [
    "Verif.Props.C04_cbc_roundtrip",
    "Verif.Props.C04_cbc_roundtrip_aligned"
   ],
   "note": "Holds for unaligned messages and for aligned messages whose last byte is not 1..16 (same loss condition as C02)."
  },
  {
   "property": "C05",
   "status": "proved",
   "theorems": [
    "Verif.Props.C05_inplace"
   ],
   "note": ""
  },
  {
   "property": "C06",
   "status": "proved",
   "theorems": [
    "Verif.Props.C06_resume"
   ],
   "note": ""
  },
  {
   "property": "C07",
   "status": "proved",
   "theorems": [
    "Verif.Props.C07_error_propagation"
   ],
   "note": ""
  },
  {
   "property": "C08",
   "status": "proved",
   "theorems": [
    "Verif.Props.C08_capacity_refused",
    "Verif.Props.C08_decrypt_in_bounds",
    "Verif.Props.C08_unaligned_overread"
   ],
   "note": "Includes the over-read found for unaligned ciphertext lengths."
  },
  {
   "property": "C09",
   "status": "proved",
   "theorems": [
    "Verif.Props.C09_gcm_mult"
   ],
   "note": ""
  },
  {
   "property": "C10",
   "status": "proved",
   "theorems": [
    "Verif.Props.C10_gcm_gctr"
   ],
   "note": ""
  },
  {
   "property": "C11",
   "status": "proved",
   "theorems": [
    "Verif.Props.C11_gcm_roundtrip"
   ],
   "note": ""
  },
  {
   "property": "C12",
   "status": "proved",
   "theorems": [
    "Verif.Props.C12_gcm_nist"
   ],
   "note": ""
  },
  {
   "property": "C13",
   "status": "proved",
   "theorems": [
    "Verif.Props.C13_gcm_tags_agree"
   ],
   "note": ""
  },
  {
   "property": "C14",
   "status": "proved",
   "theorems": [
    "Verif.Props.C14_streaming_encrypt",
    "Verif.Props.C14_streaming_decrypt",
    "Verif.Props.C14_unaligned_differs"
   ],
   "note": "Counterexample for unaligned pieces included."
  },
  {
   "property": "C15",
   "status": "proved",
   "theorems": [
    "Verif.Props.C15_counters_distinct",
    "Verif.Props.C15_encrypt_counters"
   ],
   "note": ""
  },
  {
   "property": "C16",
   "status": "proved",
   "theorems": [
    "Verif.Props.C16_reuse",
    "Verif.Props.C16_no_aad_tag",
    "Verif.Props.C16_no_aad_fresh",
    "Verif.Props.C16_stale_aad_len_differs"
   ],
   "note": "Without an aad call the stale AAD length of the earlier message enters the tag; witness included."
  },
  {
   "property": "C17",
   "status": "proved",
   "theorems": [
    "Verif.Props.C17_refuse",
    "Verif.Props.C17_in_bounds"
   ],
   "note": ""
  },
  {
   "property": "C18",
   "status": "proved",
   "theorems": [
    "Verif.Props.C18_large_input_noop",
    "Verif.Props.C18_wraps"
   ],
   "note": "Defect stated as a theorem: success is reported although nothing or only part of the input is encrypted."
  },
  {
   "property": "C19",
   "status": "proved",
   "theorems": [
    "Verif.Props.C19_truncated_tag"
   ],
   "note": ""
  },
  {
   "property": "C20",
   "status": "proved",
   "theorems": [
    "Verif.Props.C20_parallel_private",
    "Verif.Props.C20_complete_schedule_exists"
   ],
   "note": "For the variant with a private inner index; complete schedules are shown to exist. The code as written shares the index, see C21."
  },
  {
   "property": "C21",
   "status": "proved",
   "theorems": [
    "Verif.Props.C21_block_lost",
    "Verif.Props.C21_shared_index_race"
   ],
   "note": "Defect: data race on the shared index j; for every input of two or more blocks on two threads a schedule loses a block."
  },
  {
   "property": "C22",
   "status": "proved",
   "theorems": [
    "Verif.Props.C22_parallel_decrypt",
    "Verif.Props.C22_tags_differ"
   ],
   "note": "Defect: GHASH runs over the plaintext when decrypting, witness of differing tags included."
  },
  {
   "property": "C23",
   "status": "proved",
   "theorems": [
    "Verif.Props.C23_empty_input"
   ],
   "note": ""
  },
  {
   "property": "C24",
   "status": "proved",
   "theorems": [
    "Verif.Props.C24_file_roundtrip"
   ],
   "note": ""
  },
  {
   "property": "C25",
   "status": "proved",
   "theorems": [
    "Verif.Props.C25_no_authentication",
    "Verif.Props.C25_forgery_accepted"
   ],
   "note": "Defect stated as exact acceptance condition."
  },
  {
   "property": "C26",
   "status": "proved",
   "theorems": [
    "Verif.Props.C26_crash",
    "Verif.Props.C26_truncated"
   ],
   "note": "Acceptance of truncated files characterised exactly."
  },
  {
   "property": "C27",
   "status": "proved",
   "theorems": [
    "Verif.Props.C27_sm3_streaming"
   ],
   "note": ""
  },
  {
   "property": "C28",
   "status": "proved",
   "theorems": [
    "Verif.Props.C28_sm3_standard"
   ],
   "note": ""
  },
  {
   "property": "C29",
   "status": "proved",
   "theorems": [
    "Verif.Props.C29_sm4_inverse"
   ],
   "note": ""
  },
  {
   "property": "C30",
   "status": "proved",
   "theorems": [
    "Verif.Props.C30_sm4_standard",
    "Verif.Props.C30_sm4_any_key"
   ],
   "note": ""
  },
  {
   "property": "C31",
   "status": "proved",
   "theorems": [
    "Verif.Props.C31_decrypt_mode"
   ],
   "note": ""
  },
  {
   "property": "C32",
   "status": "proved",
   "theorems": [
    "Verif.Props.C32_key_padding_shape",
    "Verif.Props.C32_key_padding_collisions"
   ],
   "note": "Keys that differ only by their own padding collide; witness theorem included."
  },
  {
   "property": "C33",
   "status": "proved",
   "theorems": [
    "Verif.Props.C33_matrix_pairs",
    "Verif.Props.C33_other_sizes",
    "Verif.Props.C33_affine_pairs"
   ],
   "note": ""
  },
  {
   "property": "C34",
   "status": "proved",
   "theorems": [
    "Verif.Props.C34_laws",
    "Verif.Props.C34_combine"
   ],
   "note": ""
  },
  {
   "property": "C35",
   "status": "proved",
   "theorems": [
    "Verif.Props.C35_permutations"
   ],
   "note": ""
  },
  {
   "property": "C36",
   "status": "proved",
   "theorems": [
    "Verif.Props.C36_wbsm4_is_sm4"
   ],
   "note": ""
  },
  {
   "property": "C37",
   "status": "proved",
   "theorems": [
    "Verif.Props.C37_dummy_rounds",
    "Verif.Props.C37_one_group"
   ],
   "note": ""
  },
  {
   "property": "C38",
   "status": "proved",
   "theorems": [
    "Verif.Props.C38_wbsm4_inverse"
   ],
   "note": ""
  },
  {
   "property": "C39",
   "status": "proved",
   "theorems": [
    "Verif.Props.C39_round_trip",
    "Verif.Props.C39_truncated",
    "Verif.Props.C39_bad_name",
    "Verif.Props.C39_more_rounds"
   ],
   "note": ""
  },
  {
   "property": "C40",
   "status": "proved",
   "theorems": [
    "Verif.Props.C40_se_wbsm4_is_sm4",
    "Verif.Props.C40_se_wbsm4_inverse"
   ],
   "note": ""
  },
  {
   "property": "C41",
   "status": "proved",
   "theorems": [
    "Verif.Props.C41_wbaes_is_aes"
   ],
   "note": ""
  },
  {
   "property": "C42",
   "status": "proved",
   "theorems": [
    "Verif.Props.C42_ee_is_gcm",
    "Verif.Props.C42_ee_roundtrip",
    "Verif.Props.C42_ee_empty_tag"
   ],
   "note": ""
  },
  {
   "property": "C43",
   "status": "proved",
   "theorems": [
    "Verif.Props.C43_mask_tags_always",
    "Verif.Props.C43_mask_roundtrip",
    "Verif.Props.C43_mask_tags",
    "Verif.Props.C43_mask_tags_agree_iff",
    "Verif.Props.C43_mask_tags_differ"
   ],
   "note": ""
  },
  {
   "property": "C44",
   "status": "proved",
   "theorems": [
    "Verif.Props.C44_ff1_roundtrip",
    "Verif.Props.C44_ff1_decrypt_then_encrypt",
    "Verif.Props.C44_ff1_empty_tweak",
    "Verif.Props.C44_ff1_empty_tweak_lengths"
   ],
   "note": ""
  },
  {
   "property": "C45",
   "status": "proved",
   "theorems": [
    "Verif.Props.C45_ff1_format"
   ],
   "note": ""
  },
  {
   "property": "C46",
   "status": "proved",
   "theorems": [
    "Verif.Props.C46_ff1_buffers",
    "Verif.Props.C46_ff1_overflow"
   ],
   "note": ""
  },
  {
   "property": "C47",
   "status": "proved",
   "theorems": [
    "Verif.Props.C47_ff3_roundtrip",
    "Verif.Props.C47_ff3_decrypt_then_encrypt"
   ],
   "note": ""
  },
  {
   "property": "C48",
   "status": "proved",
   "theorems": [
    "Verif.Props.C48_ff3_format"
   ],
   "note": ""
  },
  {
   "property": "C49",
   "status": "proved",
   "theorems": [
    "Verif.Props.C49_ff3_short_tweak",
    "Verif.Props.C49_ff3_result_depends"
   ],
   "note": ""
  },
  {
   "property": "C50",
   "status": "proved",
   "theorems": [
    "Verif.Props.C50_num_str_num",
    "Verif.Props.C50_str_num_str",
    "Verif.Props.C50_positional"
   ],
   "note": ""
  },
  {
   "property": "C51",
   "status": "proved",
   "theorems": [
    "Verif.Props.C51_cmac_subkey",
    "Verif.Props.C51_cmac_roundtrip",
    "Verif.Props.C51_cmac_uninitialised",
    "Verif.Props.C51_cmac_tag_space",
    "Verif.Props.C51_cmac_tag"
   ],
   "note": ""
  },
  {
   "property": "C52",
   "status": "proved",
   "theorems": [
    "Verif.Props.C52_gmac_roundtrip",
    "Verif.Props.C52_gmac_tag",
    "Verif.Props.C52_gmac_short_tweak"
   ],
   "note": ""
  },
  {
   "property": "C53",
   "status": "proved",
   "theorems": [
    "Verif.Props.C53_phone_mask"
   ],
   "note": ""
  },
  {
   "property": "C54",
   "status": "proved",
   "theorems": [
    "Verif.Props.C54_phone_roundtrip",
    "Verif.Props.C54_phone_reverse",
    "Verif.Props.C54_phone_overflow",
    "Verif.Props.C54_phone_ff3_tweak"
   ],
   "note": ""
  },
  {
   "property": "C55",
   "status": "proved",
   "theorems": [
    "Verif.Props.C55_idcard",
    "Verif.Props.C55_idcard_overflow",
    "Verif.Props.C55_idcard_ff3_tweak",
    "Verif.Props.C55_idcard_empty"
   ],
   "note": ""
  },
  {
   "property": "C56",
   "status": "proved",
   "theorems": [
    "Verif.Props.C56_cn_roundtrip",
    "Verif.Props.C56_cn_overflow",
    "Verif.Props.C56_cn_ff3_tweak",
    "Verif.Props.C56_cn_output_range",
    "Verif.Props.C56_cn_out_of_range_lost",
    "Verif.Props.C56_cn_uninitialised"
   ],
   "note": ""
  },
  {
   "property": "C57",
   "status": "proved",
   "theorems": [
    "Verif.Props.C57_utf8_roundtrip",
    "Verif.Props.C57_utf8_bytes",
    "Verif.Props.C57_offset_roundtrip",
    "Verif.Props.C57_duo_roundtrip",
    "Verif.Props.C57_duo_surjective",
    "Verif.Props.C57_duo_range"
   ],
   "note": ""
  },
  {
   "property": "C58",
   "status": "proved",
   "theorems": [
    "Verif.Props.C58_shuffle"
   ],
   "note": ""
  },
  {
   "property": "C59",
   "status": "proved",
   "theorems": [
    "Verif.Props.C59_permuteQPR_bijective",
    "Verif.Props.C59_random_period",
    "Verif.Props.C59_random_each_once",
    "Verif.Props.C59_seed_injective"
   ],
   "note": ""
  },
  {
   "property": "C60",
   "status": "proved",
   "theorems": [
    "Verif.Props.C60_short_file",
    "Verif.Props.C60_always_success",
    "Verif.Props.C60_store_load",
    "Verif.Props.C60_full_device"
   ],
   "note": ""
  },
  {
   "property": "C61",
   "status": "proved",
   "theorems": [
    "Verif.Props.C61_aes_encrypt",
    "Verif.Props.C61_aes_short_key",
    "Verif.Props.C61_decrypt_schedule",
    "Verif.Props.C61_decrypt_not_inverse",
    "Verif.Props.C61_cbc"
   ],
   "note": ""
  },
  {
   "property": "C62",
   "status": "proved",
   "theorems": [
    "Verif.Props.C62_in_place_destroys"
   ],
   "note": ""
  },
  {
   "property": "C63",
   "status": "proved",
   "theorems": [
    "Verif.Props.C63_missing_or_short_input"
   ],
   "note": ""
  },
  {
   "property": "C64",
   "status": "proved",
   "theorems": [
    "Verif.Props.C64_matrix_inverse"
   ],
   "note": ""
  },
  {
   "property": "C65",
   "status": "proved",
   "theorems": [
    "Verif.Props.C65_ff1_nist"
   ],
   "note": ""
  },
  {
   "property": "C66",
   "status": "proved",
   "theorems": [
    "Verif.Props.C66_ff3_nist"
   ],
   "note": ""
  },
  {
   "property": "C67",
   "status": "proved",
   "theorems": [
    "Verif.Props.C67_app_cipher",
    "Verif.Props.C67_app_wbsm4",
    "Verif.Props.C67_app_wbsm4_wrong",
    "Verif.Props.C67_app_short_key",
    "Verif.Props.C67_phone_across"
   ],
   "note": ""
  },
  {
   "property": "C68",
   "status": "proved",
   "theorems": [
    "Verif.Props.C68_sm4_cbc",
    "Verif.Props.C68_aes_cbc",
    "Verif.Props.C68_sm4_cbc_roundtrip"
   ],
   "note": ""
  },
  {
   "property": "C69",
   "status": "proved",
   "theorems": [
    "Verif.Props.C69_wbsm4_cbc",
    "Verif.Props.C69_wbsm4_cbc_across",
    "Verif.Props.C69_encrypt_context_decrypts_iff",
    "Verif.Props.C69_encrypt_context_cannot_decrypt"
   ],
   "note": ""
  },
  {
   "property": "C70",
   "status": "proved",
   "theorems": [
    "Verif.Props.C70_wbaes_gcm",
    "Verif.Props.C70_wbsm4_gcm",
    "Verif.Props.C70_wbsm4_gcm_wrong_mode"
   ],
   "note": ""
  },
  {
   "property": "C71",
   "status": "proved",
   "theorems": [
    "Verif.Props.C71_wbaes_ff1",
    "Verif.Props.C71_wbaes_fpe",
    "Verif.Props.C71_wbsm4_fpe",
    "Verif.Props.C71_wbsm4_ff3"
   ],
   "note": ""
  },
  {
   "property": "C72",
   "status": "proved",
   "theorems": [
    "Verif.Props.C72_wbaes_file",
    "Verif.Props.C72_wbsm4_file"
   ],
   "note": ""
  },
  {
   "property": "C73",
   "status": "proved",
   "theorems": [
    "Verif.Props.C73_ee_file",
    "Verif.Props.C73_mask_file",
    "Verif.Props.C73_no_authentication",
    "Verif.Props.C73_missing_or_short"
   ],
   "note": ""
  },
  {
   "property": "C74",
   "status": "proved",
   "theorems": [
    "Verif.Props.C74_wrand32_uniform",
    "Verif.Props.C74_wrand64_uniform"
   ],
   "note": ""
  },
  {
   "property": "C75",
   "status": "proved",
   "theorems": [
    "Verif.Props.C75_last_fixed",
    "Verif.Props.C75_reachable",
    "Verif.Props.C75_dummy_placement",
    "Verif.Props.C75_dummy_limit"
   ],
   "note": ""
  },
  {
   "property": "C76",
   "status": "proved",
   "theorems": [
    "Verif.Props.C76_overlap_ok",
    "Verif.Props.C76_overlap_refuse",
    "Verif.Props.C76_overlap_forward",
    "Verif.Props.C76_overlap_wrong"
   ],
   "note": ""
  },
  {
   "property": "C77",
   "status": "proved",
   "theorems": [
    "Verif.Props.C77_stream",
    "Verif.Props.C77_same_process",
    "Verif.Props.C77_no_key_in_stream",
    "Verif.Props.C77_other_process"
   ],
   "note": ""
  },
  {
   "property": "C78",
   "status": "proved",
   "theorems": [
    "Verif.Props.C78_cleared_block",
    "Verif.Props.C78_gcm_plaintext",
    "Verif.Props.C78_cbc_zeros"
   ],
   "note": ""
  },
  {
   "property": "C79",
   "status": "proved",
   "theorems": [
    "Verif.Props.C79_public_key",
    "Verif.Props.C79_phone",
    "Verif.Props.C79_idcard",
    "Verif.Props.C79_text",
    "Verif.Props.C79_errors_undefined",
    "Verif.Props.C79_long_undefined",
    "Verif.Props.C79_unterminated",
    "Verif.Props.C79_init",
    "Verif.Props.C79_longer_row",
    "Verif.Props.C79_row_fits",
    "Verif.Props.C79_sample_length"
   ],
   "note": ""
  },
  {
   "property": "C80",
   "status": "proved",
   "theorems": [
    "Verif.Props.C80_padded_key",
    "Verif.Props.C80_wbsm4_key_extraction",
    "Verif.Props.C80_key_file"
   ],
   "note": ""
  },
  {
   "property": "C81",
   "status": "proved",
   "theorems": [
    "Verif.Props.C81_wbaes_key_extraction",
    "Verif.Props.C81_tables_differ"
   ],
   "note": ""
  },
  {
   "property": "C82",
   "status": "proved",
   "theorems": [
    "Verif.Props.C82_single_bits",
    "Verif.Props.C82_single_bits128",
    "Verif.Props.C82_weights",
    "Verif.Props.C82_equal_sum",
    "Verif.Props.C82_concatenation",
    "Verif.Props.C82_concatenation4",
    "Verif.Props.C82_pairs128",
    "Verif.Props.C82_laws128"
   ],
   "note": ""
  },
  {
   "property": "C83",
   "status": "proved",
   "theorems": [
    "Verif.Props.C83_low_bits",
    "Verif.Props.C83_low_bits_blocks",
    "Verif.Props.C83_negative",
    "Verif.Props.C83_reported",
    "Verif.Props.C83_partial_block",
    "Verif.Props.C83_empty"
   ],
   "note": ""
  },
  {
   "property": "C84",
   "status": "proved",
   "theorems": [
    "Verif.Props.C84_overlap_ok",
    "Verif.Props.C84_one_block_before",
    "Verif.Props.C84_one_block_after",
    "Verif.Props.C84_encrypt_any_overlap",
    "Verif.Props.C84_refuse",
    "Verif.Props.C84_partial_block",
    "Verif.Props.C84_negative",
    "Verif.Props.C84_single_block",
    "Verif.Props.C84_overlap_sharp"
   ],
   "note": ""
  },
  {
   "property": "C85",
   "status": "proved",
   "theorems": [
    "Verif.Props.C85_padded_key",
    "Verif.Props.C85_se_wbsm4_key_extraction",
    "Verif.Props.C85_contexts_differ"
   ],
   "note": ""
  },
  {
   "property": "C86",
   "status": "proved",
   "theorems": [
    "Verif.Props.C86_ee_key_extraction",
    "Verif.Props.C86_mask_key_extraction",
    "Verif.Props.C86_enc_context_decrypts",
    "Verif.Props.C86_dec_context_encrypts"
   ],
   "note": ""
  },
  {
   "property": "C87",
   "status": "proved",
   "theorems": [
    "Verif.Props.C87_fpe_programs",
    "Verif.Props.C87_sm4_contexts",
    "Verif.Props.C87_aes_context",
    "Verif.Props.C87_wbgcm_contexts",
    "Verif.Props.C87_wbsm4_context",
    "Verif.Props.C87_parallel",
    "Verif.Props.C87_cbc_encrypt"
   ],
   "note": ""
  },
  {
   "property": "C88",
   "status": "proved",
   "theorems": [
    "Verif.Props.C88_wbsm4_key_in_memory",
    "Verif.Props.C88_se_key_in_memory",
    "Verif.Props.C88_sm4_key_in_freed_memory",
    "Verif.Props.C88_sm4_key_verbatim",
    "Verif.Props.C88_gcmfile_hash_key",
    "Verif.Props.C88_udf_rows"
   ],
   "note": ""
  },
  {
   "property": "C89",
   "status": "proved",
   "theorems": [
    "Verif.Props.C89_wbaes_clock",
    "Verif.Props.C89_ee_clock",
    "Verif.Props.C89_mask_clock",
    "Verif.Props.C89_se_clock",
    "Verif.Props.C89_wbsm4_clock",
    "Verif.Props.C89_one_second",
    "Verif.Props.C89_typeIV_second",
    "Verif.Props.C89_L_seed",
    "Verif.Props.C89_L_shift",
    "Verif.Props.C89_masks",
    "Verif.Props.C89_mask_tags_differ",
    "Verif.Props.C89_matrix_numbers",
    "Verif.Props.C89_matrix_seeding",
    "Verif.Props.C89_affine_seeding",
    "Verif.Props.C89_permutation_numbers"
   ],
   "note": ""
  },
  {
   "property": "C90",
   "status": "proved",
   "theorems": [
    "Verif.Props.C90_candidates",
    "Verif.Props.C90_one_tag_free",
    "Verif.Props.C90_forge",
    "Verif.Props.C90_keystream"
   ],
   "note": ""
  },
  {
   "property": "C91",
   "status": "proved",
   "theorems": [
    "Verif.Props.C91_refuse",
    "Verif.Props.C91_in_bounds",
    "Verif.Props.C91_large_noop",
    "Verif.Props.C91_truncated_tag",
    "Verif.Props.C91_streaming",
    "Verif.Props.C91_reuse",
    "Verif.Props.C91_overlap_ok",
    "Verif.Props.C91_overlap_refuse",
    "Verif.Props.C91_overlap_forward",
    "Verif.Props.C91_ee_overlap_wrong",
    "Verif.Props.C91_ee_same_calls"
   ],
   "note": ""
  },
  {
   "property": "C92",
   "status": "proved",
   "theorems": [
    "Verif.Props.C92_phone",
    "Verif.Props.C92_idcard",
    "Verif.Props.C92_cn",
    "Verif.Props.C92_no_sample",
    "Verif.Props.C92_ff3_late_tweak",
    "Verif.Props.C92_injective"
   ],
   "note": ""
  },
  {
   "property": "C93",
   "status": "proved",
   "theorems": [
    "Verif.Props.C93_clear_digits",
    "Verif.Props.C93_gmac_increment",
    "Verif.Props.C93_cn"
   ],
   "note": ""
  },
  {
   "property": "C94",
   "status": "proved",
   "theorems": [
    "Verif.Props.C94_gmac_tweak",
    "Verif.Props.C94_gmac_hash_key",
    "Verif.Props.C94_gmac_long_tweak",
    "Verif.Props.C94_cmac_tag_space"
   ],
   "note": ""
  },
  {
   "property": "C95",
   "status": "proved",
   "theorems": [
    "Verif.Props.C95_slide",
    "Verif.Props.C95_conjugate",
    "Verif.Props.C95_cycles",
    "Verif.Props.C95_phone"
   ],
   "note": ""
  },
  {
   "property": "C96",
   "status": "proved",
   "theorems": [
    "Verif.Props.C96_ff1",
    "Verif.Props.C96_ff1_defined",
    "Verif.Props.C96_ff3",
    "Verif.Props.C96_ff3_defined",
    "Verif.Props.C96_same_values",
    "Verif.Props.C96_capitals",
    "Verif.Props.C96_below_zero",
    "Verif.Props.C96_phone",
    "Verif.Props.C96_idcard",
    "Verif.Props.C96_phone_separator"
   ],
   "note": ""
  },
  {
   "property": "C97",
   "status": "proved",
   "theorems": [
    "Verif.Props.C97_ceil",
    "Verif.Props.C97_fpe",
    "Verif.Props.C97_phone",
    "Verif.Props.C97_idcard",
    "Verif.Props.C97_cn"
   ],
   "note": ""
  },
  {
   "property": "C98",
   "status": "proved",
   "theorems": [
    "Verif.Props.C98_ff1_short",
    "Verif.Props.C98_ff3_empty",
    "Verif.Props.C98_ff3_shift",
    "Verif.Props.C98_ff3_one_pair",
    "Verif.Props.C98_phone_short",
    "Verif.Props.C98_phone_one",
    "Verif.Props.C98_idcard_short",
    "Verif.Props.C98_idcard_one",
    "Verif.Props.C98_cn_short"
   ],
   "note": ""
  },
  {
   "property": "C99",
   "status": "proved",
   "theorems": [
    "Verif.Props.C99_sm4_key",
    "Verif.Props.C99_sm4_empty_key",
    "Verif.Props.C99_aes_key",
    "Verif.Props.C99_aes_short_object",
    "Verif.Props.C99_aes_reads_behind_key",
    "Verif.Props.C99_sm4_reads_key_only"
   ],
   "note": ""
  },
  {
   "property": "C100",
   "status": "proved",
   "theorems": [
    "Verif.Props.C100_empty_iv_tag",
    "Verif.Props.C100_empty_iv_forge",
    "Verif.Props.C100_empty_iv_tags",
    "Verif.Props.C100_no_setiv",
    "Verif.Props.C100_no_setiv_key",
    "Verif.Props.C100_iv_collisions",
    "Verif.Props.C100_iv12_disjoint",
    "Verif.Props.C100_long_iv",
    "Verif.Props.C100_long_iv_nist"
   ],
   "note": ""
  },
  {
   "property": "C101",
   "status": "proved",
   "theorems": [
    "Verif.Props.C101_commit",
    "Verif.Props.C101_two_keys"
   ],
   "note": ""
  },
  {
   "property": "C102",
   "status": "proved",
   "theorems": [
    "Verif.Props.C102_length",
    "Verif.Props.C102_reveal",
    "Verif.Props.C102_message",
    "Verif.Props.C102_fifteen"
   ],
   "note": ""
  },
  {
   "property": "C103",
   "status": "proved",
   "theorems": [
    "Verif.Props.C103_extend",
    "Verif.Props.C103_forge",
    "Verif.Props.C103_reuse",
    "Verif.Props.C103_reuse_wrong",
    "Verif.Props.C103_transform"
   ],
   "note": ""
  },
  {
   "property": "C104",
   "status": "proved",
   "theorems": [
    "Verif.Props.C104_count",
    "Verif.Props.C104_kept",
    "Verif.Props.C104_every",
    "Verif.Props.C104_not_uniform",
    "Verif.Props.C104_few",
    "Verif.Props.C104_missed"
   ],
   "note": ""
  },
  {
   "property": "C105",
   "status": "proved",
   "theorems": [
    "Verif.Props.C105_same",
    "Verif.Props.C105_shape",
    "Verif.Props.C105_encrypt",
    "Verif.Props.C105_decrypt",
    "Verif.Props.C105_setup",
    "Verif.Props.C105_lines"
   ],
   "note": ""
  },
  {
   "property": "C106",
   "status": "proved",
   "theorems": [
    "Verif.Props.C106_same",
    "Verif.Props.C106_index",
    "Verif.Props.C106_shape",
    "Verif.Props.C106_key",
    "Verif.Props.C106_forge",
    "Verif.Props.C106_halves"
   ],
   "note": ""
  },
  {
   "property": "C107",
   "status": "proved",
   "theorems": [
    "Verif.Props.C107_tested",
    "Verif.Props.C107_untested",
    "Verif.Props.C107_fpe",
    "Verif.Props.C107_fpe_init",
    "Verif.Props.C107_half_made_mac",
    "Verif.Props.C107_half_made_gcmfile",
    "Verif.Props.C107_cbc",
    "Verif.Props.C107_wbsm4_init",
    "Verif.Props.C107_wbsm4_gen",
    "Verif.Props.C107_wbsm4",
    "Verif.Props.C107_mask",
    "Verif.Props.C107_app_init",
    "Verif.Props.C107_app_call",
    "Verif.Props.C107_careful"
   ],
   "note": ""
  },
  {
   "property": "C108",
   "status": "proved",
   "theorems": [
    "Verif.Props.C108_phone",
    "Verif.Props.C108_phone_overlap",
    "Verif.Props.C108_phone_smear",
    "Verif.Props.C108_idcard",
    "Verif.Props.C108_idcard_x",
    "Verif.Props.C108_engines",
    "Verif.Props.C108_phone_in_place",
    "Verif.Props.C108_idcard_in_place",
    "Verif.Props.C108_cn",
    "Verif.Props.C108_cn_in_place"
   ],
   "note": ""
  },
  {
   "property": "C109",
   "status": "proved",
   "theorems": [
    "Verif.Props.C109_cmac",
    "Verif.Props.C109_gmac",
    "Verif.Props.C109_batch",
    "Verif.Props.C109_early",
    "Verif.Props.C109_capacity",
    "Verif.Props.C109_cmac_unverified",
    "Verif.Props.C109_gmac_unverified"
   ],
   "note": ""
  },
  {
   "property": "C110",
   "status": "proved",
   "theorems": [
    "Verif.Props.C110_read",
    "Verif.Props.C110_undefined",
    "Verif.Props.C110_accepted",
    "Verif.Props.C110_damaged",
    "Verif.Props.C110_write",
    "Verif.Props.C110_false_success",
    "Verif.Props.C110_write_read",
    "Verif.Props.C110_missing"
   ],
   "note": ""
  },
  {
   "property": "C111",
   "status": "proved",
   "theorems": [
    "Verif.Props.C111_encrypt",
    "Verif.Props.C111_decrypt",
    "Verif.Props.C111_large_encrypt",
    "Verif.Props.C111_large_decrypt",
    "Verif.Props.C111_reuse",
    "Verif.Props.C111_full_encrypt",
    "Verif.Props.C111_full_read",
    "Verif.Props.C111_full_decrypt",
    "Verif.Props.C111_not_created"
   ],
   "note": ""
  },
  {
   "property": "C112",
   "status": "proved",
   "theorems": [
    "Verif.Props.C112_parallel_fits",
    "Verif.Props.C112_parallel_large",
    "Verif.Props.C112_parallel_total",
    "Verif.Props.C112_sequential",
    "Verif.Props.C112_seal"
   ],
   "note": ""
  },
  {
   "property": "C113",
   "status": "proved",
   "theorems": [
    "Verif.Props.C113_phone",
    "Verif.Props.C113_phone_unread",
    "Verif.Props.C113_idcard",
    "Verif.Props.C113_cn_short",
    "Verif.Props.C113_cn_long",
    "Verif.Props.C113_cn_ascii",
    "Verif.Props.C113_cn_junk"
   ],
   "note": ""
  },
  {
   "property": "C114",
   "status": "proved",
   "theorems": [
    "Verif.Props.C114_tag",
    "Verif.Props.C114_tag_nothing",
    "Verif.Props.C114_aad_pad",
    "Verif.Props.C114_aad_lost",
    "Verif.Props.C114_data_pad",
    "Verif.Props.C114_aad_pieces",
    "Verif.Props.C114_aad_behind",
    "Verif.Props.C114_three_tags",
    "Verif.Props.C114_forge"
   ],
   "note": ""
  },
  {
   "property": "C115",
   "status": "proved",
   "theorems": [
    "Verif.Props.C115_same_iv",
    "Verif.Props.C115_prefix",
    "Verif.Props.C115_secret",
    "Verif.Props.C115_receive",
    "Verif.Props.C115_second",
    "Verif.Props.C115_two_calls",
    "Verif.Props.C115_equal_blocks",
    "Verif.Props.C115_paste"
   ],
   "note": ""
  },
  {
   "property": "C116",
   "status": "proved",
   "theorems": [
    "Verif.Props.C116_ff1",
    "Verif.Props.C116_ff3",
    "Verif.Props.C116_apps"
   ],
   "note": ""
  },
  {
   "property": "C117",
   "status": "proved",
   "theorems": [
    "Verif.Props.C117_ff1",
    "Verif.Props.C117_ff3",
    "Verif.Props.C117_even_radix"
   ],
   "note": ""
  },
  {
   "property": "C118",
   "status": "proved",
   "theorems": [
    "Verif.Props.C118_ee_same_files",
    "Verif.Props.C118_large_decrypt",
    "Verif.Props.C118_large_encrypt",
    "Verif.Props.C118_ee_order",
    "Verif.Props.C118_mask_order",
    "Verif.Props.C118_ee_second",
    "Verif.Props.C118_mask_second",
    "Verif.Props.C118_full_encrypt",
    "Verif.Props.C118_same_code",
    "Verif.Props.C118_full_read",
    "Verif.Props.C118_full_decrypt",
    "Verif.Props.C118_not_created"
   ],
   "note": ""
  },
  {
   "property": "C119",
   "status": "proved",
   "theorems": [
    "Verif.Props.C119_little",
    "Verif.Props.C119_affine_pairs",
    "Verif.Props.C119_combination",
    "Verif.Props.C119_wbsm4",
    "Verif.Props.C119_wbsm4_shift",
    "Verif.Props.C119_wbsm4_contexts",
    "Verif.Props.C119_wbsm4_decrypt",
    "Verif.Props.C119_wbsm4_not_sm4",
    "Verif.Props.C119_wbaes",
    "Verif.Props.C119_wbaes_not_aes",
    "Verif.Props.C119_ee",
    "Verif.Props.C119_ee_open",
    "Verif.Props.C119_mask",
    "Verif.Props.C119_ee_not_gcm",
    "Verif.Props.C119_se",
    "Verif.Props.C119_se_symmetric",
    "Verif.Props.C119_se_decrypt",
    "Verif.Props.C119_se_mix",
    "Verif.Props.C119_se_not_sm4"
   ],
   "note": ""
  },
  {
   "property": "C120",
   "status": "proved",
   "theorems": [
    "Verif.Props.C120_pc",
    "Verif.Props.C120_gcmfile",
    "Verif.Props.C120_sizes",
    "Verif.Props.C120_any_context",
    "Verif.Props.C120_ee",
    "Verif.Props.C120_mask",
    "Verif.Props.C120_key_little",
    "Verif.Props.C120_key_same",
    "Verif.Props.C120_key_other",
    "Verif.Props.C120_key_rounds",
    "Verif.Props.C120_ff1"
   ],
   "note": ""
  },
  {
   "property": "C121",
   "status": "proved",
   "theorems": [
    "Verif.Props.C121_cbc_refused",
    "Verif.Props.C121_cbc",
    "Verif.Props.C121_wbsm4_cbc",
    "Verif.Props.C121_gcm",
    "Verif.Props.C121_fpe",
    "Verif.Props.C121_phone",
    "Verif.Props.C121_idcard",
    "Verif.Props.C121_cn",
    "Verif.Props.C121_ff3",
    "Verif.Props.C121_import"
   ],
   "note": ""
  },
  {
   "property": "C122",
   "status": "proved",
   "theorems": [
    "Verif.Props.C122_cmp_values",
    "Verif.Props.C122_cmp_sound",
    "Verif.Props.C122_cmp_zero",
    "Verif.Props.C122_sm4_test",
    "Verif.Props.C122_aes_test",
    "Verif.Props.C122_aes_blind",
    "Verif.Props.C122_wbaes_test",
    "Verif.Props.C122_aes_program",
    "Verif.Props.C122_programs",
    "Verif.Props.C122_wbsm4_test",
    "Verif.Props.C122_sm3_test",
    "Verif.Props.C122_cmp_files_signed",
    "Verif.Props.C122_cmp_files_unsigned",
    "Verif.Props.C122_file_test",
    "Verif.Props.C122_fpe_test",
    "Verif.Props.C122_cmac_test"
   ],
   "note": ""
  },
  {
   "property": "C123",
   "status": "proved",
   "theorems": [
    "Verif.Props.C123_encrypt",
    "Verif.Props.C123_decrypt",
    "Verif.Props.C123_limit",
    "Verif.Props.C123_repeat",
    "Verif.Props.C123_read",
    "Verif.Props.C123_mask",
    "Verif.Props.C123_first_last"
   ],
   "note": ""
  },
  {
   "property": "C124",
   "status": "proved",
   "theorems": [
    "Verif.Props.C124_ff1_same",
    "Verif.Props.C124_ff3_same",
    "Verif.Props.C124_ff1_debug",
    "Verif.Props.C124_ff1_nist",
    "Verif.Props.C124_ff1_one",
    "Verif.Props.C124_ff1_one_pair",
    "Verif.Props.C124_empty"
   ],
   "note": ""
  },
  {
   "property": "C125",
   "status": "proved",
   "theorems": [
    "Verif.Props.C125_wbsm4_key",
    "Verif.Props.C125_cache_lines",
    "Verif.Props.C125_se_key",
    "Verif.Props.C125_traced",
    "Verif.Props.C125_order",
    "Verif.Props.C125_dummies"
   ],
   "note": ""
  },
  {
   "property": "C126",
   "status": "proved",
   "theorems": [
    "Verif.Props.C126_recorded",
    "Verif.Props.C126_decrypt",
    "Verif.Props.C126_encrypt",
    "Verif.Props.C126_ff1"
   ],
   "note": ""
  },
  {
   "property": "C127",
   "status": "proved",
   "theorems": [
    "Verif.Props.C127_decrypt",
    "Verif.Props.C127_stored_message",
    "Verif.Props.C127_output_over_iv",
    "Verif.Props.C127_output_from_iv",
    "Verif.Props.C127_encrypt",
    "Verif.Props.C127_encrypt_overlap",
    "Verif.Props.C127_encrypt_overlap_iff"
   ],
   "note": ""
  },
  {
   "property": "C128",
   "status": "proved",
   "theorems": [
    "Verif.Props.C128_traced",
    "Verif.Props.C128_wbaes_key",
    "Verif.Props.C128_entries",
    "Verif.Props.C128_cache_lines",
    "Verif.Props.C128_keys_differ"
   ],
   "note": ""
  },
  {
   "property": "C129",
   "status": "proved",
   "theorems": [
    "Verif.Props.C129_distinct_iff",
    "Verif.Props.C129_keystream",
    "Verif.Props.C129_locked",
    "Verif.Props.C129_in_step",
    "Verif.Props.C129_xor",
    "Verif.Props.C129_tag"
   ],
   "note": ""
  },
  {
   "property": "C130",
   "status": "proved",
   "theorems": [
    "Verif.Props.C130_debug",
    "Verif.Props.C130_phone_same",
    "Verif.Props.C130_idcard_same",
    "Verif.Props.C130_cn_same",
    "Verif.Props.C130_phone_one",
    "Verif.Props.C130_idcard_one",
    "Verif.Props.C130_phone_reveal"
   ],
   "note": ""
  },
  {
   "property": "C131",
   "status": "proved",
   "theorems": [
    "Verif.Props.C131_crypt_fails",
    "Verif.Props.C131_retry",
    "Verif.Props.C131_cbc_encrypt",
    "Verif.Props.C131_cbc_reveals",
    "Verif.Props.C131_cbc_decrypt",
    "Verif.Props.C131_cbc_resume",
    "Verif.Props.C131_cbc_no_failure",
    "Verif.Props.C131_setiv_fails",
    "Verif.Props.C131_init",
    "Verif.Props.C131_file_encrypt",
    "Verif.Props.C131_file_decrypt",
    "Verif.Props.C131_file_lost",
    "Verif.Props.C131_parallel",
    "Verif.Props.C131_no_failure"
   ],
   "note": ""
  },
  {
   "property": "C132",
   "status": "proved",
   "theorems": [
    "Verif.Props.C132_files",
    "Verif.Props.C132_files_missing",
    "Verif.Props.C132_files_ee",
    "Verif.Props.C132_files_mask",
    "Verif.Props.C132_files_aes",
    "Verif.Props.C132_fpe",
    "Verif.Props.C132_fpe_aes",
    "Verif.Props.C132_cmac",
    "Verif.Props.C132_gmac",
    "Verif.Props.C132_app",
    "Verif.Props.C132_app_slack",
    "Verif.Props.C132_cbc",
    "Verif.Props.C132_gcm"
   ],
   "note": ""
  },
  {
   "property": "C133",
   "status": "proved",
   "theorems": [
    "Verif.Props.C133_prefix",
    "Verif.Props.C133_pointers",
    "Verif.Props.C133_empty",
    "Verif.Props.C133_verify",
    "Verif.Props.C133_hash_key"
   ],
   "note": ""
  },
  {
   "property": "C134",
   "status": "proved",
   "theorems": [
    "Verif.Props.C134_bytes",
    "Verif.Props.C134_alone",
    "Verif.Props.C134_mix",
    "Verif.Props.C134_swap",
    "Verif.Props.C134_forge"
   ],
   "note": ""
  },
  {
   "property": "C135",
   "status": "proved",
   "theorems": [
    "Verif.Props.C135_works",
    "Verif.Props.C135_ff1_encrypt",
    "Verif.Props.C135_ff1_plain",
    "Verif.Props.C135_ff1_decrypt",
    "Verif.Props.C135_ff3_encrypt",
    "Verif.Props.C135_ff3_decrypt",
    "Verif.Props.C135_ff1_both",
    "Verif.Props.C135_ff3_both"
   ],
   "note": ""
  },
  {
   "property": "C136",
   "status": "proved",
   "theorems": [
    "Verif.Props.C136_works",
    "Verif.Props.C136_cmac_text",
    "Verif.Props.C136_gmac_text",
    "Verif.Props.C136_cmac_tag",
    "Verif.Props.C136_gmac_tag",
    "Verif.Props.C136_gmac_first",
    "Verif.Props.C136_cmac_dead",
    "Verif.Props.C136_gmac_dead"
   ],
   "note": ""
  },
  {
   "property": "C137",
   "status": "proved",
   "theorems": [
    "Verif.Props.C137_same",
    "Verif.Props.C137_every",
    "Verif.Props.C137_count",
    "Verif.Props.C137_not_uniform",
    "Verif.Props.C137_nearly_uniform",
    "Verif.Props.C137_places",
    "Verif.Props.C137_few",
    "Verif.Props.C137_missed"
   ],
   "note": ""
  },
  {
   "property": "C138",
   "status": "proved",
   "theorems": [
    "Verif.Props.C138_equally",
    "Verif.Props.C138_remainders",
    "Verif.Props.C138_defined",
    "Verif.Props.C138_half"
   ],
   "note": ""
  },
  {
   "property": "C139",
   "status": "proved",
   "theorems": [
    "Verif.Props.C139_difference",
    "Verif.Props.C139_determined",
    "Verif.Props.C139_matrices",
    "Verif.Props.C139_read",
    "Verif.Props.C139_change",
    "Verif.Props.C139_tag"
   ],
   "note": ""
  },
  {
   "property": "C140",
   "status": "proved",
   "theorems": [
    "Verif.Props.C140_works",
    "Verif.Props.C140_phone_encrypt",
    "Verif.Props.C140_phone_plain",
    "Verif.Props.C140_phone_decrypt",
    "Verif.Props.C140_idcard_encrypt",
    "Verif.Props.C140_idcard_plain",
    "Verif.Props.C140_idcard_decrypt",
    "Verif.Props.C140_cn_encrypt",
    "Verif.Props.C140_cn_plain"
   ],
   "note": ""
  },
  {
   "property": "C141",
   "status": "proved",
   "theorems": [
    "Verif.Props.C141_ff1_encrypt",
    "Verif.Props.C141_ff3_encrypt",
    "Verif.Props.C141_ff1_decrypt",
    "Verif.Props.C141_ff3_decrypt",
    "Verif.Props.C141_ff3_lossy",
    "Verif.Props.C141_ff1_lossy",
    "Verif.Props.C141_phone",
    "Verif.Props.C141_idcard",
    "Verif.Props.C141_cn"
   ],
   "note": ""
  },
  {
   "property": "C142",
   "status": "proved",
   "theorems": [
    "Verif.Props.C142_flip_iv",
    "Verif.Props.C142_flip_block",
    "Verif.Props.C142_suffix",
    "Verif.Props.C142_splice",
    "Verif.Props.C142_forge",
    "Verif.Props.C142_forge_long",
    "Verif.Props.C142_collision"
   ],
   "note": ""
  },
  {
   "property": "C143",
   "status": "proved",
   "theorems": [
    "Verif.Props.C143_flip",
    "Verif.Props.C143_cut",
    "Verif.Props.C143_forge",
    "Verif.Props.C143_read",
    "Verif.Props.C143_mask"
   ],
   "note": ""
  },
  {
   "property": "C144",
   "status": "proved",
   "theorems": [
    "Verif.Props.C144_collision",
    "Verif.Props.C144_suffix",
    "Verif.Props.C144_exists",
    "Verif.Props.C144_multi",
    "Verif.Props.C144_limit"
   ],
   "note": ""
  },
  {
   "property": "C145",
   "status": "proved",
   "theorems": [
    "Verif.Props.C145_tags",
    "Verif.Props.C145_cbc",
    "Verif.Props.C145_gcm",
    "Verif.Props.C145_fpe",
    "Verif.Props.C145_sm4"
   ],
   "note": ""
  },
  {
   "property": "C146",
   "status": "proved",
   "theorems": [
    "Verif.Props.C146_any",
    "Verif.Props.C146_apart",
    "Verif.Props.C146_whitebox",
    "Verif.Props.C146_deleted",
    "Verif.Props.C146_same_output"
   ],
   "note": ""
  },
  {
   "property": "C147",
   "status": "proved",
   "theorems": [
    "Verif.Props.C147_phone_undone",
    "Verif.Props.C147_phone_counts",
    "Verif.Props.C147_app_undone",
    "Verif.Props.C147_ff1_undone",
    "Verif.Props.C147_ff3_undone",
    "Verif.Props.C147_card_undone",
    "Verif.Props.C147_card_counts",
    "Verif.Props.C147_text_undone",
    "Verif.Props.C147_text_counts"
   ],
   "note": ""
  }
 ]
}