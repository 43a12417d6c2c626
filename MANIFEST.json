{
 "claims": [
  {
   "property": "C01",
   "status": "proved",
   "theorems": [
    "ElasticElgamal.C01_decrypt_encryptElement",
    "ElasticElgamal.C01_decrypt_encrypt",
    "ElasticElgamal.C01_keypair_generate",
    "ElasticElgamal.C01_encrypts_iff_decrypts"
   ],
   "note": ""
  },
  {
   "property": "C02",
   "status": "proved",
   "theorems": [
    "ElasticElgamal.C02_new_total",
    "ElasticElgamal.C02_get_total",
    "ElasticElgamal.C02_get_sound",
    "ElasticElgamal.C02_get_complete",
    "ElasticElgamal.C02_get_none",
    "ElasticElgamal.C02_decrypt_encrypt",
    "ElasticElgamal.C02_zero_always_found"
   ],
   "note": ""
  },
  {
   "property": "C03",
   "status": "proved",
   "theorems": [
    "ElasticElgamal.C03_homomorphic",
    "ElasticElgamal.C03_homomorphic_scalars"
   ],
   "note": ""
  },
  {
   "property": "C04",
   "status": "proved",
   "theorems": [
    "ElasticElgamal.C04_key_arithmetic",
    "ElasticElgamal.C04_key_arithmetic_total",
    "ElasticElgamal.C04_secret_sub",
    "ElasticElgamal.C04_keypair_new",
    "ElasticElgamal.C04_keypair_scale"
   ],
   "note": ""
  },
  {
   "property": "C05",
   "status": "proved",
   "theorems": [
    "ElasticElgamal.C05_from_bytes_spec",
    "ElasticElgamal.C05_roundtrip",
    "ElasticElgamal.C05_parsed_bytes",
    "ElasticElgamal.C05_identity_not_parsed"
   ],
   "note": ""
  },
  {
   "property": "C06",
   "status": "proved",
   "theorems": [
    "ElasticElgamal.C06_from_bytes_iff",
    "ElasticElgamal.C06_from_bytes_none"
   ],
   "note": ""
  },
  {
   "property": "C07",
   "status": "proved",
   "theorems": [
    "ElasticElgamal.C07_eq_iff"
   ],
   "note": ""
  },
  {
   "property": "C08",
   "status": "proved",
   "theorems": [
    "ElasticElgamal.C08_decryption_complete",
    "ElasticElgamal.C08_encrypt_decrypt",
    "ElasticElgamal.C08_decryption_new_total"
   ],
   "note": ""
  },
  {
   "property": "C09",
   "status": "proved",
   "theorems": [
    "ElasticElgamal.C09_decryption_sound"
   ],
   "note": ""
  },
  {
   "property": "C10",
   "status": "proved",
   "theorems": [
    "ElasticElgamal.C10_log_eq_roundtrip",
    "ElasticElgamal.C10_log_eq_canonical",
    "ElasticElgamal.C10_log_eq_size",
    "ElasticElgamal.C10_candidate_roundtrip",
    "ElasticElgamal.C10_candidate_iff",
    "ElasticElgamal.C10_ciphertext_bytes"
   ],
   "note": ""
  },
  {
   "property": "C11",
   "status": "proved",
   "theorems": [
    "ElasticElgamal.C11_log_eq_complete",
    "ElasticElgamal.C11_log_eq_new_total",
    "ElasticElgamal.C11_log_eq_new_total_sec1"
   ],
   "note": ""
  },
  {
   "property": "C12",
   "status": "proved",
   "theorems": [
    "ElasticElgamal.C12_log_eq_sound",
    "ElasticElgamal.C12_log_eq_extract"
   ],
   "note": ""
  },
  {
   "property": "C13",
   "status": "proved",
   "theorems": [
    "ElasticElgamal.C13_commitment_binding",
    "ElasticElgamal.C13_commitment_base_unbound",
    "ElasticElgamal.C13_log_eq_binding",
    "ElasticElgamal.C13_decryption_binding",
    "ElasticElgamal.C13_pop_binding",
    "ElasticElgamal.C13_range_binding",
    "ElasticElgamal.C13_ring_binding",
    "ElasticElgamal.C13_sum_sq_binding"
   ],
   "note": "Binding of every input the transcript covers; the admissible values of ring proofs and the base H of commitment proofs (when the response is 0) are not bound by the code, see DESIGN.md."
  },
  {
   "property": "C14",
   "status": "proved",
   "theorems": [
    "ElasticElgamal.C14_pop_complete",
    "ElasticElgamal.C14_pop_new_total"
   ],
   "note": ""
  },
  {
   "property": "C15",
   "status": "proved",
   "theorems": [
    "ElasticElgamal.C15_pop_extract"
   ],
   "note": ""
  },
  {
   "property": "C16",
   "status": "proved",
   "theorems": [
    "ElasticElgamal.C16_pop_len_mismatch",
    "ElasticElgamal.C16_range_len_mismatch",
    "ElasticElgamal.C16_ring_len_mismatch",
    "ElasticElgamal.C16_sum_sq_len_mismatch"
   ],
   "note": ""
  },
  {
   "property": "C17",
   "status": "proved",
   "theorems": [
    "ElasticElgamal.C17_commitment_complete",
    "ElasticElgamal.C17_ciphertext_with_value",
    "ElasticElgamal.C17_commitment_new_total"
   ],
   "note": ""
  },
  {
   "property": "C18",
   "status": "proved",
   "theorems": [
    "ElasticElgamal.C18_commitment_extract",
    "ElasticElgamal.C18_commitment_sound_zero_base"
   ],
   "note": ""
  },
  {
   "property": "C19",
   "status": "proved",
   "theorems": [
    "ElasticElgamal.C19_sum_sq_complete",
    "ElasticElgamal.C19_sum_sq_new_total"
   ],
   "note": ""
  },
  {
   "property": "C20",
   "status": "proved",
   "theorems": [
    "ElasticElgamal.C20_sum_sq_sound"
   ],
   "note": ""
  },
  {
   "property": "C21",
   "status": "proved",
   "theorems": [
    "ElasticElgamal.C21_zero_complete",
    "ElasticElgamal.C21_zero_total",
    "ElasticElgamal.C21_zero_sound"
   ],
   "note": ""
  },
  {
   "property": "C22",
   "status": "proved",
   "theorems": [
    "ElasticElgamal.C22_ring_complete",
    "ElasticElgamal.C22_ring_total",
    "ElasticElgamal.C22_bool_complete",
    "ElasticElgamal.C22_bool_total"
   ],
   "note": ""
  },
  {
   "property": "C23",
   "status": "proved",
   "theorems": [
    "ElasticElgamal.C23_ring_sound",
    "ElasticElgamal.C23_forgeable_unique",
    "ElasticElgamal.C23_bool_sound",
    "ElasticElgamal.C23_ring_sound_no_values",
    "ElasticElgamal.C23_single_value_unsound",
    "ElasticElgamal.C23_late_values"
   ],
   "note": ""
  },
  {
   "property": "C24",
   "status": "proved",
   "theorems": [
    "ElasticElgamal.C24_from_bytes_total",
    "ElasticElgamal.C24_from_bytes_iff",
    "ElasticElgamal.C24_bad_length",
    "ElasticElgamal.C24_bad_scalar"
   ],
   "note": ""
  },
  {
   "property": "C25",
   "status": "proved",
   "theorems": [
    "ElasticElgamal.C25_covers",
    "ElasticElgamal.C25_nested"
   ],
   "note": ""
  },
  {
   "property": "C26",
   "status": "proved",
   "theorems": [
    "ElasticElgamal.C26_prepared_total",
    "ElasticElgamal.C26_prepared_decompose",
    "ElasticElgamal.C26_decompose",
    "ElasticElgamal.C26_decompose_out_of_range"
   ],
   "note": ""
  },
  {
   "property": "C27",
   "status": "proved",
   "theorems": [
    "ElasticElgamal.C27_optimal",
    "ElasticElgamal.C27_lower_bound",
    "ElasticElgamal.C27_estimate_exact",
    "ElasticElgamal.C27_estimate_int"
   ],
   "note": ""
  },
  {
   "property": "C28",
   "status": "proved",
   "theorems": [
    "ElasticElgamal.C28_total",
    "ElasticElgamal.C28_small",
    "ElasticElgamal.C28_overflow_debug",
    "ElasticElgamal.C28_overflow_release"
   ],
   "note": ""
  },
  {
   "property": "C29",
   "status": "proved",
   "theorems": [
    "ElasticElgamal.C29_display_injective",
    "ElasticElgamal.C29_optimal_steps",
    "ElasticElgamal.C29_bounds_distinct"
   ],
   "note": ""
  },
  {
   "property": "C30",
   "status": "proved",
   "theorems": [
    "ElasticElgamal.C30_range_complete",
    "ElasticElgamal.C30_range_total",
    "ElasticElgamal.C30_range_panics",
    "ElasticElgamal.C30_encrypt_range",
    "ElasticElgamal.C30_encrypt_range_total"
   ],
   "note": ""
  },
  {
   "property": "C31",
   "status": "proved",
   "theorems": [
    "ElasticElgamal.C31_range_sound"
   ],
   "note": ""
  },
  {
   "property": "C32",
   "status": "proved",
   "theorems": [
    "ElasticElgamal.C32_params",
    "ElasticElgamal.C32_choice_complete",
    "ElasticElgamal.C32_choice_total",
    "ElasticElgamal.C32_single_total",
    "ElasticElgamal.C32_single_complete"
   ],
   "note": ""
  },
  {
   "property": "C33",
   "status": "proved",
   "theorems": [
    "ElasticElgamal.C33_choice_sound"
   ],
   "note": ""
  },
  {
   "property": "C34",
   "status": "proved",
   "theorems": [
    "ElasticElgamal.C34_single_tally",
    "ElasticElgamal.C34_multi_tally"
   ],
   "note": ""
  },
  {
   "property": "C35",
   "status": "proved",
   "theorems": [
    "ElasticElgamal.C35_isqrt",
    "ElasticElgamal.C35_params_new",
    "ElasticElgamal.C35_params_zero",
    "ElasticElgamal.C35_params_overflow",
    "ElasticElgamal.C35_set_max_votes",
    "ElasticElgamal.C35_set_max_votes_panics",
    "ElasticElgamal.C35_set_max_votes_wraps"
   ],
   "note": ""
  },
  {
   "property": "C36",
   "status": "proved",
   "theorems": [
    "ElasticElgamal.C36_ballot_complete",
    "ElasticElgamal.C36_ballot_total",
    "ElasticElgamal.C36_ballot_wraps"
   ],
   "note": ""
  },
  {
   "property": "C37",
   "status": "proved",
   "theorems": [
    "ElasticElgamal.C37_ballot_sound",
    "ElasticElgamal.C37_tally"
   ],
   "note": ""
  },
  {
   "property": "C38",
   "status": "proved",
   "theorems": [
    "ElasticElgamal.C38_choice_count",
    "ElasticElgamal.C38_choice_sum",
    "ElasticElgamal.C38_choice_range",
    "ElasticElgamal.C38_voting_count",
    "ElasticElgamal.C38_voting_variant",
    "ElasticElgamal.C38_voting_credit",
    "ElasticElgamal.C38_voting_equivalence"
   ],
   "note": ""
  },
  {
   "property": "C39",
   "status": "proved",
   "theorems": [
    "ElasticElgamal.C39_combine",
    "ElasticElgamal.C39_combine_decrypts"
   ],
   "note": ""
  },
  {
   "property": "C40",
   "status": "proved",
   "theorems": [
    "ElasticElgamal.C40_insufficient",
    "ElasticElgamal.C40_panics",
    "ElasticElgamal.C40_ignores_rest",
    "ElasticElgamal.C40_duplicates",
    "ElasticElgamal.C40_params_new"
   ],
   "note": ""
  },
  {
   "property": "C41",
   "status": "proved",
   "theorems": [
    "ElasticElgamal.C41_any_secret",
    "ElasticElgamal.C41_unique",
    "ElasticElgamal.C41_equally_likely",
    "ElasticElgamal.C41_dealer_shares",
    "ElasticElgamal.C41_simulate"
   ],
   "note": ""
  },
  {
   "property": "C42",
   "status": "proved",
   "theorems": [
    "ElasticElgamal.C42_dealer",
    "ElasticElgamal.C42_dealer_total",
    "ElasticElgamal.C42_key_set_new",
    "ElasticElgamal.C42_dealer_accepted",
    "ElasticElgamal.C42_key_set_errors",
    "ElasticElgamal.C42_wrong_degree",
    "ElasticElgamal.C42_participant",
    "ElasticElgamal.C42_share_accepted"
   ],
   "note": ""
  },
  {
   "property": "C43",
   "status": "proved",
   "theorems": [
    "ElasticElgamal.C43_ok_iff",
    "ElasticElgamal.C43_restored",
    "ElasticElgamal.C43_errors"
   ],
   "note": ""
  },
  {
   "property": "C44",
   "status": "proved",
   "theorems": [
    "ElasticElgamal.C44_share_complete",
    "ElasticElgamal.C44_share_total",
    "ElasticElgamal.C44_share_sound",
    "ElasticElgamal.C44_share_bad_hash",
    "ElasticElgamal.C44_share_index",
    "ElasticElgamal.C44_share_hash",
    "ElasticElgamal.C44_share_hash_inj",
    "ElasticElgamal.C44_participant_pop",
    "ElasticElgamal.C44_participant_pop_hash",
    "ElasticElgamal.C44_participant_pop_hash_inj"
   ],
   "note": ""
  },
  {
   "property": "C45",
   "status": "proved",
   "theorems": [
    "ElasticElgamal.C45_end_to_end",
    "ElasticElgamal.C45_verified_shares",
    "ElasticElgamal.C45_any_ciphertext"
   ],
   "note": ""
  },
  {
   "property": "C46",
   "status": "proved",
   "theorems": [
    "ElasticElgamal.C46_commitments",
    "ElasticElgamal.C46_polynomials",
    "ElasticElgamal.C46_shares",
    "ElasticElgamal.C46_info_error_unchanged",
    "ElasticElgamal.C46_share_error_unchanged"
   ],
   "note": ""
  },
  {
   "property": "C47",
   "status": "proved",
   "theorems": [
    "ElasticElgamal.C47_own_polynomial",
    "ElasticElgamal.C47_complete",
    "ElasticElgamal.C47_complete_total",
    "ElasticElgamal.C47_own_replaced",
    "ElasticElgamal.C47_agree",
    "ElasticElgamal.C47_decrypt",
    "ElasticElgamal.C47_public_info",
    "ElasticElgamal.C47_info_accepted",
    "ElasticElgamal.C47_share_accepted",
    "ElasticElgamal.C47_honest"
   ],
   "note": ""
  },
  {
   "property": "C48",
   "status": "proved",
   "theorems": [
    "ElasticElgamal.C48_binding",
    "ElasticElgamal.C48_reject",
    "ElasticElgamal.C48_rest_unbound",
    "ElasticElgamal.C48_replay"
   ],
   "note": ""
  },
  {
   "property": "C49",
   "status": "proved",
   "theorems": [
    "ElasticElgamal.C49_new",
    "ElasticElgamal.C49_insert_commitment",
    "ElasticElgamal.C49_finish_commitments",
    "ElasticElgamal.C49_insert_polynomial",
    "ElasticElgamal.C49_finish_polynomials",
    "ElasticElgamal.C49_insert_share",
    "ElasticElgamal.C49_complete",
    "ElasticElgamal.C49_secret_share"
   ],
   "note": ""
  },
  {
   "property": "C50",
   "status": "proved",
   "theorems": [
    "ElasticElgamal.C50_choice_verify_total",
    "ElasticElgamal.C50_choice_verify_panics_sec1",
    "ElasticElgamal.C50_commitment_verify_total",
    "ElasticElgamal.C50_commitment_verify_panics_sec1",
    "ElasticElgamal.C50_insert_polynomial_panics_sec1",
    "ElasticElgamal.C50_complete_panics_sec1",
    "ElasticElgamal.C50_key_set_new_total",
    "ElasticElgamal.C50_from_participants_total",
    "ElasticElgamal.C50_from_participants_panics_sec1",
    "ElasticElgamal.C50_verify_share_total",
    "ElasticElgamal.C50_verify_participant",
    "ElasticElgamal.C50_log_eq_verify_total",
    "ElasticElgamal.C50_log_eq_verify_panics_sec1",
    "ElasticElgamal.C50_log_eq_zero_proof_parses",
    "ElasticElgamal.C50_decryption_verify_total",
    "ElasticElgamal.C50_zero_verify_total",
    "ElasticElgamal.C50_pop_verify_total",
    "ElasticElgamal.C50_pop_verify_panics_sec1",
    "ElasticElgamal.C50_voting_verify_total",
    "ElasticElgamal.C50_voting_verify_panics_sec1",
    "ElasticElgamal.C50_range_verify_total",
    "ElasticElgamal.C50_range_verify_panics_sec1",
    "ElasticElgamal.C50_ring_verify_total",
    "ElasticElgamal.C50_bool_verify_total",
    "ElasticElgamal.C50_bool_verify_panics_sec1",
    "ElasticElgamal.C50_deserialize_keypair",
    "ElasticElgamal.C50_sum_sq_verify_total"
   ],
   "note": ""
  },
  {
   "property": "C51",
   "status": "proved",
   "theorems": [
    "ElasticElgamal.C51_commitment_zk",
    "ElasticElgamal.C51_log_eq_zk",
    "ElasticElgamal.C51_log_eq_simulate",
    "ElasticElgamal.C51_pop_zk",
    "ElasticElgamal.C51_range_zk",
    "ElasticElgamal.C51_ring_zk",
    "ElasticElgamal.C51_sum_sq_zk"
   ],
   "note": ""
  },
  {
   "property": "C52",
   "status": "proved",
   "theorems": [
    "ElasticElgamal.C52_roundtrip_opening",
    "ElasticElgamal.C52_roundtrip_scalar",
    "ElasticElgamal.C52_roundtrip_element",
    "ElasticElgamal.C52_roundtrip_secret_key",
    "ElasticElgamal.C52_roundtrip_public_key",
    "ElasticElgamal.C52_roundtrip_keypair",
    "ElasticElgamal.C52_roundtrip_vec",
    "ElasticElgamal.C52_roundtrip_ciphertext",
    "ElasticElgamal.C52_roundtrip_decryption",
    "ElasticElgamal.C52_roundtrip_log_eq",
    "ElasticElgamal.C52_roundtrip_pop",
    "ElasticElgamal.C52_roundtrip_commitment_eq",
    "ElasticElgamal.C52_roundtrip_sum_of_squares",
    "ElasticElgamal.C52_roundtrip_ring",
    "ElasticElgamal.C52_roundtrip_range",
    "ElasticElgamal.C52_roundtrip_choice",
    "ElasticElgamal.C52_roundtrip_ballot",
    "ElasticElgamal.C52_roundtrip_public_info",
    "ElasticElgamal.C52_roundtrip_key_set",
    "ElasticElgamal.C52_roundtrip_participant",
    "ElasticElgamal.C52_roundtrip_dealer",
    "ElasticElgamal.C52_roundtrip_collecting_commitments",
    "ElasticElgamal.C52_roundtrip_collecting_polynomials",
    "ElasticElgamal.C52_roundtrip_exchanging_secrets",
    "ElasticElgamal.C52_total",
    "ElasticElgamal.C52_scalar_accepts",
    "ElasticElgamal.C52_secret_key_accepts",
    "ElasticElgamal.C52_element_accepts",
    "ElasticElgamal.C52_element_canonical",
    "ElasticElgamal.C52_public_key_accepts",
    "ElasticElgamal.C52_keypair_accepts",
    "ElasticElgamal.C52_opening_accepts",
    "ElasticElgamal.C52_hash_accepts",
    "ElasticElgamal.C52_vec_accepts",
    "ElasticElgamal.C52_log_eq_accepts",
    "ElasticElgamal.C52_wrong_length",
    "ElasticElgamal.C52_malformed",
    "ElasticElgamal.C52_not_bytes",
    "ElasticElgamal.C52_vec_short",
    "ElasticElgamal.C52_fields",
    "ElasticElgamal.C52_ciphertext_ok",
    "ElasticElgamal.C52_proofs_ok",
    "ElasticElgamal.C52_range_ok",
    "ElasticElgamal.C52_ballot_ok",
    "ElasticElgamal.C52_key_set_ok",
    "ElasticElgamal.C52_short_proofs",
    "ElasticElgamal.C52_participant_unvalidated"
   ],
   "note": ""
  },
  {
   "property": "C53",
   "status": "proved",
   "theorems": [
    "ElasticElgamal.C53_multi_mul",
    "ElasticElgamal.C53_multi_mul_lengths",
    "ElasticElgamal.C53_double_mul",
    "ElasticElgamal.C53_invert_scalars"
   ],
   "note": ""
  },
  {
   "property": "C54",
   "status": "proved",
   "theorems": [
    "ElasticElgamal.C54_lookup",
    "ElasticElgamal.C54_single_tally",
    "ElasticElgamal.C54_multi_tally",
    "ElasticElgamal.C54_quadratic_tally",
    "ElasticElgamal.C54_honest_single"
   ],
   "note": ""
  },
  {
   "property": "C55",
   "status": "proved",
   "theorems": [
    "ElasticElgamal.C55_prob_true",
    "ElasticElgamal.C55_prob_value",
    "ElasticElgamal.C55_log_eq_bound",
    "ElasticElgamal.C55_decryption_bound",
    "ElasticElgamal.C55_zero_bound",
    "ElasticElgamal.C55_share_bound"
   ],
   "note": ""
  },
  {
   "property": "C56",
   "status": "proved",
   "theorems": [
    "ElasticElgamal.C56_sum_sq_bound"
   ],
   "note": ""
  },
  {
   "property": "C57",
   "status": "proved",
   "theorems": [
    "ElasticElgamal.C57_ring_bound",
    "ElasticElgamal.C57_bool_bound"
   ],
   "note": ""
  },
  {
   "property": "C58",
   "status": "proved",
   "theorems": [
    "ElasticElgamal.C58_range_bound"
   ],
   "note": ""
  },
  {
   "property": "C59",
   "status": "proved",
   "theorems": [
    "ElasticElgamal.C59_single_bound",
    "ElasticElgamal.C59_multi_bound"
   ],
   "note": ""
  },
  {
   "property": "C60",
   "status": "proved",
   "theorems": [
    "ElasticElgamal.C60_ballot_bound"
   ],
   "note": ""
  },
  {
   "property": "C61",
   "status": "proved",
   "theorems": [
    "ElasticElgamal.C61_single_bound",
    "ElasticElgamal.C61_multi_bound",
    "ElasticElgamal.C61_quadratic_bound"
   ],
   "note": ""
  },
  {
   "property": "C62",
   "status": "proved",
   "theorems": [
    "ElasticElgamal.C62_float_estimate",
    "ElasticElgamal.C62_same",
    "ElasticElgamal.C62_std_agrees",
    "ElasticElgamal.C62_too_large",
    "ElasticElgamal.C62_inexact_log2"
   ],
   "note": ""
  },
  {
   "property": "C63",
   "status": "proved",
   "theorems": [
    "ElasticElgamal.C63_generic_lawful",
    "ElasticElgamal.C63_generic_identity",
    "ElasticElgamal.C63_generic_decode",
    "ElasticElgamal.C63_generic_decode_other",
    "ElasticElgamal.C63_generic_canonical",
    "ElasticElgamal.C63_generic_compact_keys",
    "ElasticElgamal.C63_ristretto",
    "ElasticElgamal.C63_ristretto_decode",
    "ElasticElgamal.C63_curve25519_decode",
    "ElasticElgamal.C63_curve25519_torsion",
    "ElasticElgamal.C63_curve25519_lawful",
    "ElasticElgamal.C63_curve25519_identity",
    "ElasticElgamal.C63_curve25519_canonical_iff"
   ],
   "note": ""
  },
  {
   "property": "C64",
   "status": "proved",
   "theorems": [
    "ElasticElgamal.C64_count",
    "ElasticElgamal.C64_ristretto",
    "ElasticElgamal.C64_curve25519",
    "ElasticElgamal.C64_distance"
   ],
   "note": ""
  },
  {
   "property": "C65",
   "status": "proved",
   "theorems": [
    "ElasticElgamal.C65_participants_decrypt",
    "ElasticElgamal.C65_dkg_participants",
    "ElasticElgamal.C65_honest_multi",
    "ElasticElgamal.C65_honest_quadratic"
   ],
   "note": ""
  },
  {
   "property": "C66",
   "status": "proved",
   "theorems": [
    "ElasticElgamal.C66_cpa",
    "ElasticElgamal.C66_cpa_bound"
   ],
   "note": ""
  },
  {
   "property": "C67",
   "status": "proved",
   "theorems": [
    "ElasticElgamal.C67_simulation",
    "ElasticElgamal.C67_choice_private",
    "ElasticElgamal.C67_choices_private"
   ],
   "note": ""
  },
  {
   "property": "C68",
   "status": "proved",
   "theorems": [
    "ElasticElgamal.C68_any_context_simulation",
    "ElasticElgamal.C68_any_context_private",
    "ElasticElgamal.C68_decryption_simulation",
    "ElasticElgamal.C68_election_private",
    "ElasticElgamal.C68_copied_ballot"
   ],
   "note": ""
  },
  {
   "property": "C69",
   "status": "proved",
   "theorems": [
    "ElasticElgamal.C69_threshold_simulation",
    "ElasticElgamal.C69_threshold_private",
    "ElasticElgamal.C69_threshold_sharp"
   ],
   "note": ""
  },
  {
   "property": "C70",
   "status": "proved",
   "theorems": [
    "ElasticElgamal.C70_log_eq_knowledge",
    "ElasticElgamal.C70_commitment_knowledge",
    "ElasticElgamal.C70_sum_sq_knowledge",
    "ElasticElgamal.C70_pop_knowledge",
    "ElasticElgamal.C70_pop_discrete_log",
    "ElasticElgamal.C70_knowledge_loss"
   ],
   "note": ""
  },
  {
   "property": "C71",
   "status": "proved",
   "theorems": [
    "ElasticElgamal.C71_ciphertext",
    "ElasticElgamal.C71_decryption",
    "ElasticElgamal.C71_log_eq",
    "ElasticElgamal.C71_pop",
    "ElasticElgamal.C71_commitment_eq",
    "ElasticElgamal.C71_sum_of_squares",
    "ElasticElgamal.C71_ring",
    "ElasticElgamal.C71_range",
    "ElasticElgamal.C71_choice",
    "ElasticElgamal.C71_with_range",
    "ElasticElgamal.C71_ballot",
    "ElasticElgamal.C71_params",
    "ElasticElgamal.C71_key_set",
    "ElasticElgamal.C71_participant",
    "ElasticElgamal.C71_public_info",
    "ElasticElgamal.C71_dealer",
    "ElasticElgamal.C71_collecting_commitments",
    "ElasticElgamal.C71_collecting_polynomials",
    "ElasticElgamal.C71_exchanging_secrets"
   ],
   "note": ""
  },
  {
   "property": "C72",
   "status": "proved",
   "theorems": [
    "ElasticElgamal.C72_decode_iff",
    "ElasticElgamal.C72_encode_iff",
    "ElasticElgamal.C72_lawful",
    "ElasticElgamal.C72_text_unique",
    "ElasticElgamal.C72_written"
   ],
   "note": ""
  },
  {
   "property": "C73",
   "status": "proved",
   "theorems": [
    "ElasticElgamal.C73_simulation",
    "ElasticElgamal.C73_range_private",
    "ElasticElgamal.C73_encrypt_range_private",
    "ElasticElgamal.C73_ranges_private"
   ],
   "note": ""
  },
  {
   "property": "C74",
   "status": "proved",
   "theorems": [
    "ElasticElgamal.C74_ballot_private",
    "ElasticElgamal.C74_voters_private",
    "ElasticElgamal.C74_voters_bound"
   ],
   "note": ""
  },
  {
   "property": "C75",
   "status": "proved",
   "theorems": [
    "ElasticElgamal.C75_any_context_simulation",
    "ElasticElgamal.C75_any_context_private",
    "ElasticElgamal.C75_decryption_simulation",
    "ElasticElgamal.C75_election_private",
    "ElasticElgamal.C75_election_bound",
    "ElasticElgamal.C75_threshold_simulation",
    "ElasticElgamal.C75_threshold_private",
    "ElasticElgamal.C75_threshold_sharp"
   ],
   "note": ""
  },
  {
   "property": "C76",
   "status": "proved",
   "theorems": [
    "ElasticElgamal.C76_vote_tallies",
    "ElasticElgamal.C76_vote_runs",
    "ElasticElgamal.C76_cast_terminates",
    "ElasticElgamal.C76_quadratic_runs",
    "ElasticElgamal.C76_no_votes",
    "ElasticElgamal.C76_parse_talliers",
    "ElasticElgamal.C76_parse_decimal",
    "ElasticElgamal.C76_range_runs"
   ],
   "note": ""
  },
  {
   "property": "C77",
   "status": "proved",
   "theorems": [
    "ElasticElgamal.C77_runs",
    "ElasticElgamal.C77_challenge_injective",
    "ElasticElgamal.C77_log_injective",
    "ElasticElgamal.C77_collision_bound",
    "ElasticElgamal.C77_simulates"
   ],
   "note": ""
  },
  {
   "property": "C78",
   "status": "proved",
   "theorems": [
    "ElasticElgamal.C78_secp256k1_order",
    "ElasticElgamal.C78_secp256k1",
    "ElasticElgamal.C78_curve25519_order",
    "ElasticElgamal.C78_curve25519",
    "ElasticElgamal.C78_curve25519_identity",
    "ElasticElgamal.C78_ristretto",
    "ElasticElgamal.C78_ristretto_encode",
    "ElasticElgamal.C78_ristretto_decode"
   ],
   "note": ""
  },
  {
   "property": "C79",
   "status": "proved",
   "theorems": [
    "ElasticElgamal.C79_multiplication",
    "ElasticElgamal.C79_externals",
    "ElasticElgamal.C79_k256",
    "ElasticElgamal.C79_ristretto",
    "ElasticElgamal.C79_ristretto_same",
    "ElasticElgamal.C79_curve25519",
    "ElasticElgamal.C79_chacha_stream",
    "ElasticElgamal.C79_random_scalar",
    "ElasticElgamal.C79_wide_scalars",
    "ElasticElgamal.C79_seeded_challenge",
    "ElasticElgamal.C79_sha256_pad"
   ],
   "note": ""
  },
  {
   "property": "C80",
   "status": "proved",
   "theorems": [
    "ElasticElgamal.C80_batch_invert",
    "ElasticElgamal.C80_multi_mul",
    "ElasticElgamal.C80_value_at",
    "ElasticElgamal.C80_key_set_new",
    "ElasticElgamal.C80_combine_shares",
    "ElasticElgamal.C80_from_participants",
    "ElasticElgamal.C80_odd_items",
    "ElasticElgamal.C80_sum_of_squares_new",
    "ElasticElgamal.C80_sum_of_squares_verify"
   ],
   "note": ""
  },
  {
   "property": "C81",
   "status": "proved",
   "theorems": [
    "ElasticElgamal.C81_dkg_private",
    "ElasticElgamal.C81_dkg_sharp",
    "ElasticElgamal.C81_participant"
   ],
   "note": ""
  },
  {
   "property": "C82",
   "status": "proved",
   "theorems": [
    "ElasticElgamal.C82_secret_key_text",
    "ElasticElgamal.C82_secret_key",
    "ElasticElgamal.C82_keypair",
    "ElasticElgamal.C82_extended_ciphertext",
    "ElasticElgamal.C82_dealer",
    "ElasticElgamal.C82_participant",
    "ElasticElgamal.C82_collecting_polynomials",
    "ElasticElgamal.C82_exchanging_secrets",
    "ElasticElgamal.C82_value_shown",
    "ElasticElgamal.C82_opening_shown",
    "ElasticElgamal.C82_values_shown",
    "ElasticElgamal.C82_debug_panics_sec1",
    "ElasticElgamal.C82_error_shows_secret"
   ],
   "note": ""
  },
  {
   "property": "C83",
   "status": "proved",
   "theorems": [
    "ElasticElgamal.C83_messages",
    "ElasticElgamal.C83_sources"
   ],
   "note": ""
  },
  {
   "property": "C84",
   "status": "proved",
   "theorems": [
    "ElasticElgamal.C84_simulation",
    "ElasticElgamal.C84_ring_private",
    "ElasticElgamal.C84_bool_private"
   ],
   "note": ""
  },
  {
   "property": "C85",
   "status": "proved",
   "theorems": [
    "ElasticElgamal.C85_voting_private",
    "ElasticElgamal.C85_voting_bound",
    "ElasticElgamal.C85_voting_sharp"
   ],
   "note": ""
  },
  {
   "property": "C86",
   "status": "proved",
   "theorems": [
    "ElasticElgamal.C86_encryption",
    "ElasticElgamal.C86_proofs",
    "ElasticElgamal.C86_sharing",
    "ElasticElgamal.C86_dkg",
    "ElasticElgamal.C86_rings",
    "ElasticElgamal.C86_encrypt_small",
    "ElasticElgamal.C86_ranges",
    "ElasticElgamal.C86_choices",
    "ElasticElgamal.C86_voting",
    "ElasticElgamal.C86_successive"
   ],
   "note": ""
  },
  {
   "property": "C87",
   "status": "proved",
   "theorems": [
    "ElasticElgamal.C87_results",
    "ElasticElgamal.C87_keys",
    "ElasticElgamal.C87_encryption",
    "ElasticElgamal.C87_encrypt_zero",
    "ElasticElgamal.C87_decryption",
    "ElasticElgamal.C87_verifiable_decryption",
    "ElasticElgamal.C87_log_equality",
    "ElasticElgamal.C87_verification_reveals",
    "ElasticElgamal.C87_possession",
    "ElasticElgamal.C87_commitment",
    "ElasticElgamal.C87_sum_of_squares",
    "ElasticElgamal.C87_dealer",
    "ElasticElgamal.C87_participant",
    "ElasticElgamal.C87_check_share",
    "ElasticElgamal.C87_encrypt_bool",
    "ElasticElgamal.C87_ring_order",
    "ElasticElgamal.C87_ranges",
    "ElasticElgamal.C87_choices",
    "ElasticElgamal.C87_voting"
   ],
   "note": ""
  },
  {
   "property": "C88",
   "status": "proved",
   "theorems": [
    "ElasticElgamal.C88_example",
    "ElasticElgamal.C88_example_argument",
    "ElasticElgamal.C88_example_verify",
    "ElasticElgamal.C88_range_knowledge",
    "ElasticElgamal.C88_late_base",
    "ElasticElgamal.C88_simulation",
    "ElasticElgamal.C88_equivalence_private",
    "ElasticElgamal.C88_equivalences_private",
    "ElasticElgamal.C88_zero_base_reveals",
    "ElasticElgamal.C88_sum_sq_private"
   ],
   "note": ""
  },
  {
   "property": "C89",
   "status": "proved",
   "theorems": [
    "ElasticElgamal.C89_ring_knowledge",
    "ElasticElgamal.C89_bool_knowledge",
    "ElasticElgamal.C89_range_knowledge",
    "ElasticElgamal.C89_range_opening",
    "ElasticElgamal.C89_choice_knowledge",
    "ElasticElgamal.C89_vote_knowledge",
    "ElasticElgamal.C89_credit_knowledge"
   ],
   "note": ""
  },
  {
   "property": "C90",
   "status": "proved",
   "theorems": [
    "ElasticElgamal.C90_size",
    "ElasticElgamal.C90_results",
    "ElasticElgamal.C90_basic",
    "ElasticElgamal.C90_possession",
    "ElasticElgamal.C90_sum_of_squares",
    "ElasticElgamal.C90_bool",
    "ElasticElgamal.C90_range",
    "ElasticElgamal.C90_range_linear",
    "ElasticElgamal.C90_choices",
    "ElasticElgamal.C90_voting"
   ],
   "note": ""
  },
  {
   "property": "C91",
   "status": "proved",
   "theorems": [
    "ElasticElgamal.C91_unbiased",
    "ElasticElgamal.C91_abort"
   ],
   "note": ""
  },
  {
   "property": "C92",
   "status": "proved",
   "theorems": [
    "ElasticElgamal.C92_reencrypt",
    "ElasticElgamal.C92_replace_bound",
    "ElasticElgamal.C92_unique",
    "ElasticElgamal.C92_mix",
    "ElasticElgamal.C92_cca"
   ],
   "note": ""
  },
  {
   "property": "C93",
   "status": "proved",
   "theorems": [
    "ElasticElgamal.C93_two_bound",
    "ElasticElgamal.C93_two_complete",
    "ElasticElgamal.C93_two_long"
   ],
   "note": ""
  },
  {
   "property": "C94",
   "status": "proved",
   "theorems": [
    "ElasticElgamal.C94_any_context_private",
    "ElasticElgamal.C94_voting_any_context_private",
    "ElasticElgamal.C94_dkg_private",
    "ElasticElgamal.C94_voting_dkg_private",
    "ElasticElgamal.C94_spare",
    "ElasticElgamal.C94_spare_secp256k1",
    "ElasticElgamal.C94_choice_private",
    "ElasticElgamal.C94_choices_private",
    "ElasticElgamal.C94_election_private",
    "ElasticElgamal.C94_threshold_private",
    "ElasticElgamal.C94_voting_threshold_private",
    "ElasticElgamal.C94_ring_private",
    "ElasticElgamal.C94_bool_private",
    "ElasticElgamal.C94_range_private",
    "ElasticElgamal.C94_encrypt_range_private",
    "ElasticElgamal.C94_voters_private",
    "ElasticElgamal.C94_voters_bound",
    "ElasticElgamal.C94_voting_election_private"
   ],
   "note": ""
  },
  {
   "property": "C95",
   "status": "proved",
   "theorems": [
    "ElasticElgamal.C95_log_eq_replay",
    "ElasticElgamal.C95_zero_replay",
    "ElasticElgamal.C95_decryption_replay",
    "ElasticElgamal.C95_share_replay",
    "ElasticElgamal.C95_pop_replay",
    "ElasticElgamal.C95_commitment_replay",
    "ElasticElgamal.C95_sum_sq_replay",
    "ElasticElgamal.C95_ring_replay",
    "ElasticElgamal.C95_range_replay",
    "ElasticElgamal.C95_choice_replay",
    "ElasticElgamal.C95_ballot_replay"
   ],
   "note": ""
  },
  {
   "property": "C96",
   "status": "proved",
   "theorems": [
    "ElasticElgamal.C96_ring_last_unique",
    "ElasticElgamal.C96_log_eq_unique",
    "ElasticElgamal.C96_pop_unique",
    "ElasticElgamal.C96_commitment_unique",
    "ElasticElgamal.C96_commitment_zero_base",
    "ElasticElgamal.C96_sum_sq_unique",
    "ElasticElgamal.C96_log_eq_challenge",
    "ElasticElgamal.C96_pop_challenge",
    "ElasticElgamal.C96_commitment_challenge",
    "ElasticElgamal.C96_sum_sq_challenge",
    "ElasticElgamal.C96_ring_not_unique"
   ],
   "note": ""
  },
  {
   "property": "C97",
   "status": "proved",
   "theorems": [
    "ElasticElgamal.C97_secret_key",
    "ElasticElgamal.C97_keypair",
    "ElasticElgamal.C97_extended_ciphertext",
    "ElasticElgamal.C97_ciphertext_with_value",
    "ElasticElgamal.C97_dealer",
    "ElasticElgamal.C97_participant",
    "ElasticElgamal.C97_collecting",
    "ElasticElgamal.C97_exchanging_secrets",
    "ElasticElgamal.C97_ring_builder",
    "ElasticElgamal.C97_index_left",
    "ElasticElgamal.C97_growth_copies",
    "ElasticElgamal.C97_decomposition",
    "ElasticElgamal.C97_single_choice",
    "ElasticElgamal.C97_bool_rings",
    "ElasticElgamal.C97_choice_rings",
    "ElasticElgamal.C97_range_rings",
    "ElasticElgamal.C97_square_nonces_left",
    "ElasticElgamal.C97_possession_nonces_left",
    "ElasticElgamal.C97_rings_left"
   ],
   "note": ""
  }
 ]
}