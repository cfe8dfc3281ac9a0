{
 "claims": [
  {
   "property": "C01",
   "status": "proved",
   "theorems": [
    "Verif.C01_scalar_roundtrip"
   ],
   "note": ""
  },
  {
   "property": "C02",
   "status": "proved",
   "theorems": [
    "Verif.C02_tagged_scalar_roundtrip"
   ],
   "note": ""
  },
  {
   "property": "C03",
   "status": "partial",
   "theorems": [
    "Verif.C03_empty",
    "Verif.C03_false",
    "Verif.C03_scalar_decoding_partial"
   ],
   "note": "Does not hold of the code (C03_false); the exact acceptance rule is proved."
  },
  {
   "property": "C04",
   "status": "proved",
   "theorems": [
    "Verif.C04_point_roundtrip",
    "Verif.C04_point_format"
   ],
   "note": ""
  },
  {
   "property": "C05",
   "status": "partial",
   "theorems": [
    "Verif.Point.C05_every_string_partial",
    "Verif.C05_false",
    "Verif.C05_canonical_decoding_partial"
   ],
   "note": "Does not hold of the code (C05_false); the result on every string is proved (C05_every_string_partial)."
  },
  {
   "property": "C06",
   "status": "partial",
   "theorems": [
    "Verif.C06_false",
    "Verif.C06_never_a_point",
    "Verif.C06_tagged_point_partial"
   ],
   "note": "Does not hold of the code for any point (C06_false, C06_never_a_point)."
  },
  {
   "property": "C07",
   "status": "partial",
   "theorems": [
    "Verif.C07_false",
    "Verif.C07_uncompressed_partial"
   ],
   "note": "Does not hold: panics for every point except the identity (C07_false)."
  },
  {
   "property": "C08",
   "status": "partial",
   "theorems": [
    "Verif.Point.C08_every_string_partial",
    "Verif.C08_false",
    "Verif.C08_any_format_partial"
   ],
   "note": "Does not hold (C08_false); the exact behaviour on every byte string is proved (C08_any_format_partial, C08_every_string_partial)."
  },
  {
   "property": "C09",
   "status": "partial",
   "theorems": [
    "Verif.Point.C09_every_string_partial",
    "Verif.C09_false",
    "Verif.C09_cbor_point_partial"
   ],
   "note": "Fails for the identity (C09_false), proved for every other point; C09_every_string_partial says what the decoder does with every string of bytes."
  },
  {
   "property": "C10",
   "status": "proved",
   "theorems": [
    "Verif.C10_cbor_scalar_roundtrip"
   ],
   "note": ""
  },
  {
   "property": "C11",
   "status": "proved",
   "theorems": [
    "Verif.C11_scalar_wide_reduction",
    "Verif.C11_field_wide_reduction"
   ],
   "note": ""
  },
  {
   "property": "C12",
   "status": "proved",
   "theorems": [
    "Verif.C12_node_index_embedding"
   ],
   "note": ""
  },
  {
   "property": "C13",
   "status": "proved",
   "theorems": [
    "Verif.C13_mul_by_node_index",
    "Verif.C13_mul_by_node_index_nonneg"
   ],
   "note": ""
  },
  {
   "property": "C14",
   "status": "proved",
   "theorems": [
    "Verif.C14_prime_order_group"
   ],
   "note": ""
  },
  {
   "property": "C15",
   "status": "proved",
   "theorems": [
    "Verif.C15_pedersen_hiding",
    "Verif.C15_pedersen_binding"
   ],
   "note": ""
  },
  {
   "property": "C16",
   "status": "proved",
   "theorems": [
    "Verif.C16_high_low"
   ],
   "note": ""
  },
  {
   "property": "C17",
   "status": "proved",
   "theorems": [
    "Verif.C17_hash_to_point_on_curve",
    "Verif.C17_map_to_curve_total"
   ],
   "note": ""
  },
  {
   "property": "C18",
   "status": "proved",
   "theorems": [
    "Verif.C18_hash_to_field_and_scalar"
   ],
   "note": ""
  },
  {
   "property": "C19",
   "status": "proved",
   "theorems": [
    "Verif.C19_expand_message_xmd_rfc"
   ],
   "note": ""
  },
  {
   "property": "C20",
   "status": "proved",
   "theorems": [
    "Verif.C20_first_preimage_injective",
    "Verif.C20_domain_separation"
   ],
   "note": ""
  },
  {
   "property": "C21",
   "status": "proved",
   "theorems": [
    "Verif.C21_random_scalar"
   ],
   "note": ""
  },
  {
   "property": "C22",
   "status": "proved",
   "theorems": [
    "Verif.C22_seed_derivation",
    "Verif.C22_exact"
   ],
   "note": ""
  },
  {
   "property": "C23",
   "status": "proved",
   "theorems": [
    "Verif.C23_points_separated",
    "Verif.C23_transcript_injective",
    "Verif.C23_outputs_separated"
   ],
   "note": "C23_points_separated evaluates the map to the curve at two field elements in the kernel."
  },
  {
   "property": "C24",
   "status": "proved",
   "theorems": [
    "Verif.C24_outputs_depend_on_set",
    "Verif.C24_order_independence"
   ],
   "note": ""
  },
  {
   "property": "C25",
   "status": "proved",
   "theorems": [
    "Verif.C25_add_input_validation",
    "Verif.C25_output_needs_input",
    "Verif.C25_input_size"
   ],
   "note": ""
  },
  {
   "property": "C26",
   "status": "partial",
   "theorems": [
    "Verif.C26_false",
    "Verif.C26_false_replay",
    "Verif.C26_dlog_binding_partial",
    "Verif.C26_equal_openings_binding_partial",
    "Verif.C26_product_binding_partial"
   ],
   "note": "Does not hold for associated data over 255 bytes (C26_false, C26_false_replay): it is silently ignored; proved below that bound. C171 gives the exact condition."
  },
  {
   "property": "C27",
   "status": "proved",
   "theorems": [
    "Verif.C27_proof_systems_separated"
   ],
   "note": ""
  },
  {
   "property": "C28",
   "status": "proved",
   "theorems": [
    "Verif.C28_index_next",
    "Verif.C28_next_injective"
   ],
   "note": ""
  },
  {
   "property": "C29",
   "status": "proved",
   "theorems": [
    "Verif.C29_derived_key_is_tweaked",
    "Verif.C29_refines_bip32"
   ],
   "note": ""
  },
  {
   "property": "C30",
   "status": "proved",
   "theorems": [
    "Verif.C30_path_composition",
    "Verif.C30_no_failure"
   ],
   "note": ""
  },
  {
   "property": "C31",
   "status": "partial",
   "theorems": [
    "Verif.C31_false",
    "Verif.C31_false_witness",
    "Verif.C31_false_diverges",
    "Verif.C31_valid_child_partial"
   ],
   "note": "Does not hold of the code (C31_false, C31_false_witness, C31_false_diverges); the derivation rule is proved where the first child is valid."
  },
  {
   "property": "C32",
   "status": "proved",
   "theorems": [
    "Verif.C32_polynomial_arithmetic",
    "Verif.C32_polynomial_ring"
   ],
   "note": ""
  },
  {
   "property": "C33",
   "status": "partial",
   "theorems": [
    "Verif.C33_false",
    "Verif.C33_mul_scalar_partial"
   ],
   "note": "Does not hold of the code (C33_false): MulScalar scales its receiver; the exact behaviour is proved."
  },
  {
   "property": "C34",
   "status": "proved",
   "theorems": [
    "Verif.C34_interpolation_sound"
   ],
   "note": ""
  },
  {
   "property": "C35",
   "status": "partial",
   "theorems": [
    "Verif.C35_false",
    "Verif.C35_interpolation_exact_partial"
   ],
   "note": "Does not hold of the code (C35_false); the exact success condition is proved."
  },
  {
   "property": "C36",
   "status": "proved",
   "theorems": [
    "Verif.C36_lagrange_interpolation"
   ],
   "note": ""
  },
  {
   "property": "C37",
   "status": "proved",
   "theorems": [
    "Verif.C37_lagrange_validation",
    "Verif.C37_new"
   ],
   "note": ""
  },
  {
   "property": "C38",
   "status": "proved",
   "theorems": [
    "Verif.C38_sharing_secrecy"
   ],
   "note": ""
  },
  {
   "property": "C39",
   "status": "partial",
   "theorems": [
    "Verif.C39_false",
    "Verif.C39_simple_opening_partial",
    "Verif.C39_pedersen_opening_partial"
   ],
   "note": "Panics for num = 0 and for openings passed as pointers (C39_false); proved for num >= 1 and openings of the value type."
  },
  {
   "property": "C40",
   "status": "partial",
   "theorems": [
    "Verif.C40_false",
    "Verif.C40_simple_commits_partial",
    "Verif.C40_pedersen_commits_partial",
    "Verif.C40_pedersen_prefix_partial",
    "Verif.C40_no_coefficients_partial"
   ],
   "note": "Does not hold of the code (C40_false): Create counts non-zero coefficients; what a returned commitment commits to is proved, for both kinds and every number of coefficients."
  },
  {
   "property": "C41",
   "status": "proved",
   "theorems": [
    "Verif.C41_representation_injective",
    "Verif.C41_representation_iff"
   ],
   "note": ""
  },
  {
   "property": "C42",
   "status": "partial",
   "theorems": [
    "Verif.C42_false",
    "Verif.C42_equal_partial"
   ],
   "note": "Does not hold of the code (C42_false): kinds are not compared; the exact comparison is proved."
  },
  {
   "property": "C43",
   "status": "partial",
   "theorems": [
    "Verif.C43_false",
    "Verif.C43_simple_opening_partial"
   ],
   "note": "Does not hold of the code (C43_false); the scalar of a simple opening is restored, behind a pointer."
  },
  {
   "property": "C44",
   "status": "partial",
   "theorems": [
    "Verif.C44_false",
    "Verif.C44_simple_commitment_partial"
   ],
   "note": "Does not hold of the code (C44_false); proved for non-empty simple commitments without the identity."
  },
  {
   "property": "C45",
   "status": "proved",
   "theorems": [
    "Verif.C45_dlog_completeness"
   ],
   "note": ""
  },
  {
   "property": "C46",
   "status": "proved",
   "theorems": [
    "Verif.Zk.C46_create_total",
    "Verif.C46_equal_openings_completeness"
   ],
   "note": ""
  },
  {
   "property": "C47",
   "status": "proved",
   "theorems": [
    "Verif.Zk.C47_create_total",
    "Verif.C47_product_completeness"
   ],
   "note": ""
  },
  {
   "property": "C48",
   "status": "proved",
   "theorems": [
    "Verif.C48_dlog_soundness",
    "Verif.C48_verification_exact",
    "Verif.C48_extraction"
   ],
   "note": ""
  },
  {
   "property": "C49",
   "status": "proved",
   "theorems": [
    "Verif.C49_single_roundtrip",
    "Verif.C49_encrypt_returns"
   ],
   "note": ""
  },
  {
   "property": "C50",
   "status": "proved",
   "theorems": [
    "Verif.C50_pair_roundtrip",
    "Verif.C50_encrypt_returns"
   ],
   "note": ""
  },
  {
   "property": "C51",
   "status": "partial",
   "theorems": [
    "Verif.C51_too_large_partial",
    "Verif.C51_negative_panics",
    "Verif.C51_false"
   ],
   "note": "Does not hold for negative indices, which panic (C51_false, C51_negative_panics); proved for all indices that are too large."
  },
  {
   "property": "C52",
   "status": "partial",
   "theorems": [
    "Verif.C52_encrypt_validation_partial",
    "Verif.C52_false",
    "Verif.C52_check_validity_count"
   ],
   "note": "Fails for zero recipients (C52_false); otherwise proved."
  },
  {
   "property": "C53",
   "status": "proved",
   "theorems": [
    "Verif.C53_forged_pop",
    "Verif.C53_base_exists"
   ],
   "note": ""
  },
  {
   "property": "C54",
   "status": "proved",
   "theorems": [
    "Verif.C54_honest_dealings_verify"
   ],
   "note": ""
  },
  {
   "property": "C55",
   "status": "partial",
   "theorems": [
    "Verif.C55_false",
    "Verif.C55_threshold_partial"
   ],
   "note": "A negative threshold panics, and shares of an unexpected type give an empty dealing (C55_false); otherwise proved."
  },
  {
   "property": "C56",
   "status": "partial",
   "theorems": [
    "Verif.C56_false",
    "Verif.C56_no_panic_partial"
   ],
   "note": "Panics on a product operation without a proof, on an empty commitment with threshold zero and on a nil embedded proof (C56_false); proved that it returns for all other inputs, and C57_accepted_iff says exactly what is accepted."
  },
  {
   "property": "C57",
   "status": "proved",
   "theorems": [
    "Verif.C57_accepted_iff"
   ],
   "note": ""
  },
  {
   "property": "C58",
   "status": "proved",
   "theorems": [
    "Verif.C58_random_sum",
    "Verif.C58_honest_random"
   ],
   "note": ""
  },
  {
   "property": "C59",
   "status": "proved",
   "theorems": [
    "Verif.C59_reshare_masked",
    "Verif.C59_reshare_unmasked",
    "Verif.C59_unmasked_keeps_key",
    "Verif.C59_unmasked_goes_through"
   ],
   "note": ""
  },
  {
   "property": "C60",
   "status": "proved",
   "theorems": [
    "Verif.C60_product"
   ],
   "note": ""
  },
  {
   "property": "C61",
   "status": "partial",
   "theorems": [
    "Verif.C61_rejections_partial",
    "Verif.C61_false"
   ],
   "note": "The kinds of the dealings are not checked for resharing and products, and a random transcript needs no dealing (C61_false); all other rejections proved."
  },
  {
   "property": "C62",
   "status": "partial",
   "theorems": [
    "Verif.C62_false",
    "Verif.C62_reflexive_partial"
   ],
   "note": "Does not hold of the code: Compare ignores its argument (C62_false); only reflexivity is left."
  },
  {
   "property": "C63",
   "status": "proved",
   "theorems": [
    "Verif.C63_shares_consistent"
   ],
   "note": ""
  },
  {
   "property": "C64",
   "status": "proved",
   "theorems": [
    "Verif.C64_reconstruction_sound",
    "Verif.C64_reconstruction"
   ],
   "note": ""
  },
  {
   "property": "C65",
   "status": "partial",
   "theorems": [
    "Verif.C65_publicly_verified",
    "Verif.C65_exactly_bad_partial",
    "Verif.C65_mixed_kinds_panic",
    "Verif.C65_false"
   ],
   "note": "Proved for dealings whose ciphertext and non-empty commitment are of one kind (every publicly verified dealing is) and a non-negative index; false otherwise: mixed kinds panic (C65_false)."
  },
  {
   "property": "C66",
   "status": "proved",
   "theorems": [
    "Verif.C66_made_complaint_iff",
    "Verif.C66_justified_accepted"
   ],
   "note": "For every dealing of the right form with accepted proof of possession; exact acceptance condition in C66_made_complaint_iff."
  },
  {
   "property": "C67",
   "status": "proved",
   "theorems": [
    "Verif.C67_true_secret_rejected",
    "Verif.C67_false_secret",
    "Verif.C67_honest_dealer"
   ],
   "note": "True shared secret: rejected outright. False shared secret: the challenge hash must hit one value fixed by the commitments."
  },
  {
   "property": "C68",
   "status": "proved",
   "theorems": [
    "Verif.C68_threshold_signature"
   ],
   "note": ""
  },
  {
   "property": "C69",
   "status": "partial",
   "theorems": [
    "Verif.C69_false",
    "Verif.C69_pointers_partial"
   ],
   "note": "C69_false: shares holding values (as all shares made or combined by the code do) are accepted unseen. C69_pointers_partial: what is checked for pointers."
  },
  {
   "property": "C70",
   "status": "proved",
   "theorems": [
    "Verif.C70_low_s"
   ],
   "note": ""
  },
  {
   "property": "C71",
   "status": "proved",
   "theorems": [
    "Verif.C71_independent_of_signers"
   ],
   "note": ""
  },
  {
   "property": "C72",
   "status": "proved",
   "theorems": [
    "Verif.C72_too_few_shares"
   ],
   "note": ""
  },
  {
   "property": "C73",
   "status": "proved",
   "theorems": [
    "Verif.C73_only_ecdsa"
   ],
   "note": ""
  },
  {
   "property": "C74",
   "status": "proved",
   "theorems": [
    "Verif.C74_create_exact"
   ],
   "note": ""
  },
  {
   "property": "C75",
   "status": "proved",
   "theorems": [
    "Verif.C75_constant_term"
   ],
   "note": ""
  },
  {
   "property": "C76",
   "status": "proved",
   "theorems": [
    "Verif.C76_verify_is",
    "Verif.C76_return_opening",
    "Verif.C76_verify_is_panics"
   ],
   "note": ""
  },
  {
   "property": "C77",
   "status": "partial",
   "theorems": [
    "Verif.C77_pad_binding_partial",
    "Verif.C77_false"
   ],
   "note": "Indices are cut to 32 bits and associated data over 255 bytes is dropped (C77_false); proved otherwise. C171 gives the exact condition."
  },
  {
   "property": "C78",
   "status": "partial",
   "theorems": [
    "Verif.C78_pop_base_binding_partial",
    "Verif.C78_false"
   ],
   "note": "The dealer index is cut to 32 bits (C78_false) and associated data over 255 bytes is dropped; proved otherwise. C171 gives the exact condition."
  },
  {
   "property": "C79",
   "status": "proved",
   "theorems": [
    "Verif.C79_decrypt_and_check"
   ],
   "note": ""
  },
  {
   "property": "C80",
   "status": "proved",
   "theorems": [
    "Verif.C80_otherwise_error",
    "Verif.C80_verify_is"
   ],
   "note": ""
  },
  {
   "property": "C81",
   "status": "proved",
   "theorems": [
    "Verif.C81_keys"
   ],
   "note": ""
  },
  {
   "property": "C82",
   "status": "partial",
   "theorems": [
    "Verif.C82_false_opened",
    "Verif.C82_false",
    "Verif.C82_public_key_on_curve_partial"
   ],
   "note": "Does not hold of the code (C82_false): the identity and strings that encode no point are accepted. Everybody can open what is dealt to such a key (C82_false_opened)."
  },
  {
   "property": "C83",
   "status": "partial",
   "theorems": [
    "Verif.C83_false",
    "Verif.C83_reshare_unmasked_partial"
   ],
   "note": "Not checked when the previous commitment is wrapped, as transcripts store it (C83_false); proved for plain commitments."
  },
  {
   "property": "C84",
   "status": "proved",
   "theorems": [
    "Verif.C84_private_verify"
   ],
   "note": ""
  },
  {
   "property": "C85",
   "status": "proved",
   "theorems": [
    "Verif.C85_dealing_contents"
   ],
   "note": ""
  },
  {
   "property": "C86",
   "status": "partial",
   "theorems": [
    "Verif.C86_false",
    "Verif.C86_secret_from_partial",
    "Verif.Dealings.C86_every_combination_partial"
   ],
   "note": "A single unmasked opening gives shares that lead to a dealing of nils without an error (C86_false); proved for the other combinations, and C86_every_combination_partial gives the result for all of them."
  },
  {
   "property": "C87",
   "status": "proved",
   "theorems": [
    "Verif.C87_commitment_evaluation"
   ],
   "note": ""
  },
  {
   "property": "C88",
   "status": "proved",
   "theorems": [
    "Verif.C88_shares_available"
   ],
   "note": ""
  },
  {
   "property": "C89",
   "status": "partial",
   "theorems": [
    "Verif.C89_false",
    "Verif.C89_pointers_ignored_partial"
   ],
   "note": "Does not hold of the code: openings behind a pointer are skipped (C89_false); they do no harm beside enough others."
  },
  {
   "property": "C90",
   "status": "partial",
   "theorems": [
    "Verif.C90_false",
    "Verif.C90_known_operations_partial"
   ],
   "note": "An operation of an unexpected type gives a nil commitment without an error (C90_false); proved for the four kinds."
  },
  {
   "property": "C91",
   "status": "proved",
   "theorems": [
    "Verif.C91_public_share"
   ],
   "note": ""
  },
  {
   "property": "C92",
   "status": "partial",
   "theorems": [
    "Verif.C92_complaint_binding_partial",
    "Verif.C92_false"
   ],
   "note": "Holds for indices modulo 2^32 and associated data up to 255 bytes; C92_false: dealer indices are truncated to 32 bits. C171 gives the exact condition."
  },
  {
   "property": "C93",
   "status": "proved",
   "theorems": [
    "Verif.C93_complaint_seeds",
    "Verif.C93_label"
   ],
   "note": "Labels are injective in the index; different labels are told apart by some hash function."
  },
  {
   "property": "C94",
   "status": "partial",
   "theorems": [
    "Verif.C94_verify_total_partial",
    "Verif.C94_false"
   ],
   "note": "Holds for non-negative indices and non-empty commitments; C94_false: panics otherwise."
  },
  {
   "property": "C95",
   "status": "partial",
   "theorems": [
    "Verif.C95_publicly_verified_partial",
    "Verif.C95_false"
   ],
   "note": "Holds for publicly verified dealings; C95_false: Verify does not look at the proof of possession, so complaints about a rejected one do not verify."
  },
  {
   "property": "C96",
   "status": "proved",
   "theorems": [
    "Verif.C96_derived_public_key"
   ],
   "note": ""
  },
  {
   "property": "C97",
   "status": "partial",
   "theorems": [
    "Verif.C97_false",
    "Verif.C97_master_key_partial"
   ],
   "note": "C97_false: the all-zero string and strings that encode no point are accepted as the identity. Partial: what else is accepted is an encoding."
  },
  {
   "property": "C98",
   "status": "partial",
   "theorems": [
    "Verif.C98_randomizer_binding_partial",
    "Verif.C98_false"
   ],
   "note": "C98_false: randomness (and message hashes) over 255 bytes are left out. Partial: up to 255 bytes. C171 gives the exact condition."
  },
  {
   "property": "C99",
   "status": "partial",
   "theorems": [
    "Verif.C99_false",
    "Verif.C99_good_shares_partial"
   ],
   "note": "C99_false: the counter is never incremented, so one bad share behind enough good ones spoils the signature. Partial: further good shares do not matter."
  },
  {
   "property": "C100",
   "status": "partial",
   "theorems": [
    "Verif.C100_hash_number_partial",
    "Verif.C100_false"
   ],
   "note": "C100_false: 64-byte hashes are reduced as a whole. Partial: hashes of at most 32 bytes."
  },
  {
   "property": "C101",
   "status": "partial",
   "theorems": [
    "Verif.Sign.C101_negative_threshold_false",
    "Verif.Sign.C101_share_partial",
    "Verif.C101_false",
    "Verif.C101_total_partial"
   ],
   "note": "C101_false: hashes over 64 bytes panic; C101_negative_threshold_false: so do negative thresholds. Partial: no panic once DeriveRho succeeds, for hashes up to 64 bytes and non-negative thresholds; the making of a share returns exactly when the opening of the inverse mask has the right type (C101_share_partial)."
  },
  {
   "property": "C102",
   "status": "proved",
   "theorems": [
    "Verif.C102_share_opens_commitments"
   ],
   "note": ""
  },
  {
   "property": "C104",
   "status": "partial",
   "theorems": [
    "Verif.C104_false",
    "Verif.C104_rejected_partial"
   ],
   "note": "C104_false: combination returns s = 0 without error. Partial: Verify rejects it."
  },
  {
   "property": "C105",
   "status": "proved",
   "theorems": [
    "Verif.C105_unique_signature"
   ],
   "note": ""
  },
  {
   "property": "C103",
   "status": "proved",
   "theorems": [
    "Verif.C103_random_round"
   ],
   "note": ""
  },
  {
   "property": "C106",
   "status": "proved",
   "theorems": [
    "Verif.C106_reshare_masked_round",
    "Verif.C106_reshare_unmasked_round"
   ],
   "note": ""
  },
  {
   "property": "C107",
   "status": "proved",
   "theorems": [
    "Verif.C107_product_round"
   ],
   "note": ""
  },
  {
   "property": "C108",
   "status": "proved",
   "theorems": [
    "Verif.C108_setup",
    "Verif.C108_signing"
   ],
   "note": ""
  },
  {
   "property": "C109",
   "status": "partial",
   "theorems": [
    "Verif.C109_unmasked_exact_partial",
    "Verif.C109_masked_exact_partial",
    "Verif.C109_rounds_partial",
    "Verif.C109_false",
    "Verif.C109_transcript_false"
   ],
   "note": "False as stated: only the constant term is compared (C109_false), and the transcript of an unmasked round is refused (C109_transcript_false). Proved: exactly when openings pass, and that a round's openings pass against its commitment."
  },
  {
   "property": "C110",
   "status": "proved",
   "theorems": [
    "Verif.C110_random_round",
    "Verif.C110_reshare_masked_round",
    "Verif.C110_reshare_unmasked_round",
    "Verif.C110_product_round",
    "Verif.C110_setup",
    "Verif.C110_shares",
    "Verif.C110_program"
   ],
   "note": "The runs modelled leave out the checks that a dealing is refused in the name of the next dealer; these can make a run panic only if a dealing shows a hash collision (C137)."
  },
  {
   "property": "C111",
   "status": "proved",
   "theorems": [
    "Verif.C111_generator_h"
   ],
   "note": "Evaluated by the kernel with the concrete SHA-256 of Kat/Concrete.lean."
  },
  {
   "property": "C112",
   "status": "proved",
   "theorems": [
    "Verif.Heap.C112_curve",
    "Verif.Heap.C112_clone_independent"
   ],
   "note": ""
  },
  {
   "property": "C113",
   "status": "proved",
   "theorems": [
    "Verif.Heap.C113_in_place",
    "Verif.Heap.C113_new",
    "Verif.Heap.C113_interpolate"
   ],
   "note": ""
  },
  {
   "property": "C114",
   "status": "proved",
   "theorems": [
    "Verif.Heap.C114_lagrange",
    "Verif.Heap.C114_commitments"
   ],
   "note": ""
  },
  {
   "property": "C115",
   "status": "proved",
   "theorems": [
    "Verif.Dealings.C115_free_choices"
   ],
   "note": "Relative to the labels and the expansion function of Spec/Randomness.lean; that the keys differ is a hypothesis on the hash (checked for SHA-256 and the zero seed by evaluation). keysDiffer_zero is the non-vacuity case."
  },
  {
   "property": "C116",
   "status": "proved",
   "theorems": [
    "Verif.C116_recovery",
    "Verif.C116_same_share"
   ],
   "note": "C116_recovery for arbitrary dealers, C116_same_share for openings that are values of the committed polynomials."
  },
  {
   "property": "C117",
   "status": "proved",
   "theorems": [
    "Verif.C117_unmasked_nonce"
   ],
   "note": "For signature verification message hashes of more than 64 bytes are excluded: ConvertHashToInteger panics on them first."
  },
  {
   "property": "C118",
   "status": "proved",
   "theorems": [
    "Verif.C118_rfc_unique",
    "Verif.C118_hash_to_curve_rfc"
   ],
   "note": "C118_rfc_unique shows that the relational specification has one solution."
  },
  {
   "property": "C119",
   "status": "proved",
   "theorems": [
    "Verif.Heap.C119_dlog",
    "Verif.Heap.C119_equal_openings",
    "Verif.Heap.C119_product",
    "Verif.Heap.C119_create_then_verify",
    "Verif.Heap.C119_equal_openings_then_verify",
    "Verif.Heap.C119_product_then_verify"
   ],
   "note": "The hashes and the generator read values and return new objects; see Model/HeapZk.lean."
  },
  {
   "property": "C120",
   "status": "proved",
   "theorems": [
    "Verif.Heap.C120_encrypt",
    "Verif.Heap.C120_decrypt",
    "Verif.Heap.C120_checks",
    "Verif.Heap.C120_encrypt_then_decrypt",
    "Verif.Heap.C120_encrypt_pair_then_decrypt"
   ],
   "note": "checkOpening is the one of poly/commitment.go, evaluated in place by Horner on a fresh identity."
  },
  {
   "property": "C121",
   "status": "partial",
   "theorems": [
    "Verif.Heap.C121_clone_partial",
    "Verif.Heap.C121_false"
   ],
   "note": "Proofs of equal discrete logarithms, of equal openings and single ciphertexts: independent. ProofOfProduct.Clone copies the three pointers, C121_false: adding to the clone changes the original."
  },
  {
   "property": "C122",
   "status": "proved",
   "theorems": [
    "Verif.Heap.C122_new_dealing",
    "Verif.Heap.C122_verify",
    "Verif.Heap.C122_deal_then_verify"
   ],
   "note": "The ChaCha20 stream, the hashes and the proofs of zk are as in C119."
  },
  {
   "property": "C123",
   "status": "proved",
   "theorems": [
    "Verif.Heap.C123_transcript",
    "Verif.Heap.C123_openings",
    "Verif.Heap.C123_share_twice"
   ],
   "note": "Ordered maps are sorted lists of pairs; the B-tree library is not modelled."
  },
  {
   "property": "C124",
   "status": "proved",
   "theorems": [
    "Verif.Heap.C124_derivation",
    "Verif.Heap.C124_sign",
    "Verif.Heap.C124_verify",
    "Verif.Heap.C124_combine_twice",
    "Verif.Heap.C124_combine_then_verify"
   ],
   "note": "Byte strings (chain keys, messages, paths) are values: the code copies them (common/utils.go:3-11, seed/seed.go:21). A derivation that does not end does so on values too."
  },
  {
   "property": "C125",
   "status": "proved",
   "theorems": [
    "Verif.Heap.C125_complain",
    "Verif.Heap.C125_verify",
    "Verif.Heap.C125_complain_then_verify"
   ],
   "note": "Ordered maps are sorted lists of pairs; the B-tree library is not modelled."
  },
  {
   "property": "C126",
   "status": "proved",
   "theorems": [
    "Verif.Heap.C126_steps",
    "Verif.Heap.C126_isogeny",
    "Verif.Heap.C126_hash",
    "Verif.Heap.C126_hash_again"
   ],
   "note": "That K256C is initialised with the constants is a hypothesis, met by constantsOnly; byte strings are values."
  },
  {
   "property": "C127",
   "status": "partial",
   "theorems": [
    "Verif.Heap.C127_single_partial",
    "Verif.Heap.C127_pair_changed",
    "Verif.Heap.C127_out_of_range",
    "Verif.Heap.C127_false",
    "Verif.Heap.C127_for_all_partial",
    "Verif.Heap.C127_for_all_pair",
    "Verif.Heap.C127_for_all_nil"
   ],
   "note": "Holds for single ciphertexts. For pair ciphertexts the entries are shared and added to in place: the given dealing becomes the damaged one (C127_pair_changed, C127_false). Targets out of range panic (C127_out_of_range)."
  },
  {
   "property": "C128",
   "status": "proved",
   "theorems": [
    "Verif.C128_dlog",
    "Verif.C128_equal_openings",
    "Verif.C128_product",
    "Verif.C128_witness_independent"
   ],
   "note": "Stated by exact correspondence of nonces and proofs; key streams are a parameter. No probability and no simulator for the hash."
  },
  {
   "property": "C129",
   "status": "proved",
   "theorems": [
    "Verif.Dealings.C129_equally_many",
    "Verif.Dealings.C129_random",
    "Verif.Dealings.C129_product"
   ],
   "note": "That the derived keys differ is a hypothesis on the hash (keysDiffer_zero: it holds for SHA-256 and the zero seed). What the others' ciphertext entries show (the encryption itself) is not part of the statement."
  },
  {
   "property": "C130",
   "status": "proved",
   "theorems": [
    "Verif.Dealings.C130_random_transcript"
   ],
   "note": "That the derived keys of the honest dealer differ is a hypothesis on the hash, as in C129. What the others' ciphertext entries show is not part of the statement."
  },
  {
   "property": "C131",
   "status": "proved",
   "theorems": [
    "Verif.Dealings.C131_simulated",
    "Verif.Dealings.C131_any_shares"
   ],
   "note": "The group has threshold\u22121 members; a smaller one sees less. For reshared masked values (ReshareOfMasked) the dealing also contains a proof of equal openings, for which see C128."
  },
  {
   "property": "C132",
   "status": "partial",
   "theorems": [
    "Verif.Curves.C132_k256",
    "Verif.Curves.C132_no_object_partial",
    "Verif.Curves.C132_false"
   ],
   "note": "False: on a curve type other than K256 most functions return nil without an error, drawing a scalar never ends, GeneratorH and hashing to a point panic, and VerifyMegaPublicKey accepts the one-byte keys 00, 02 and 03 (C132_false). Proved: no function returns an object (C132_no_object_partial), and on K256 the functions are those modelled elsewhere (C132_k256)."
  },
  {
   "property": "C133",
   "status": "proved",
   "theorems": [
    "Verif.Curves.C133_sizes",
    "Verif.Curves.C133_tags",
    "Verif.C133_name"
   ],
   "note": "C133_sizes and C133_tags."
  },
  {
   "property": "C134",
   "status": "partial",
   "theorems": [
    "Verif.Encode.C134_views_partial",
    "Verif.Encode.C134_compress_partial",
    "Verif.Encode.C134_construction_partial",
    "Verif.Encode.C134_accepted",
    "Verif.Encode.C134_false"
   ],
   "note": "False: a single byte that is no tag is accepted, and Coordinates, X, Y and Compress then panic; FromBytes of no bytes panics (C134_false). Proved: exactly the four formats and those single bytes are accepted (C134_accepted), and for the four formats everything holds (C134_views_partial, C134_compress_partial, C134_construction_partial)."
  },
  {
   "property": "C135",
   "status": "partial",
   "theorems": [
    "Verif.Hex.C135_decode",
    "Verif.Hex.C135_encode",
    "Verif.Encode.C135_from_string",
    "Verif.Encode.C135_round_trip_partial",
    "Verif.Encode.C135_false",
    "Verif.Encode.C135_to_string"
   ],
   "note": "False: ToString writes the whole buffer, which has 65 bytes for compressed encodings made by the package and 32 for the identity, so FromStr refuses it (C135_false); the empty string panics. Proved: what FromStr accepts (C135_from_string, C135_decode, C135_encode), the string ToString writes (C135_to_string), and the round trip for encodings made by FromBytes (C135_round_trip_partial)."
  },
  {
   "property": "C136",
   "status": "proved",
   "theorems": [
    "Verif.C136_reverse"
   ],
   "note": "C136_reverse."
  },
  {
   "property": "C137",
   "status": "proved",
   "theorems": [
    "Verif.C137_collision",
    "Verif.C137_driver_collision",
    "Verif.C137_checks",
    "Verif.C137_panics",
    "Verif.C137_driver",
    "Verif.C137_constant_hash"
   ],
   "note": "C137_checks, C137_driver; C137_constant_hash shows that the panic can occur for a degenerate hash function. C137_panics: the checks return or panic, they never give an error and always end. C137_collision, C137_driver_collision: the panic shows a collision of the hash function."
  },
  {
   "property": "C138",
   "status": "partial",
   "theorems": [
    "Verif.C138_false",
    "Verif.C138_random_seed_partial"
   ],
   "note": "False: the generator is keyed with 32 zero bytes, so the seed is always the same; C138_false computes it with SHA-256 and ChaCha20. Proved: it returns a seed of 32 bytes (C138_random_seed_partial)."
  },
  {
   "property": "C139",
   "status": "proved",
   "theorems": [
    "Verif.C139_scalar_point",
    "Verif.C139_opening",
    "Verif.C139_commitment",
    "Verif.C139_integers",
    "Verif.C139_empty",
    "Verif.C139_length"
   ],
   "note": "cbor.Marshal is modelled after RFC 8949 (the library's source is not available); lengths below 2^64, as for all Go slices."
  },
  {
   "property": "C140",
   "status": "proved",
   "theorems": [
    "Verif.C140_opening",
    "Verif.C140_commitment"
   ],
   "note": "Lengths below 2^64, as for all Go slices."
  },
  {
   "property": "C141",
   "status": "partial",
   "theorems": [
    "Verif.C141_false",
    "Verif.C141_roundtrip_partial"
   ],
   "note": "False for openings with masks, commitments with masks and commitments containing the identity (C141_false); holds for the others."
  },
  {
   "property": "C142",
   "status": "proved",
   "theorems": [
    "Verif.C142_sqrt",
    "Verif.C142_invert",
    "Verif.C142_sign",
    "Verif.C142_progenitor",
    "Verif.C142_constants",
    "Verif.C142_bytes",
    "Verif.C142_wide"
   ],
   "note": ""
  },
  {
   "property": "C143",
   "status": "partial",
   "theorems": [
    "Verif.C143_false",
    "Verif.C143_decoding_partial"
   ],
   "note": "False: other lengths are accepted (C143_false); for 32 bytes it holds."
  },
  {
   "property": "C144",
   "status": "proved",
   "theorems": [
    "Verif.C144_reshare_masked",
    "Verif.C144_reshare_unmasked",
    "Verif.C144_product_nodes",
    "Verif.C144_product"
   ],
   "note": "C144_product is for a masked secret held by at least as many nodes; C144_product_nodes says what happens otherwise."
  },
  {
   "property": "C145",
   "status": "proved",
   "theorems": [
    "Verif.C145_reshare_masked",
    "Verif.C145_reshare_unmasked",
    "Verif.C145_products",
    "Verif.C145_dynamic"
   ],
   "note": ""
  },
  {
   "property": "C146",
   "status": "proved",
   "theorems": [
    "Verif.C146_presignature_reuse"
   ],
   "note": ""
  },
  {
   "property": "C147",
   "status": "proved",
   "theorems": [
    "Verif.C147_scalar",
    "Verif.C147_field",
    "Verif.C147_distance_scalar",
    "Verif.C147_distance_field",
    "Verif.C147_joint",
    "Verif.C147_hash_to_scalar"
   ],
   "note": ""
  },
  {
   "property": "C148",
   "status": "proved",
   "theorems": [
    "Verif.Dealings.C148_simple",
    "Verif.Dealings.C148_pedersen",
    "Verif.Dealings.C148_shares"
   ],
   "note": ""
  },
  {
   "property": "C149",
   "status": "proved",
   "theorems": [
    "Verif.C149_only_the_signature"
   ],
   "note": "for any polynomials with as many coefficients as the threshold; the group has exactly one node less than the threshold"
  },
  {
   "property": "C150",
   "status": "proved",
   "theorems": [
    "Verif.C150_verify",
    "Verif.C150_soundness"
   ],
   "note": "random oracle model: all functions from a finite set of questions to scalars are counted"
  },
  {
   "property": "C151",
   "status": "proved",
   "theorems": [
    "Verif.C151_dlog",
    "Verif.C151_equal_openings",
    "Verif.C151_product"
   ],
   "note": "random oracle model; rewinding"
  },
  {
   "property": "C152",
   "status": "proved",
   "theorems": [
    "Verif.C152_made_up",
    "Verif.C152_indistinguishable",
    "Verif.C152_shared_secret",
    "Verif.C152_code"
   ],
   "note": "random oracle model; the adversary may be given anything that does not depend on the hidden pads"
  },
  {
   "property": "C153",
   "status": "proved",
   "theorems": [
    "Verif.C153_equal",
    "Verif.C153_order",
    "Verif.C153_interpolation",
    "Verif.C153_value"
   ],
   "note": ""
  },
  {
   "property": "C154",
   "status": "partial",
   "theorems": [
    "Verif.C154_false",
    "Verif.C154_to_scalar_partial"
   ],
   "note": "False: ToScalarBytes gives nil, so converting back panics (C154_false); ToScalar itself is right."
  },
  {
   "property": "C155",
   "status": "proved",
   "theorems": [
    "Verif.C155_add_points",
    "Verif.C155_points_injective",
    "Verif.C155_integers"
   ],
   "note": ""
  },
  {
   "property": "C156",
   "status": "proved",
   "theorems": [
    "Verif.C156_new_bip32",
    "Verif.C156_next"
   ],
   "note": ""
  },
  {
   "property": "C157",
   "status": "proved",
   "theorems": [
    "Verif.C157_words"
   ],
   "note": ""
  },
  {
   "property": "C158",
   "status": "proved",
   "theorems": [
    "Verif.Heap.C158_arithmetic",
    "Verif.Heap.C158_sqrt",
    "Verif.Heap.C158_cassign",
    "Verif.Heap.C158_clone"
   ],
   "note": ""
  },
  {
   "property": "C159",
   "status": "proved",
   "theorems": [
    "Verif.C159_code",
    "Verif.C159_dlog",
    "Verif.C159_equal_openings",
    "Verif.C159_product",
    "Verif.C159_accepted"
   ],
   "note": "random oracle: functions on a finite set of questions, all counted; nonces uniform. C159_code: Create makes this proof for the nonce its generator draws; for dlog.go one of the two bases is not the identity"
  },
  {
   "property": "C160",
   "status": "proved",
   "theorems": [
    "Verif.C160_sessions"
   ],
   "note": "random oracle model as in C159; the nonces of different proofs are independent"
  },
  {
   "property": "C161",
   "status": "proved",
   "theorems": [
    "Verif.C161_masked_dealing",
    "Verif.C161_code"
   ],
   "note": ""
  },
  {
   "property": "C162",
   "status": "proved",
   "theorems": [
    "Verif.C162_product",
    "Verif.C162_reshare_masked",
    "Verif.C162_reshare_unmasked"
   ],
   "note": "The numbers extracted from two answers per dealer are a hypothesis (C151 gives them by rewinding); Lean cannot state that a number is known, so the second case is an explicit number."
  },
  {
   "property": "C163",
   "status": "proved",
   "theorems": [
    "Verif.C163_signature"
   ],
   "note": "Same assumption as C162; the key and nonce transcripts are any interpolated commitments without mask."
  },
  {
   "property": "C164",
   "status": "proved",
   "theorems": [
    "Verif.C164_product",
    "Verif.C164_reshare",
    "Verif.C164_code_product",
    "Verif.C164_code_reshare"
   ],
   "note": "The program ends with openings of the constant terms of the dealings, as the recipients of verified dealings have them together."
  },
  {
   "property": "C165",
   "status": "proved",
   "theorems": [
    "Verif.C165_product_dealing",
    "Verif.C165_code"
   ],
   "note": "Random oracle model as in C159 and C161; the hash functions for pads and for challenges are separate oracles, as their domains are separated in the code."
  },
  {
   "property": "C166",
   "status": "proved",
   "theorems": [
    "Verif.C166_no_bias",
    "Verif.Dealings.C166_code"
   ],
   "note": "Random oracle model as in C161; the program ends with the sum of the secrets that it deals, which it knows since it encrypts their shares."
  },
  {
   "property": "C167",
   "status": "proved",
   "theorems": [
    "Verif.C167_without_mask",
    "Verif.C167_with_proof",
    "Verif.Dealings.C167_code_unmasked",
    "Verif.Dealings.C167_code_masked"
   ],
   "note": "Random oracle model as in C159 and C161."
  },
  {
   "property": "C168",
   "status": "partial",
   "theorems": [
    "Verif.Heap.C168_keys_partial",
    "Verif.Heap.C168_false"
   ],
   "note": "Keys that are generated or decoded (public keys: encodings of points of the curve), and public keys made from private keys: independent of older objects. NewMEGaPublicKey, NewMEGaPrivateKey keep, and PublicPoint, SecretScalar hand out, the pointer itself, C168_false: changing the object changes the key."
  },
  {
   "property": "C169",
   "status": "proved",
   "theorems": [
    "Verif.C169_setup",
    "Verif.C169_rounds",
    "Verif.C169_openings",
    "Verif.C169_signing",
    "Verif.C169_end_to_end"
   ],
   "note": "The driver of testutils on memory, compared with the functional model; setups, rounds and signature setups consist of new objects; C169_end_to_end states signing on memory."
  },
  {
   "property": "C170",
   "status": "proved",
   "theorems": [
    "Verif.C170_proofs",
    "Verif.C170_encryption",
    "Verif.C170_dealings",
    "Verif.C170_complaints"
   ],
   "note": "The seed, not the instance, fixes the nonces; Spec/SeedReuse computes the secrets from public values. The challenges must differ (for a hash function with collisions, or equal transcripts, they may agree); an example has a hash function under which they differ."
  },
  {
   "property": "C171",
   "status": "proved",
   "theorems": [
    "Verif.C171_challenges",
    "Verif.C171_encryption",
    "Verif.C171_complaints",
    "Verif.C171_randomizer"
   ],
   "note": "kept and low say what a transcript keeps of a byte string and of an index. C171_randomizer is about the transcript of DeriveRho, whose tweak and nonce are computed before."
  },
  {
   "property": "C172",
   "status": "proved",
   "theorems": [
    "Verif.C172_even",
    "Verif.C172_ends"
   ],
   "note": "The count is of streams as the generator sees them; that ChaCha20 expands a seed to an even stream is an assumption about ChaCha20 and is not part of the claim. C172_even counts for every list of the same length the same number, given by the recursion count."
  },
  {
   "property": "C173",
   "status": "proved",
   "theorems": [
    "Verif.C173_any_rule",
    "Verif.C173_montgomery"
   ],
   "note": "Model/SignCmp repeats sign/combined_sig.go with IsHigh as a parameter; with Scalar.isHigh it is the model of the other claims by definition."
  },
  {
   "property": "C174",
   "status": "proved",
   "theorems": [
    "Verif.C174_one_signer_decides",
    "Verif.C174_only_the_right_one_passes",
    "Verif.C174_if_checked"
   ],
   "note": "The first part (other signers at places other than 0) shows the consequence of C69_false for signing; the last part is about a check that the code does not make (OpensCombinations, a spec predicate)."
  },
  {
   "property": "C175",
   "status": "proved",
   "theorems": [
    "Verif.Dealings.C175_every_secret",
    "Verif.Dealings.C175_secret_kept",
    "Verif.Dealings.C175_only_public_key",
    "Verif.Dealings.C175_code"
   ],
   "note": "The nodes that are read follow the protocol. The view has the private values and commitments; ciphertexts are not part of it (for those see C161, C167)."
  },
  {
   "property": "C176",
   "status": "partial",
   "theorems": [
    "Verif.Heap.C176_false",
    "Verif.Heap.C176_commitments_partial"
   ],
   "note": "Create, Clone, ConstantTerm and EvaluateAt are independent of older objects. New keeps, and Points hands out, the pointers themselves, C176_false: adding to or assigning to one of the points changes the representation and makes every accepted opening at a node refused. The sharing of the slice of pointers itself is left out."
  },
  {
   "property": "C177",
   "status": "proved",
   "theorems": [
    "Verif.C177_random",
    "Verif.C177_unmasked",
    "Verif.C177_bias",
    "Verif.C177_product",
    "Verif.C177_masked"
   ],
   "note": "Random oracle model. solve (Spec/OracleDh) is the explicit program; it takes two points, the private keys of the group and the program it runs, not the discrete logarithms. The keys of the group are fixed before those of the others. What a program knows of the ephemeral key besides the key itself (the proof of possession), solve has to be given as well; C178 is the version in which it makes the proof of possession up. The links to the code are those of C161, C165, C166 and C167."
  },
  {
   "property": "C178",
   "status": "proved",
   "theorems": [
    "Verif.C178_random",
    "Verif.C178_unmasked",
    "Verif.C178_code",
    "Verif.C178_bias",
    "Verif.C178_product",
    "Verif.C178_masked"
   ],
   "note": "Random oracle model; the hash to the curve that gives the base of the proof of possession counts as a random oracle as well: its value for the one ephemeral key is r \u2022 G for a random r (C178_code: every value of ComputePopBase is of this form). solve makes the proof of possession up from the ephemeral key and r (popMade, popChallenges), and is given two points and no discrete logarithm. Unlike C177 nothing more has to be given to solve. The second proof of products and of resharings of masked secrets is made up first, then that of possession. Terms of the order 1/n remain even for q = 0 since the question of the other proof counts. C178_bias is the analogue of C177_bias: the secret of a transcript with one honest dealer."
  },
  {
   "property": "C179",
   "status": "partial",
   "theorems": [
    "Verif.C179_false",
    "Verif.C179_accepted_partial"
   ],
   "note": "The code violates the property (C179_false): unreadable scalars become zero without an error, since the error of the inner cbor.Unmarshal is dropped; the tag is not looked at; coordinates off the curve are taken; empty byte strings panic. C179_accepted_partial says exactly which documents give an error and which give which opening or commitment. How the CBOR library fills arrays from messages of another length is an assumption, as in C141."
  },
  {
   "property": "C180",
   "status": "partial",
   "theorems": [
    "Verif.C180_false",
    "Verif.C180_counts_partial",
    "Verif.C180_transcripts_partial"
   ],
   "note": "The code violates the property (C180_false): negative lengths and numbers panic, and so does a number such as 2^60, for which the number of bytes wraps around to 0. Proved: values are returned for no other number or length than those allowed, and where the number of bytes is a non-negative int the refusal is an error (C180_counts_partial, C180_transcripts_partial)."
  },
  {
   "property": "C181",
   "status": "partial",
   "theorems": [
    "Verif.HeapBytes.C181_false",
    "Verif.HeapBytes.C181_made_partial",
    "Verif.HeapBytes.C181_encodings_partial",
    "Verif.HeapBytes.C181_exact_partial",
    "Verif.HeapBytes.C181_paths_partial",
    "Verif.HeapBytes.C181_transcripts_partial"
   ],
   "note": "The code violates the property (C181_false): AsBytes, X and Y return the bytes of the encoded point itself, Compress returns its receiver's bytes unless it is uncompressed, and key.New keeps the slices of the caller, so that writing into them changes the encoded point or the tweak the path gives. Proved on memory with slices, capacities and append: everything else makes new bytes, nothing writes into bytes that existed before, and a transcript is what was added to it whatever is done to other bytes in between (C181_encodings_partial, C181_paths_partial, C181_transcripts_partial; C181_made_partial says what this means, C181_exact_partial that the encoded points are of the kind considered)."
  },
  {
   "property": "C182",
   "status": "partial",
   "theorems": [
    "Verif.C182_false",
    "Verif.C182_scope_partial"
   ],
   "note": "The code violates the property (C182_false), as every ECDSA with additive key derivation does: the signature is valid under the key of every other path for the hash that differs by r times the difference of the tweaks; such a hash is a value of 32 bytes that is not known to be the hash of a message. Proved (C182_scope_partial): it is valid for at most four hash values under one key and under at most four keys on one hash, two unless r is very small, and exactly those keys that can be recovered from it."
  },
  {
   "property": "C183",
   "status": "partial",
   "theorems": [
    "Verif.Heap.C183_false",
    "Verif.Heap.C183_made_partial"
   ],
   "note": "The code violates the property (C183_false): New keeps the pointers of the caller and Coefficients hands out the internal ones; adding d in place to one of them changes every interpolation by d times the sample at this place. Proved (C183_made_partial): coefficients from AtValue and AtZero go on interpolating whatever is done to the objects that existed before and to results of interpolations."
  },
  {
   "property": "C184",
   "status": "proved",
   "theorems": [
    "Verif.C184_deceiving",
    "Verif.C184_verdict",
    "Verif.C184_honest_dealer"
   ],
   "note": "Random oracle model as in C150: the oracle answers the challenge questions; the other hashes (associated data, pads) are those of the code with an arbitrary hash function."
  },
  {
   "property": "C185",
   "status": "proved",
   "theorems": [
    "Verif.Heap.C185_curve",
    "Verif.Heap.C185_receivers",
    "Verif.Heap.C185_field",
    "Verif.Heap.C185_poly",
    "Verif.Heap.C185_proofs",
    "Verif.Heap.C185_encryption",
    "Verif.Heap.C185_dealings",
    "Verif.Heap.C185_complaints",
    "Verif.Heap.C185_signing",
    "Verif.Heap.C185_hash",
    "Verif.Heap.C185_protocol"
   ],
   "note": "The memory model records every object written to. Byte slices are not in the record. The test helper that corrupts a dealing does write to its argument (C127); rounds, which use it on dealings of their own, are covered."
  },
  {
   "property": "C186",
   "status": "proved",
   "theorems": [
    "Verif.C186_same",
    "Verif.C186_forgery",
    "Verif.C186_once",
    "Verif.C186_oracle",
    "Verif.C186_secrets"
   ],
   "note": "The program around the attack knows the discrete logarithm of G to the base H, as a simulator may that chooses H itself. That the sharings of presignatures are evenly distributed given what the group holds is assumed of the game (C161, C165-C167 and C172 are about how they are dealt); which secrets these are is C186_secrets."
  },
  {
   "property": "C187",
   "status": "proved",
   "theorems": [
    "Verif.C187_nonces",
    "Verif.C187_exactly",
    "Verif.C187_oracle",
    "Verif.C187_code"
   ],
   "note": "How often the blinding is zero is not bounded here. The randomiser is the oracle of C187_oracle, the tweak is fixed there; C187_code says that with the code's hash function failing is being refused by Verify."
  },
  {
   "property": "C188",
   "status": "proved",
   "theorems": [
    "Verif.C188_exactly",
    "Verif.C188_nil"
   ],
   "note": "The kinds of the dealings themselves are only looked at for random transcripts, see C61_false."
  },
  {
   "property": "C189",
   "status": "proved",
   "theorems": [
    "Verif.KeyGen.C189_same",
    "Verif.KeyGen.C189_key",
    "Verif.KeyGen.C189_transcript",
    "Verif.KeyGen.C189_random"
   ],
   "note": "Perfect (equal shares of all choices). Left out of the view: the proofs of equal openings and the ciphertexts (C159, C160, C152, C167), and that dealers of the group reshare their true shares (C162, C164)."
  },
  {
   "property": "C190",
   "status": "proved",
   "theorems": [
    "Verif.KeyGen.C190_generations",
    "Verif.KeyGen.C190_same",
    "Verif.KeyGen.C190_forgery",
    "Verif.KeyGen.C190_polynomials"
   ],
   "note": "Joins C189 and C186; proofs, ciphertexts and complaints are not part of the view (C160, C167), the masks and the values of lambda, kappa*lambda and x*lambda are uniform for what the group holds of them, as in C186 (C191 does without this). The program around the attack knows the discrete logarithm of G to the base H, as a simulator may that chooses H itself."
  },
  {
   "property": "C191",
   "status": "proved",
   "theorems": [
    "Verif.KeyGen.C191_same",
    "Verif.KeyGen.C191_forgery",
    "Verif.KeyGen.C191_transcript",
    "Verif.KeyGen.C191_products"
   ],
   "note": "C190 without its assumption on lambda and the products: C191_same for all questions, C191_forgery for forgeries, C191_transcript says that the combined polynomials are what NewTranscriptInternal makes of the dealings, C191_products that they belong to the products. Proofs, ciphertexts and complaints are not part of the view (C160, C167); all presignatures are made before the first signature (not so in C193); the honest dealers are the same for all products. The program around the attack knows the discrete logarithm of G to the base H, as a simulator may that chooses H itself."
  },
  {
   "property": "C192",
   "status": "proved",
   "theorems": [
    "Verif.C192_one_for_all",
    "Verif.C192_master"
   ],
   "note": "There is no hardened derivation in the code. Exporting the private key of a path is therefore exporting the master key; signing for a path is not (C186, C191)."
  },
  {
   "property": "C193",
   "status": "proved",
   "theorems": [
    "Verif.KeyGen.C193_same",
    "Verif.KeyGen.C193_forgery"
   ],
   "note": "C191 without its restriction that all presignatures are made before the first signature: C193_same for all questions, C193_forgery for forgeries. Presignatures are made one after the other, with no signature while one is being made. The rest of what C191 leaves out is left out here, too (proofs, ciphertexts, complaints)."
  },
  {
   "property": "C194",
   "status": "proved",
   "theorems": [
    "Verif.C194_gives_away",
    "Verif.C194_anybody",
    "Verif.C194_refused",
    "Verif.C194_verified"
   ],
   "note": "The argument of GenerateComplaints is called verifiedDealings, but nothing in it checks this; C194_anybody says what happens otherwise, C194_refused and C194_verified why verified dealings are safe (the proofs of false statements that the latter speaks of are bounded by C150). That a complaint shows nothing beyond the value is C159."
  },
  {
   "property": "C195",
   "status": "partial",
   "theorems": [
    "Verif.C195_exact_partial",
    "Verif.C195_false",
    "Verif.C195_false_kind",
    "Verif.C195_sorted_out_partial"
   ],
   "note": "The code violates the property: it interpolates through all provided openings, so that a single wrong one makes reconstruction fail however many others are right (C195_false; unless the share of one of the other openers is asked for), and so does one of the other kind (C195_false_kind). Proved: the exact rule, reconstruction succeeds if and only if the errors of the openings cancel in the weighted sum, and then the share is right (C195_exact_partial); and a caller that first drops the openings for which CheckOpening fails gets the share whenever enough are right (C195_sorted_out_partial). Neither ReconstructShareFromOpenings nor FromDealingsAndOpenings makes such a check; the test setup checks each opening before it provides it (testutils/dealings.go:60-63)."
  },
  {
   "property": "C196",
   "status": "partial",
   "theorems": [
    "Verif.C196_false",
    "Verif.C196_opened_partial"
   ],
   "note": "The property does not hold of publicly verified dealings (C196_false): from the points of all other commitments a dealer computes points for its own commitment such that PubliclyVerify accepts and the transcript has exactly the points that the dealer wanted, all of them for a random transcript and all but the first for the others; it can want a commitment to a secret it knows. Recipients notice, since the ciphertext does not fit. Proved for random transcripts (C196_opened_partial): if threshold-many recipients hold openings of such a dealing, then these and an opening of what the dealer wanted give the secret of all other dealers, or the discrete logarithm of H. NewTranscriptInternal relies on its caller for private verification; C130 and C166 have it as a hypothesis."
  },
  {
   "property": "C197",
   "status": "partial",
   "theorems": [
    "Verif.C197_bound_partial",
    "Verif.C197_false"
   ],
   "note": "The property does not hold (C197_false): dealers whose indices agree modulo 2^32, and all strings of associated data of more than 255 bytes, are the same to dealing creation, to public verification (of random dealings, or with the same dealer), private verification, decryption and the verification of complaints, whatever the hash function. Proved for contexts that differ otherwise (C197_bound_partial): a dealing that is taken in both gives two different hash inputs with the same output, the base or the challenge of its proof of possession."
  },
  {
   "property": "C198",
   "status": "proved",
   "theorems": [
    "Verif.C198_encryption",
    "Verif.C198_challenges",
    "Verif.C198_complaints",
    "Verif.C198_randomizer"
   ],
   "note": "The messages and separators are written out in Spec/Wire.lean and in the statements, byte for byte; what the hash makes of them is C17 to C19. The challenge of product proofs has the separator of equal openings, as in the code."
  },
  {
   "property": "C199",
   "status": "proved",
   "theorems": [
    "Verif.C199_rounds",
    "Verif.C199_signing",
    "Verif.C199_setup",
    "Verif.C199_apart"
   ],
   "note": "Dealings that the driver damages afterwards are compared without the entries of their ciphertexts. The labels are written out in Spec/RunSeeds.lean and in C22_exact. That rounds return, unless the generators have one of a few defects, is C110."
  },
  {
   "property": "C200",
   "status": "proved",
   "theorems": [
    "Verif.C200_rounds",
    "Verif.C200_signing"
   ],
   "note": "A weakness of the driver in testutils, which is test code, and not of the library: nothing in the library derives seeds of complaints from public values. An instance of the last part of C170_complaints for the runs of the driver. That rounds return is C110."
  },
  {
   "property": "C201",
   "status": "proved",
   "theorems": [
    "Verif.C201_public",
    "Verif.C201_recipient",
    "Verif.C201_blamed",
    "Verif.C201_honest"
   ],
   "note": "Dealings carry no signature of their dealer and the proof of possession does not cover the entries, so callers have to authenticate dealings themselves. C66 and C79 are the parts about one dealing; binding to dealer and associated data is C197."
  },
  {
   "property": "C202",
   "status": "partial",
   "theorems": [
    "Verif.C202_kind",
    "Verif.C202_instance_partial",
    "Verif.C202_false"
   ],
   "note": "Kind of operation, threshold and number of receivers are determined (C202_kind, also for different dealers, associated data and hash functions). The rest does not hold for resharing of unmasked secrets from wrapped commitments: a dealing that is accepted for one is accepted for all (C202_false, the consequence of C83_false). Proved otherwise (C202_instance_partial): the commitments have the same values at the dealer, or the two inputs that the verification of its proof hashes for the two operations are different and have the same hash."
  },
  {
   "property": "C203",
   "status": "proved",
   "theorems": [
    "Verif.C203_openings",
    "Verif.C203_key"
   ],
   "note": "C146 is about two valid signatures and finds the key by trying signs; here the shares themselves are used, so that already one node that answers twice loses its three openings. Nothing in the library keeps a node from answering twice; C186, C190, C191 and C193 let each presignature be used once."
  },
  {
   "property": "C204",
   "status": "partial",
   "theorems": [
    "Verif.C204_false",
    "Verif.C204_false_verified",
    "Verif.C204_false_signing",
    "Verif.C204_others_partial"
   ],
   "note": "The code violates the property (C204_false): node indices are signed, and index -1 is taken to the place 0, where the secret is. Evaluating a commitment there gives its constant term, ReconstructShareFromOpenings returns the secret, a dealer with this index alone decides a reshared or multiplied transcript, and a signer with this index alone the signature (C204_false_signing). Dealings for this index are verified like others: who knows the secrets can make them (C204_false_verified). Proved for all other indices (C204_others_partial): every secret is possible for every share, and every dealing counts; for signature shares C174 says what a signer can do."
  }
 ]
}