{"claims": [
  {"property": "C01", "status": "proved", "theorems": ["Verif.C01_new_is_bip327_keyagg", "Verif.C01_error_iff_sum_infinite"], "note": ""},
  {"property": "C02", "status": "proved", "theorems": ["Verif.C02_coefficients", "Verif.C02_second_key_one"], "note": ""},
  {"property": "C03", "status": "proved", "theorems": ["Verif.C03_lookup_coherent", "Verif.C03_pubkeys_preserved"], "note": ""},
  {"property": "C04", "status": "proved", "theorems": ["Verif.C04_with_tweaks_is_apply_tweak_fold", "Verif.C04_single_tweak"], "note": ""},
  {"property": "C05", "status": "proved", "theorems": ["Verif.C05_untweaked_recoverable"], "note": ""},
  {"property": "C06", "status": "partial", "theorems": ["Verif.C06_tweak_sum_exact", "Verif.C06_tweak_sum_meaning", "Verif.C06_tweak_sum_partial", "Verif.C06_tweak_sum_not_sum"], "note": "False of the code when an x-only tweak meets an odd aggregate key; negation proved (C06_tweak_sum_not_sum), the remaining case proved as C06_tweak_sum_partial. The exact value and its meaning for all sequences of tweaks: C06_tweak_sum_exact, C06_tweak_sum_meaning."},
  {"property": "C07", "status": "proved", "theorems": ["Verif.C07_seckey_sound", "Verif.C07_seckey_complete", "Verif.C07_seckey_too_many"], "note": ""},
  {"property": "C08", "status": "partial", "theorems": ["Verif.C08_accepted_iff", "Verif.C08_aligned_partial", "Verif.C08_unaligned_accepted"], "note": "False of the code: a single suitable secret key is accepted for a larger group (C08_unaligned_accepted). Lists differing from the true one in exactly one place are rejected (C08_aligned_partial); exactly which lists are accepted: C08_accepted_iff."},
  {"property": "C09", "status": "proved", "theorems": ["Verif.C09_taproot_is_bip341", "Verif.C09_unspendable_is_bip341"], "note": "The code also fails when the tweak hash is exactly zero, which BIP341 allows; the theorem states this case exactly."},
  {"property": "C10", "status": "proved", "theorems": ["Verif.C10_layout", "Verif.C10_context_roundtrip"], "note": ""},
  {"property": "C11", "status": "proved", "theorems": ["Verif.C11_decode_total", "Verif.C11_every_context_has_a_history"], "note": ""},
  {"property": "C12", "status": "partial", "theorems": ["Verif.C12_context_canonical_partial", "Verif.C12_context_encoding_not_canonical", "Verif.C12_accepted_encodings_exact"], "note": "False of the code: the six high bits of the header byte are ignored (C12_context_encoding_not_canonical). Canonical up to those bits (C12_context_canonical_partial). Exactly which strings are accepted: C12_accepted_encodings_exact."},
  {"property": "C13", "status": "proved", "theorems": ["Verif.C13_eq_is_equality"], "note": ""},
  {"property": "C14", "status": "proved", "theorems": ["Verif.C14_sorted_order_independent"], "note": ""},
  {"property": "C15", "status": "proved", "theorems": ["Verif.C15_generate_is_bip327", "Verif.C15_generate_bytes"], "note": ""},
  {"property": "C16", "status": "partial", "theorems": ["Verif.C16_builder_partial", "Verif.C16_builder_not_bip327_no_extra", "Verif.C16_builder_not_bip327_no_seckey", "Verif.C16_builder_exact"], "note": "False of the code when optional inputs are omitted: negation proved; the agreeing case is the _partial theorem. The exact behaviour, all combinations of inputs, is C16_builder_exact: what is hashed, and for which inputs it is what BIP327 hashes."},
  {"property": "C17", "status": "proved", "theorems": ["Verif.C17_built_nonces_valid", "Verif.C17_decoded_nonces_valid"], "note": ""},
  {"property": "C18", "status": "proved", "theorems": ["Verif.C18_nonce_preimage_injective", "Verif.C18_equal_nonces", "Verif.C18_same_seed_seckey"], "note": ""},
  {"property": "C19", "status": "proved", "theorems": ["Verif.C19_first_round_nonces", "Verif.C19_signer_index_separates", "Verif.C19_equal_nonces_collide"], "note": ""},
  {"property": "C20", "status": "proved", "theorems": ["Verif.C20_with_spices", "Verif.C20_with_extra_input"], "note": ""},
  {"property": "C21", "status": "proved", "theorems": ["Verif.C21_nonce_agg"], "note": ""},
  {"property": "C22", "status": "proved", "theorems": ["Verif.C22_session_values", "Verif.C22_session_values_reachable"], "note": ""},
  {"property": "C23", "status": "proved", "theorems": ["Verif.C23_nonce_roundtrip", "Verif.C23_nonce_canonical", "Verif.C23_nonce_bad_length", "Verif.C23_nonce_layout"], "note": ""},
  {"property": "C24", "status": "proved", "theorems": ["Verif.C24_sign_iff_member", "Verif.C24_self_verify_unreachable"], "note": ""},
  {"property": "C25", "status": "proved", "theorems": ["Verif.C25_sign_is_bip327"], "note": ""},
  {"property": "C26", "status": "proved", "theorems": ["Verif.C26_verify_partial_is_bip327", "Verif.C26_verify_partial_adaptor_outcomes"], "note": ""},
  {"property": "C27", "status": "proved", "theorems": ["Verif.C27_unique_partial_signature", "Verif.C27_signer_produces_it"], "note": ""},
  {"property": "C28", "status": "proved", "theorems": ["Verif.C28_verified_partials_aggregate_adaptor", "Verif.C28_verified_partials_aggregate"], "note": ""},
  {"property": "C29", "status": "partial", "theorems": ["Verif.C29_aggregates_iff", "Verif.C29_verified_partials_valid_partial", "Verif.C29_degenerate_always_fails", "Verif.C29_guarantee_false"], "note": "False of the code when R1+b*R2 is infinity: aggregation then always fails although every partial signature verifies (C29_degenerate_always_fails, C29_guarantee_false). All other sessions: C29_verified_partials_valid_partial. Together: C29_aggregates_iff."},
  {"property": "C30", "status": "proved", "theorems": ["Verif.C30_aggregate_sound"], "note": ""},
  {"property": "C31", "status": "proved", "theorems": ["Verif.C31_aggregate_order", "Verif.C31_aggregate_is_bip327"], "note": ""},
  {"property": "C32", "status": "proved", "theorems": ["Verif.C32_adaptor_aggregate", "Verif.C32_adaptor_aggregate_total"], "note": ""},
  {"property": "C33", "status": "proved", "theorems": ["Verif.C33_verify_single_is_bip340", "Verif.C33_verify_single_typed"], "note": ""},
  {"property": "C34", "status": "proved", "theorems": ["Verif.C34_parity_insensitive"], "note": ""},
  {"property": "C35", "status": "proved", "theorems": ["Verif.C35_solo_signature_verifies"], "note": ""},
  {"property": "C36", "status": "proved", "theorems": ["Verif.C36_solo_is_bip340_sign"], "note": ""},
  {"property": "C37", "status": "proved", "theorems": ["Verif.C37_solo_adaptor"], "note": ""},
  {"property": "C38", "status": "proved", "theorems": ["Verif.C38_adaptor_valid_iff_adapted_valid"], "note": ""},
  {"property": "C39", "status": "partial", "theorems": ["Verif.C39_reveal_partial", "Verif.C39_negated_secret_revealed", "Verif.C39_reveal_secret_false", "Verif.C39_reveal_iff"], "note": "False of the code when the adaptor signature's nonce is infinity, where -t may be returned (C39_reveal_secret_false, C39_negated_secret_revealed). Otherwise proved. Exact behaviour: C39_reveal_iff."},
  {"property": "C40", "status": "proved", "theorems": ["Verif.C40_reveal_sound"], "note": ""},
  {"property": "C41", "status": "proved", "theorems": ["Verif.C41_encrypt_valid"], "note": ""},
  {"property": "C42", "status": "partial", "theorems": ["Verif.C42_stacking_partial", "Verif.C42_stacking_fails_odd", "Verif.C42_stacking_false", "Verif.C42_stacking_iff"], "note": "False of the code when the adapted nonce is odd (C42_stacking_fails_odd, C42_stacking_false); proved when it is even. Exact behaviour: C42_stacking_iff."},
  {"property": "C43", "status": "proved", "theorems": ["Verif.C43_signature_roundtrip", "Verif.C43_signature_canonical", "Verif.C43_signature_bad_length", "Verif.C43_signature_layout"], "note": ""},
  {"property": "C44", "status": "proved", "theorems": ["Verif.C44_lifted_even", "Verif.C44_compact_lift_inverse", "Verif.C44_lift_iff_on_curve", "Verif.C44_lifted_even_converted"], "note": ""},
  {"property": "C45", "status": "proved", "theorems": ["Verif.C45_formatting", "Verif.C45_parse_hex", "Verif.C45_reject_other", "Verif.C45_parse_total"], "note": ""},
  {"property": "C46", "status": "partial", "theorems": ["Verif.C46_from_hex_partial", "Verif.C46_from_hex_rejects_97", "Verif.C46_from_hex_exact", "Verif.C46_from_hex_accepts_false"], "note": "False of the code for SecNonce: the hex parser uses a 64-byte buffer, so 97-byte BIP327 secret nonces in hex are rejected although from_bytes accepts them (C46_from_hex_accepts_false). Otherwise proved. Exact: C46_from_hex_exact."},
  {"property": "C47", "status": "proved", "theorems": ["Verif.C47_valid_batch_accepted", "Verif.C47_empty_batch", "Verif.C47_outcomes"], "note": ""},
  {"property": "C48", "status": "proved", "theorems": ["Verif.C48_single_invalid_rejected", "Verif.C48_singleton_batch"], "note": ""},
  {"property": "C49", "status": "proved", "theorems": ["Verif.C49_at_most_one_coefficient", "Verif.C49_accepted_coefficients_subsingleton"], "note": ""},
  {"property": "C50", "status": "partial", "theorems": ["Verif.C50_batch_forgery", "Verif.C50_invalid_batch_accepted", "Verif.C50_seed_commits_partial", "Verif.C50_seed_input", "Verif.C50_batch_exact", "Verif.C50_defect_iff_invalid"], "note": "False of the code for adaptor rows: the seed does not commit to an adaptor row's nonce, so for every hash and generator an invalid batch can be constructed that is accepted (C50_batch_forgery, C50_invalid_batch_accepted). Batches of plain signatures: C50_seed_commits_partial. The exact condition for acceptance, any rows: C50_batch_exact, C50_defect_iff_invalid."},
  {"property": "C51", "status": "proved", "theorems": ["Verif.C51_nonce_in_range", "Verif.C51_diverges_iff", "Verif.C51_aux_is_derived_nonce", "Verif.C51_deterministic_signatures_verify"], "note": ""},
  {"property": "C52", "status": "partial", "theorems": ["Verif.C52_rfc6979_partial", "Verif.C52_rfc6979_exact", "Verif.C52_rfc6979_false"], "note": "False of the code when the message digest is at least n (the RFC's bits2octets reduction is missing): C52_rfc6979_false. All other digests: C52_rfc6979_partial. The exact value for all digests (RFC 6979 without the reduction) is C51_nonce_in_range; C52_rfc6979_exact puts both side by side."},
  {"property": "C53", "status": "proved", "theorems": ["Verif.C53_first_round_holdouts", "Verif.C53_first_round_accepted", "Verif.C53_second_round_holdouts"], "note": ""},
  {"property": "C54", "status": "proved", "theorems": ["Verif.C54_new_never_panics", "Verif.C54_new_panics_above_limit", "Verif.C54_never_panics"], "note": ""},
  {"property": "C55", "status": "proved", "theorems": ["Verif.C55_receive_nonce", "Verif.C55_errors_change_nothing"], "note": ""},
  {"property": "C56", "status": "proved", "theorems": ["Verif.C56_delivery_order", "Verif.C56_same_aggregated_nonce"], "note": ""},
  {"property": "C57", "status": "proved", "theorems": ["Verif.C57_first_round_finalize"], "note": ""},
  {"property": "C58", "status": "proved", "theorems": ["Verif.C58_second_round_receives"], "note": ""},
  {"property": "C59", "status": "partial", "theorems": ["Verif.C59_wrong_key_partial", "Verif.C59_other_member_key_accepted", "Verif.C59_wrong_key_false", "Verif.C59_finalizes_iff", "Verif.C59_wrong_key_outcome"], "note": "False of the code: any member's key is accepted (C59_other_member_key_accepted, C59_wrong_key_false). Keys outside the group are rejected (C59_wrong_key_partial). Exactly when finalization succeeds: C59_finalizes_iff. What a wrong member key leads to later (the others reject the partial signature and the session fails): C59_wrong_key_outcome."},
  {"property": "C60", "status": "proved", "theorems": ["Verif.C60_honest_session", "Verif.C60_honest_session_bip340"], "note": "Exception R1+b*R2 infinite (see C29)."},
  {"property": "C61", "status": "proved", "theorems": ["Verif.C61_honest_adaptor_session"], "note": ""},
  {"property": "C62", "status": "partial", "theorems": ["Verif.C62_finalize_partial", "Verif.C62_adaptor_session_finalizes", "Verif.C62_invalid_signature_returned"], "note": "False of the code: finalize of an adaptor session returns a signature without an error (C62_adaptor_session_finalizes), and it can be invalid (C62_invalid_signature_returned). Exact behaviour: C62_finalize_partial."},
  {"property": "C63", "status": "proved", "theorems": ["Verif.C63_single_aggregator"], "note": ""},
  {"property": "C64", "status": "proved", "theorems": ["Verif.C64_two_signatures_reveal", "Verif.C64_three_signatures_reveal", "Verif.C64_one_signature_hides", "Verif.C64_documented_formula_false"], "note": "The formula of the demo test, corrected for signs; the formula in doc/API.md is wrong (C64_documented_formula_false)."},
  {"property": "C65", "status": "proved", "theorems": ["Verif.C65_tag_digests", "Verif.C65_tags_distinct"], "note": ""},
  {"property": "C66", "status": "proved", "theorems": ["Verif.C66_domain_separation", "Verif.C66_what_is_hashed", "Verif.C66_inputs_determined"], "note": ""},
  {"property": "C67", "status": "proved", "theorems": ["Verif.C67_coefficients", "Verif.C67_key_list_committed"], "note": ""},
  {"property": "C68", "status": "proved", "theorems": ["Verif.C68_encodings_bijective", "Verif.C68_parsers_accept", "Verif.C68_negation"], "note": ""},
  {"property": "C69", "status": "proved", "theorems": ["Verif.C69_curve_parameters", "Verif.C69_chord", "Verif.C69_tangent", "Verif.C69_prime_order"], "note": ""},
  {"property": "C70", "status": "proved", "theorems": ["Verif.C70_complete_round_finalizes", "Verif.C70_complete_round_finalizes_plain"], "note": ""},
  {"property": "C71", "status": "partial", "theorems": ["Verif.C71_same_nonce_reveals", "Verif.C71_adaptor_points_share_nonce", "Verif.C71_plain_and_adaptor_share_nonce", "Verif.C71_messages_never_share_partial", "Verif.C71_deterministic_nonces_reused_false", "Verif.C71_nonce_shared_iff"], "note": "False of the code: the nonce does not depend on the adaptor point, so deterministic adaptor signatures on one message for two adaptor points (or one plain and one adaptor signature) share a nonce and give away the key (C71_adaptor_points_share_nonce, C71_deterministic_nonces_reused_false). Different messages never share a nonce hash input (C71_messages_never_share_partial). Exact: C71_nonce_shared_iff."},
  {"property": "C72", "status": "proved", "theorems": ["Verif.C72_solo_nonce"], "note": ""},
  {"property": "C73", "status": "proved", "theorems": ["Verif.C73_unique_signature_scalar", "Verif.C73_bytes_not_malleable", "Verif.C73_unique_adaptor_scalar", "Verif.C73_exists_iff_lift"], "note": ""},
  {"property": "C74", "status": "proved", "theorems": ["Verif.C74_two_signatures_reveal"], "note": ""},
  {"property": "C75", "status": "proved", "theorems": ["Verif.C75_forged_session", "Verif.C75_forged_session_two", "Verif.C75_partial_signature_forgeable"], "note": ""},
  {"property": "C76", "status": "proved", "theorems": ["Verif.C76_aggregate_iff_sum", "Verif.C76_plain_aggregate_iff_sum", "Verif.C76_single_deviation_blamed", "Verif.C76_aggregate_does_not_verify_partials"], "note": ""},
  {"property": "C77", "status": "proved", "theorems": ["Verif.C77_encrypt_many"], "note": ""},
  {"property": "C78", "status": "proved", "theorems": ["Verif.C78_completion_reveals_secret"], "note": ""},
  {"property": "C79", "status": "proved", "theorems": ["Verif.C79_plain_tweaks_compose", "Verif.C79_plain_tweaks_commute", "Verif.C79_xonly_is_plain_iff_even"], "note": ""},
  {"property": "C80", "status": "proved", "theorems": ["Verif.C80_aggregated_seckey_signs", "Verif.C80_group_signature_is_single_signer"], "note": ""},
  {"property": "C81", "status": "proved", "theorems": ["Verif.C81_taproot_session", "Verif.C81_unspendable_session"], "note": "Exception R1+b*R2 infinite (see C29)."},
  {"property": "C82", "status": "proved", "theorems": ["Verif.C82_first_round_nonce_documented"], "note": ""},
  {"property": "C83", "status": "proved", "theorems": ["Verif.C83_valid_for_another_iff", "Verif.C83_binds_message"], "note": ""},
  {"property": "C84", "status": "proved", "theorems": ["Verif.C84_few_coefficients_pass"], "note": "The coefficients are counted as if the generator could return any vector; that the real generator is pseudo-random is not expressible here."},
  {"property": "C85", "status": "proved", "theorems": ["Verif.C85_serde_roundtrip", "Verif.C85_serde_accepts_iff", "Verif.C85_serde_total", "Verif.C85_serde_versus_from_hex"], "note": "The serdect crate is modelled by its documented behaviour."},
  {"property": "C86", "status": "proved", "theorems": ["Verif.C86_secp256k1_accepts_iff", "Verif.C86_secp256k1_roundtrip", "Verif.C86_secp256k1_verify", "Verif.C86_k256_pair", "Verif.C86_k256_roundtrip", "Verif.C86_wide_bytes"], "note": ""},
  {"property": "C87", "status": "proved", "theorems": ["Verif.C87_binds_nonce", "Verif.C87_binds_key", "Verif.C87_replay_iff"], "note": ""},
  {"property": "C88", "status": "proved", "theorems": ["Verif.C88_fork_challenge", "Verif.C88_fork_coefficient", "Verif.C88_four_forgeries_reveal"], "note": ""},
  {"property": "C89", "status": "proved", "theorems": ["Verif.C89_vanishing_nonce_reveals"], "note": ""},
  {"property": "C90", "status": "proved", "theorems": ["Verif.C90_unlocks_iff", "Verif.C90_wrong_secret_needs_hash_relation"], "note": ""},
  {"property": "C91", "status": "proved", "theorems": ["Verif.C91_last_signer", "Verif.C91_last_signer_plain"], "note": ""},
  {"property": "C92", "status": "proved", "theorems": ["Verif.C92_adaptor_point_bound", "Verif.C92_decrypted_rejected"], "note": ""},
  {"property": "C93", "status": "proved", "theorems": ["Verif.C93_tweak_binding", "Verif.C93_tweak_binding_xonly", "Verif.C93_taproot_binds_root", "Verif.C93_unspendable_binds"], "note": ""},
  {"property": "C94", "status": "proved", "theorems": ["Verif.C94_aggregate_iff_nonce", "Verif.C94_sign_for_aggregator"], "note": ""},
  {"property": "C95", "status": "proved", "theorems": ["Verif.C95_atomic_swap", "Verif.C95_swap_of_sessions"], "note": ""},
  {"property": "C96", "status": "proved", "theorems": ["Verif.C96_outcomes", "Verif.C96_accessors"], "note": ""},
  {"property": "C97", "status": "partial", "theorems": ["Verif.C97_decode_portable_partial", "Verif.C97_decode_exact", "Verif.C97_decode_panics", "Verif.C97_decode_total_false", "Verif.C97_junk_accepted"], "note": "False of the code where usize has 32 bits: without overflow checks a 38-byte string panics (C97_decode_panics, C97_decode_total_false) and trailing junk is accepted (C97_junk_accepted); with them large counts panic. Proved where usize has at least 38 bits (C97_decode_portable_partial). Exact behaviour on every target: C97_decode_exact."},
  {"property": "C98", "status": "partial", "theorems": ["Verif.C98_extra_input_limit_partial", "Verif.C98_extra_input_32", "Verif.C98_extra_input_limit_false"], "note": "False of the code where usize has 32 bits and overflow wraps: no limit is enforced (C98_extra_input_limit_false). Proved for wider usize (C98_extra_input_limit_partial); exact behaviour for 32 bits: C98_extra_input_32."},
  {"property": "C99", "status": "proved", "theorems": ["Verif.C99_rogue_keys", "Verif.C99_cancellation_attack"], "note": ""},
  {"property": "C100", "status": "proved", "theorems": ["Verif.C100_algebraic_forgery", "Verif.C100_group_forgery"], "note": ""},
  {"property": "C101", "status": "proved", "theorems": ["Verif.C101_session_signs_once", "Verif.C101_first_signing_call"], "note": ""},
  {"property": "C102", "status": "proved", "theorems": ["Verif.C102_nonce_errors", "Verif.C102_signature_errors", "Verif.C102_context_outcomes", "Verif.C102_context_cases", "Verif.C102_hex_errors"], "note": ""},
  {"property": "C103", "status": "proved", "theorems": ["Verif.C103_network_sound", "Verif.C103_agreement", "Verif.C103_accepted_iff_same_view"], "note": ""},
  {"property": "C104", "status": "proved", "theorems": ["Verif.C104_texts_identify", "Verif.C104_text_names_signer", "Verif.C104_text_numbers", "Verif.C104_decode_texts", "Verif.C104_unit_texts"], "note": ""},
  {"property": "C105", "status": "proved", "theorems": ["Verif.C105_first_nonce_almost_uniform", "Verif.C105_second_nonce_almost_uniform", "Verif.C105_nonces_independent", "Verif.C105_solo_nonce_almost_uniform"], "note": ""},
  {"property": "C106", "status": "proved", "theorems": ["Verif.C106_signature_guess", "Verif.C106_adaptor_guess", "Verif.C106_partial_guess"], "note": ""},
  {"property": "C107", "status": "proved", "theorems": ["Verif.C107_aggregate_key_target", "Verif.C107_taproot_target", "Verif.C107_final_nonce_target"], "note": ""},
  {"property": "C108", "status": "proved", "theorems": ["Verif.C108_forger_reveals_key", "Verif.C108_group_forger_reveals_key"], "note": ""},
  {"property": "C109", "status": "proved", "theorems": ["Verif.C109_rogue_forger_reveals_key", "Verif.C109_rogue_partner_reveals_key"], "note": "Forgers that see no signatures and take part in no sessions. A victim that is the second of three or more distinct keys, and tweaked keys, are in C126."},
  {"property": "C110", "status": "proved", "theorems": ["Verif.C110_format", "Verif.C110_display_parse", "Verif.C110_serde_lower", "Verif.C110_long_secnonce"], "note": ""},
  {"property": "C111", "status": "proved", "theorems": ["Verif.C111_chosen_messages_forger_reveals_key", "Verif.C111_signatures_simulated", "Verif.C111_transcripts_drawn"], "note": ""},
  {"property": "C112", "status": "proved", "theorems": ["Verif.C112_session_simulated", "Verif.C112_simulator_succeeds"], "note": ""},
  {"property": "C113", "status": "proved", "theorems": ["Verif.C113_session_forger_reveals_group_key", "Verif.C113_session_forger_reveals_key", "Verif.C113_session_is_signed"], "note": ""},
  {"property": "C114", "status": "proved", "theorems": ["Verif.C114_binary_roundtrip", "Verif.C114_binary_accepts_iff"], "note": "How serdect hands an array to a binary format (byte string or tuple) depends on its version and is a parameter of the theorem."},
  {"property": "C115", "status": "partial", "theorems": ["Verif.C115_concurrent_adaptor_forgery", "Verif.C115_sign_flip_forgery", "Verif.C115_rounds_forgery", "Verif.C115_session_is_fixed_partial", "Verif.C115_coefficient_ignores_adaptor"], "note": "False of the code: the nonce coefficient does not commit to the adaptor point, so whoever chooses the adaptor points last in 256 open sessions forges a signature for any message (C115_concurrent_adaptor_forgery, C115_sign_flip_forgery, C115_rounds_forgery). What holds: once the adaptor point is chosen, the coefficient commits to the session (C115_session_is_fixed_partial); for one session see C113. For any number of sessions whose adaptor points are fixed before the nonces see C116."},
  {"property": "C116", "status": "proved", "theorems": ["Verif.C116_concurrent_forger_solves", "Verif.C116_solver_asks_one_less", "Verif.C116_unknowns", "Verif.C116_game_is_code"], "note": "In the algebraic group model with random hash answers, for a family of groups that is fixed beforehand; the group of a session may be chosen with the message. The one-more discrete logarithm assumption itself is not a theorem: what is proved is the reduction, with explicit solver and loss."},
  {"property": "C117", "status": "proved", "theorems": ["Verif.C117_weighted_target", "Verif.C117_weighted_second", "Verif.C117_concurrent_forger_solves"], "note": ""},
  {"property": "C118", "status": "proved", "theorems": ["Verif.C118_random_uniform", "Verif.C118_random_no_repeat", "Verif.C118_random_draws", "Verif.C118_seeds_no_repeat", "Verif.C118_seed_from_rng"], "note": ""},
  {"property": "C119", "status": "proved", "theorems": ["Verif.C119_adaptive_forger_solves", "Verif.C119_solver_asks_one_less", "Verif.C119_game_is_code", "Verif.C119_unknowns"], "note": "In the algebraic group model with random hash answers. The one-more discrete logarithm assumption itself is not a theorem: what is proved is the reduction, with explicit solver and loss."},
  {"property": "C120", "status": "proved", "theorems": ["Verif.C120_forging_solves_one_more", "Verif.C120_attack_asks_one_less", "Verif.C120_nonces_are_random"], "note": "In the algebraic group model with random hash answers. The one-more discrete logarithm assumption itself is not a theorem: what is proved is the bound by the success of an explicit solver."},
  {"property": "C121", "status": "proved", "theorems": ["Verif.C121_forging_solves_one_more", "Verif.C121_what_is_drawn", "Verif.C121_game_is_code", "Verif.C121_settings"], "note": "In the algebraic group model with random hash answers. The one-more discrete logarithm assumption itself is not a theorem: what is proved is the bound by the success of an explicit solver. The settings of the nonce builders may depend on the secret key and the hash answers, but not on the seeds; they are not moves of the forger."},
  {"property": "C122", "status": "proved", "theorems": ["Verif.C122_plain_batches_sound", "Verif.C122_adaptor_rows_fool"], "note": ""},
  {"property": "C123", "status": "proved", "theorems": ["Verif.C123_adaptor_forger_reveals_key", "Verif.C123_completed_iff", "Verif.C123_adaptor_signatures_simulated", "Verif.C123_transcripts_drawn"], "note": "Random oracle model; the nonce hash of each call is an independent draw, so two calls with the same seed, key and message are not covered (their nonces repeat, see C71)."},
  {"property": "C124", "status": "proved", "theorems": ["Verif.C124_chosen_seeds_reveal_key", "Verif.C124_one_hash_function", "Verif.C124_nonce_hash_reveals_key"], "note": "Random oracle model for challenges and nonces. Runs in which a nonce serves two adaptor points are excluded (they reveal the key, C71). Deterministic seeds, which depend on the secret key, are in C125."},
  {"property": "C125", "status": "proved", "theorems": ["Verif.C125_deterministic_forger_reveals_key", "Verif.C125_one_hash_function"], "note": "Random oracle model for challenges and for the strings hashed on the way to the nonce. Runs in which a message is signed with two adaptor points are excluded (they reveal the key, C71)."},
  {"property": "C126", "status": "proved", "theorems": ["Verif.C126_any_group_forger_reveals_key"], "note": "Random oracle model for challenges and coefficients. Forgers that see no signatures and take part in no sessions."},
  {"property": "C127", "status": "proved", "theorems": ["Verif.C127_completed_signature_like_one_signer", "Verif.C127_group_signs_like_one_signer", "Verif.C127_completed_signature_like_sign_solo", "Verif.C127_group_signs_like_sign_solo"], "note": "Random oracle model for nonce coefficients and nonces; statistical, no bound on the test's work. One signature is given; the test does not see the answers that became nonces."},
  {"property": "C128", "status": "proved", "theorems": ["Verif.C128_key_commits_to_group", "Verif.C128_given_lists", "Verif.C128_order_can_be_invisible"], "note": "Random oracle model for key lists, coefficients and taproot tweaks. The unconditional claim of the documentation is false for some hash functions (C128_order_can_be_invisible)."},
  {"property": "C129", "status": "proved", "theorems": ["Verif.C129_different_inputs_different_nonces", "Verif.C129_generate_any_difference", "Verif.C129_chosen_seckey"], "note": "Random oracle model for seeds and nonces. C129_chosen_seckey shows what is left out of 'different inputs'."},
  {"property": "C130", "status": "proved", "theorems": ["Verif.C130_key_like_single_signer", "Verif.C130_output_like_single_signer", "Verif.C130_groups_look_alike"], "note": "Random oracle model for key lists, coefficients and taproot tweaks. One member key is unknown to the program; with all keys known anybody can recompute the aggregated key."},
  {"property": "C131", "status": "proved", "theorems": ["Verif.C131_completed_signatures_like_single_signers", "Verif.C131_signatures_like_single_signers", "Verif.C131_groups_sign_alike"], "note": "Random oracle model for the nonce coefficients. The messages and the nonces of the other members are fixed before the nonces are drawn."},
  {"property": "C132", "status": "proved", "theorems": ["Verif.C132_signatures_like_single_signers"], "note": "Random oracle model for the nonce coefficients. The public nonces and partial signatures are not shown; what insiders see is the subject of C112 and C115."},
  {"property": "C133", "status": "proved", "theorems": ["Verif.C133_group_like_single_signer", "Verif.C133_output_like_single_signer", "Verif.C133_outputs_look_alike"], "note": "Random oracle model for key aggregation, taproot tweaks and nonce coefficients. The public nonces and partial signatures are not shown."},
  {"property": "C134", "status": "proved", "theorems": ["Verif.C134_nonces_like_random"], "note": "Random oracle model for MuSig/aux and MuSig/nonce. Seeds are uniform and independent."},
  {"property": "C135", "status": "proved", "theorems": ["Verif.C135_signatures_like_single_signers", "Verif.C135_group_like_single_signer", "Verif.C135_output_like_single_signer"], "note": "Random oracle model for key aggregation, taproot tweaks, nonce coefficients and nonces. The public nonces and partial signatures are not shown."},
  {"property": "C136", "status": "proved", "theorems": ["Verif.C136_solo_like_random_nonces", "Verif.C136_group_like_solo", "Verif.C136_output_like_solo"], "note": "Random oracle model for the nonces of sign_solo; for groups also for key aggregation, taproot tweaks, nonce coefficients and nonces. The public nonces and partial signatures are not shown."},
  {"property": "C137", "status": "proved", "theorems": ["Verif.C137_known_points_sound", "Verif.C137_many_rows_fool"], "note": "upper bound for adaptor points fixed beforehand, and an attack on large batches that shows the exponential factor is needed"},
  {"property": "C138", "status": "proved", "theorems": ["Verif.C138_pubnonce_order", "Verif.C138_aggnonce_order", "Verif.C138_sorted"], "note": "The orders of the points themselves belong to the crate secp and are assumed: compressed encodings are compared, and infinity comes first."},
  {"property": "C139", "status": "proved", "theorems": ["Verif.C139_adaptor_sessions_end_well", "Verif.C139_sessions_end_well"], "note": "Removes the exception of C60 and C61 (session nonce at infinity, replaced by G in final_nonce). The two answers are drawn one after the other since the aggregated nonce depends on the first."},
  {"property": "C140", "status": "proved", "theorems": ["Verif.C140_taproot_groups_sign", "Verif.C140_taproot_groups_sign_adaptors"], "note": "Four hash answers are drawn one after the other (Spec.allDrawn). Most of the chance is that of a taproot hash that is not below the order."},
  {"property": "C141", "status": "partial", "theorems": ["Verif.C141_blame_partial", "Verif.C141_honest_signer_blamed", "Verif.C141_other_view_rejects"], "note": "False in full: README.md:20 says that partial signatures can be verified to place blame on misbehaving signers, but C141_honest_signer_blamed shows honest signers blamed after a third one told them different nonces; C141_other_view_rejects bounds the chance that they are not. C141_blame_partial has the condition that both hold the same aggregated nonce."},
  {"property": "C142", "status": "proved", "theorems": ["Verif.C142_only_misbehaving_named"], "note": "The positive counterpart of C141: with a reliable broadcast of the nonces the blame is right. Signatures need not be broadcast."},
  {"property": "C143", "status": "proved", "theorems": ["Verif.C143_forging_solves_one_more", "Verif.C143_attack_asks_one_less", "Verif.C143_game_is_code", "Verif.C143_forgery_is_accepted"], "note": "In the algebraic group model with random hash answers, like C120, but with the nonces of the library. The one-more discrete logarithm assumption itself is not a theorem: what is proved is the bound by the success of an explicit solver."},
  {"property": "C144", "status": "proved", "theorems": ["Verif.C144_own_key_forger_solves", "Verif.C144_own_key_forging_solves_one_more", "Verif.C144_own_key_forging_with_built_nonces", "Verif.C144_game_is_code", "Verif.C144_group_with_the_key_of_one"], "note": "In the algebraic group model with random hash answers, like C120, and reduced to C119/C120 by a group whose aggregated key is the member's own. The one-more discrete logarithm assumption itself is not a theorem. The member is not asked for signatures with sign_solo."},
  {"property": "C145", "status": "proved", "theorems": ["Verif.C145_every_secret_is_needed", "Verif.C145_decrypting_reveals", "Verif.C145_all_secrets_suffice"], "note": "Reduction: the pairs (nonce, secret) decrypted are at most twice the pairs (scalar, secret) for which Spec.missingSecret finds the logarithm; any attacker, any hash function that agrees with the tags."},
  {"property": "C146", "status": "proved", "theorems": ["Verif.C146_completing_pays", "Verif.C146_what_is_owed", "Verif.C146_parts_are_partial_signatures", "Verif.C146_adaptor_secret", "Verif.C146_only_completions", "Verif.C146_only_completions_one_more"], "note": "Reduction in the algebraic group model and random oracle model for the last part (as C119, C120); the other parts are unconditional."},
  {"property": "C147", "status": "proved", "theorems": ["Verif.C147_forging_solves_one_more", "Verif.C147_attack_asks_one_less", "Verif.C147_rounds_are_sessions"], "note": "Reduction in the algebraic group model and random oracle model, as C143. The forger names the aggregated key when it opens a session (it can ask for the hashes before), and the adaptor point is fixed then. Sessions that have not signed may be started again from the same seed."},
  {"property": "C148", "status": "proved", "theorems": ["Verif.C148_two_lives_reveal_key", "Verif.C148_three_lives_reveal_key", "Verif.C148_coefficients_differ", "Verif.C148_replay_gives_nothing_new"], "note": "The hash of the last challenge is random, all other hashes are arbitrary. That the copies of the round are the same is that FirstRound::new is a function of its arguments."},
  {"property": "C149", "status": "proved", "theorems": ["Verif.C149_sessions_over_bytes"], "note": "The nonces reach all honest members alike, as in C142; without this see C141."},
  {"property": "C150", "status": "proved", "theorems": ["Verif.C150_aggregator_names_culprits", "Verif.C150_aggregator_names_culprits_plain"], "note": "The aggregator is honest; for one that lies see C94."},
  {"property": "C151", "status": "proved", "theorems": ["Verif.C151_own_key_forging_solves_one_more", "Verif.C151_attack_asks_one_less", "Verif.C151_rounds_are_sessions"], "note": "In the algebraic group model with a random oracle, like C144 and C147."},
  {"property": "C152", "status": "proved", "theorems": ["Verif.C152_sessions_survive_crashes", "Verif.C152_sessions_survive_crashes_plain"], "note": "If other nonces arrive after a crash, the key may leak: see C148."},
  {"property": "C153", "status": "proved", "theorems": ["Verif.C153_session_can_be_completed", "Verif.C153_session_can_be_completed_plain"], "note": "Nonces are authenticated: the network delivers no made up ones."},
  {"property": "C154", "status": "proved", "theorems": ["Verif.C154_fair_runs_complete", "Verif.C154_fair_runs_exist", "Verif.C154_fair_runs_complete_plain"], "note": "Liveness, with the network of C153."},
  {"property": "C155", "status": "proved", "theorems": ["Verif.C155_fair_runs_name_cheaters", "Verif.C155_only_cheaters_stop_it"], "note": "Liveness with malicious members; reliable broadcast of the nonces is assumed, as in C142."}
]}
