# Axioms of the theorems in MANIFEST.json

Written by `tools/axioms.py` from the output of `#print axioms`.

## none

* `Sb.Props.C46_claim_false`
* `Sb.Props.C46_evicts_early`
* `Sb.Props.C63_attributes_partial`
* `Sb.Props.C63_headers_lost`

## propext

* `Sb.Props.C24_crash_safe_rename_partial`
* `Sb.Props.C24_one_store_partial`
* `Sb.Props.C24_claim_false_copy`
* `Sb.Props.C24_dead_owner_blocks`
* `Sb.Props.C25_no_tearing`
* `Sb.Props.C25_mutual_exclusion`
* `Sb.Props.C25_failed_copy_tears`
* `Sb.Props.C33_bytes_lookup_fails`
* `Sb.Props.C59_prefix_lengths_ignored`
* `Sb.Props.C60_sequential`
* `Sb.Props.C60_lookups`
* `Sb.Props.C60_overlap`
* `Sb.Props.C60_claim_false`
* `Sb.Props.C60_bounded`
* `Sb.Props.C60_changed_for_good`
* `Sb.Props.C93_nothing_lost_partial`

## propext, Classical.choice, Quot.sound

* `Sb.Props.C01_unlearn_undoes_learn`
* `Sb.Props.C02_counts_are_ledger`
* `Sb.Props.C02_training_does_not_raise`
* `Sb.Props.C02_named`
* `Sb.Props.C03_order_independent_scores`
* `Sb.Props.C03_order_independent_counts`
* `Sb.Props.C05_never_negative`
* `Sb.Props.C06_no_dead_records`
* `Sb.Props.C06_last_occurrence_removed`
* `Sb.Props.C07_counts_within_totals`
* `Sb.Props.C07_valid_history_scores`
* `Sb.Props.C07_valid_history_rounded`
* `Sb.Props.C07_invalid_history_raises`
* `Sb.Props.C08_load_keeps_stale_cache`
* `Sb.Props.C08_cache_invisible`
* `Sb.Props.C08_probability_is_fresh`
* `Sb.Props.C10_exact_formula`
* `Sb.Props.C10_rounded_bounds`
* `Sb.Props.C10_raises_iff`
* `Sb.Props.C11_odd_raises`
* `Sb.Props.C11_rounded_bounds`
* `Sb.Props.C11_exact_value`
* `Sb.Props.C11_exact_monotone`
* `Sb.Props.C12_score_bounds`
* `Sb.Props.C13_score_formula`
* `Sb.Props.C14_only_the_token_set`
* `Sb.Props.C14_same_errors`
* `Sb.Props.C15_no_evidence`
* `Sb.Props.C15_neutral_tokens_inert`
* `Sb.Props.C16_monotone`
* `Sb.Props.C17_mirror`
* `Sb.Props.C17_fails_beyond_150`
* `Sb.Props.C18_clue_selection`
* `Sb.Props.C18_all_used`
* `Sb.Props.C19_same_probability`
* `Sb.Props.C19_evidence`
* `Sb.Props.C20_tiling`
* `Sb.Props.C21_bigram_training_partial`
* `Sb.Props.C21_claim_false`
* `Sb.Props.C21_last_token_lost`
* `Sb.Props.C22_iterator_training_partial`
* `Sb.Props.C22_claim_false`
* `Sb.Props.C23_pickle_round_trip`
* `Sb.Props.C27_counts_survive_partial`
* `Sb.Props.C27_claim_false`
* `Sb.Props.C28_shelve_is_classifier`
* `Sb.Props.C29_store_reopen`
* `Sb.Props.C29_wordinfokeys`
* `Sb.Props.C30_file_partial`
* `Sb.Props.C30_moment_partial`
* `Sb.Props.C30_scores_iff_partial`
* `Sb.Props.C30_stored_partial`
* `Sb.Props.C30_crash_without_unlearn_partial`
* `Sb.Props.C30_crash_between_calls_partial`
* `Sb.Props.C30_claim_false`
* `Sb.Props.C31_other_tokens_partial`
* `Sb.Props.C31_state_key_raises`
* `Sb.Props.C31_claim_false`
* `Sb.Props.C32_iteration_partial`
* `Sb.Props.C32_non_ascii_cut`
* `Sb.Props.C32_claim_false`
* `Sb.Props.C33_search_by_content_partial`
* `Sb.Props.C33_getitem_by_content_partial`
* `Sb.Props.C33_str_lookup_fails`
* `Sb.Props.C33_claim_false`
* `Sb.Props.C33_hash`
* `Sb.Props.C33_insert_finds_free_slot`
* `Sb.Props.C34_counts_exchanged_partial`
* `Sb.Props.C34_twice_is_identity_partial`
* `Sb.Props.C34_claim_false`
* `Sb.Props.C35_accepted`
* `Sb.Props.C35_rejected`
* `Sb.Props.C35_from_payload`
* `Sb.Props.C35_write_once`
* `Sb.Props.C35_never_reserved`
* `Sb.Props.C35_empty_id_replaced`
* `Sb.Props.C36_thresholds`
* `Sb.Props.C36_monotone`
* `Sb.Props.C36_other_arguments`
* `Sb.Props.C36_is_unsure`
* `Sb.Props.C37_trustworthy_partial`
* `Sb.Props.C37_own_header_wins`
* `Sb.Props.C37_claim_false`
* `Sb.Props.C37_after_remove`
* `Sb.Props.C38_removes_exactly`
* `Sb.Props.C38_raises`
* `Sb.Props.C38_raw_subject_raises`
* `Sb.Props.C39_roundtrip_partial`
* `Sb.Props.C39_roundtrip_iff_partial`
* `Sb.Props.C39_claim_false`
* `Sb.Props.C39_created_header`
* `Sb.Props.C39_raw_subject_damaged`
* `Sb.Props.C39_string_notations`
* `Sb.Props.C40_exact`
* `Sb.Props.C40_equal_flags_partial`
* `Sb.Props.C40_claim_false`
* `Sb.Props.C41_evidence`
* `Sb.Props.C41_default_cutoff`
* `Sb.Props.C42_bound_partial`
* `Sb.Props.C42_claim_false`
* `Sb.Props.C43_same_lines`
* `Sb.Props.C43_idempotent`
* `Sb.Props.C43_crlf_only`
* `Sb.Props.C43_unchanged`
* `Sb.Props.C44_body_kept`
* `Sb.Props.C44_headers_only`
* `Sb.Props.C44_headers_fall_into_body`
* `Sb.Props.C44_no_header_block`
* `Sb.Props.C45_bounded`
* `Sb.Props.C46_fifo_partial`
* `Sb.Props.C46_last_n_partial`
* `Sb.Props.C46_put_get`
* `Sb.Props.C47_bounded_partial`
* `Sb.Props.C47_empty_replaced`
* `Sb.Props.C47_claim_false`
* `Sb.Props.C48_observers_cannot_disturb`
* `Sb.Props.C48_signal_after_change`
* `Sb.Props.C48_each_once`
* `Sb.Props.C48_get`
* `Sb.Props.C49_written_partial`
* `Sb.Props.C49_rejected`
* `Sb.Props.C49_kept_partial`
* `Sb.Props.C49_empty_directory`
* `Sb.Props.C49_exact_partial`
* `Sb.Props.C49_claim_false`
* `Sb.Props.C49_evicted`
* `Sb.Props.C49_files_partial`
* `Sb.Props.C50_at_construction_partial`
* `Sb.Props.C50_constant`
* `Sb.Props.C50_claim_false`
* `Sb.Props.C51_no_key`
* `Sb.Props.C51_trains_on_removal`
* `Sb.Props.C51_claim_false`
* `Sb.Props.C51_trainers_partial`
* `Sb.Props.C51_moved_partial`
* `Sb.Props.C52_not_due_partial`
* `Sb.Props.C52_no_timestamp`
* `Sb.Props.C52_timestamps`
* `Sb.Props.C52_claim_false`
* `Sb.Props.C52_construction`
* `Sb.Props.C53_terminates`
* `Sb.Props.C53_strippers`
* `Sb.Props.C54_digits`
* `Sb.Props.C54_claim_false`
* `Sb.Props.C54_text_partial`
* `Sb.Props.C54_raises_partial`
* `Sb.Props.C54_iff_partial`
* `Sb.Props.C54_str_partial`
* `Sb.Props.C55_claim_false`
* `Sb.Props.C55_body_partial`
* `Sb.Props.C55_stripped`
* `Sb.Props.C55_text_partial`
* `Sb.Props.C55_left`
* `Sb.Props.C56_header_tokens`
* `Sb.Props.C56_one_token`
* `Sb.Props.C56_noheader`
* `Sb.Props.C57_breakdown_host`
* `Sb.Props.C58_terminates`
* `Sb.Props.C58_repair`
* `Sb.Props.C59_format`
* `Sb.Props.C59_shared`
* `Sb.Props.C62_claim_false`
* `Sb.Props.C63_claim_false`
* `Sb.Props.C64_saved_headers_restore`
* `Sb.Props.C65_score`
* `Sb.Props.C65_level`
* `Sb.Props.C65_level_range`
* `Sb.Props.C66_only_what_is_asked`
* `Sb.Props.C67_read_not_removable`
* `Sb.Props.C67_values_removable_partial`
* `Sb.Props.C67_claim_false`
* `Sb.Props.C68_confined_partial`
* `Sb.Props.C68_directories`
* `Sb.Props.C68_claim_false`
* `Sb.Props.C68_exact_partial`
* `Sb.Props.C68_untouched_partial`
* `Sb.Props.C69_mapping_partial`
* `Sb.Props.C69_claim_false`
* `Sb.Props.C69_file_partial`
* `Sb.Props.C70_claim_false`
* `Sb.Props.C71_claim_false`
* `Sb.Props.C71_exact_partial`
* `Sb.Props.C71_timeout`
* `Sb.Props.C72_base_url`
* `Sb.Props.C73_urls_partial`
* `Sb.Props.C73_claim_false`
* `Sb.Props.C73_repeated_partial`
* `Sb.Props.C74_tokens`
* `Sb.Props.C74_claim_false`
* `Sb.Props.C74_trailing_partial`
* `Sb.Props.C75_message_partial`
* `Sb.Props.C75_undecoded_partial`
* `Sb.Props.C75_claim_false`
* `Sb.Props.C76_filename_partial`
* `Sb.Props.C76_claim_false`
* `Sb.Props.C78_order`
* `Sb.Props.C79_message_id`
* `Sb.Props.C80_determined`
* `Sb.Props.C80_virus_tokens`
* `Sb.Props.C80_shown`
* `Sb.Props.C80_some_iff`
* `Sb.Props.C81_subject`
* `Sb.Props.C81_pieces`
* `Sb.Props.C81_addresses`
* `Sb.Props.C81_recipients`
* `Sb.Props.C81_mailer`
* `Sb.Props.C81_order`
* `Sb.Props.C82_tie_partial`
* `Sb.Props.C82_no_tie`
* `Sb.Props.C82_one_kind`
* `Sb.Props.C82_state`
* `Sb.Props.C82_first_message`
* `Sb.Props.C82_claim_false`
* `Sb.Props.C83_bytes_partial`
* `Sb.Props.C83_one_bad_token`
* `Sb.Props.C83_surrogates`
* `Sb.Props.C83_str_like_memory`
* `Sb.Props.C83_keys_faithful`
* `Sb.Props.C83_claim_false`
* `Sb.Props.C84_sections`
* `Sb.Props.C84_urls`
* `Sb.Props.C84_total`
* `Sb.Props.C85_call_ignores`
* `Sb.Props.C85_lines_unused`
* `Sb.Props.C85_only_partial`
* `Sb.Props.C85_both_partial`
* `Sb.Props.C85_never_skipped`
* `Sb.Props.C85_claim_false`
* `Sb.Props.C86_each`
* `Sb.Props.C86_reduced`
* `Sb.Props.C86_raises`
* `Sb.Props.C87_commonprefix`
* `Sb.Props.C87_prefixes`
* `Sb.Props.C87_suffixes`
* `Sb.Props.C87_order`
* `Sb.Props.C88_received`
* `Sb.Props.C88_headers`
* `Sb.Props.C89_text_partial`
* `Sb.Props.C89_raises_partial`
* `Sb.Props.C89_claim_false`
* `Sb.Props.C90_defaults`
* `Sb.Props.C90_body_partial`
* `Sb.Props.C90_additive`
* `Sb.Props.C90_stops_partial`
* `Sb.Props.C90_images_partial`
* `Sb.Props.C90_claim_false`
* `Sb.Props.C90_order`
* `Sb.Props.C91_body_partial`
* `Sb.Props.C91_same`
* `Sb.Props.C91_never`
* `Sb.Props.C91_claim_false`
* `Sb.Props.C92_probability`
* `Sb.Props.C92_score`
* `Sb.Props.C92_returns`
* `Sb.Props.C92_limit`
* `Sb.Props.C92_nearest`
* `Sb.Props.C93_file_partial`
* `Sb.Props.C93_claim_false`
* `Sb.Props.C93_monotone_partial`
* `Sb.Props.C93_sessions_partial`
* `Sb.Props.C94_scan_partial`
* `Sb.Props.C94_raises_partial`
* `Sb.Props.C94_claim_false`
* `Sb.Props.C94_same`
* `Sb.Props.C94_body_partial`
* `Sb.Props.C95_any_file`
* `Sb.Props.C95_truncated_partial`
* `Sb.Props.C95_records_before_cut`
* `Sb.Props.C95_noticed_iff`
* `Sb.Props.C95_claim_false`
* `Sb.Props.C95_unfinished_reads_empty`
* `Sb.Props.C95_unfinished_no_items`
* `Sb.Props.C95_header_is_last`
* `Sb.Props.C96_own_words_partial`
* `Sb.Props.C96_other_words`
* `Sb.Props.C96_own_words_ham_partial`
* `Sb.Props.C96_other_words_ham`
* `Sb.Props.C96_score_partial`
* `Sb.Props.C96_claim_false`
* `Sb.Props.C97_side`
* `Sb.Props.C97_added_tokens`
* `Sb.Props.C97_score_can_drop`
* `Sb.Props.C98_name`
* `Sb.Props.C98_bytes`
* `Sb.Props.C98_str_partial`
* `Sb.Props.C98_not_a_token`
* `Sb.Props.C98_claim_false`
* `Sb.Props.C98_mixed`
* `Sb.Props.C98_counts`
* `Sb.Props.C99_one_type`
* `Sb.Props.C99_parts`
* `Sb.Props.C99_broken_type`
* `Sb.Props.C99_tokens`
* `Sb.Props.C99_with_options`
* `Sb.Props.C99_texts`
* `Sb.Props.C99_octets`
* `Sb.Props.C99_images`
* `Sb.Props.C99_type_tokens`
* `Sb.Props.C99_wrapped`
* `Sb.Props.C99_unparsed`
* `Sb.Props.C100_line_ends`
* `Sb.Props.C100_works_partial`
* `Sb.Props.C100_raises`
* `Sb.Props.C100_bytes`
* `Sb.Props.C100_claim_false`
* `Sb.Props.C100_headers_partial`
* `Sb.Props.C100_text`
* `Sb.Props.C100_from_after_cr`
* `Sb.Props.C100_parts_partial`
* `Sb.Props.C100_signed_partial`
* `Sb.Props.C100_headers_lost`
* `Sb.Props.C100_attached`
* `Sb.Props.C101_add`
* `Sb.Props.C101_remove`
* `Sb.Props.C101_own_headers_partial`
* `Sb.Props.C101_tokens_partial`
* `Sb.Props.C101_default`
* `Sb.Props.C101_claim_false`
* `Sb.Props.C101_counted_false`
* `Sb.Props.C102_counts_partial`
* `Sb.Props.C102_score_partial`
* `Sb.Props.C102_same_order_partial`
* `Sb.Props.C102_same_order_score_partial`
* `Sb.Props.C102_round_trip_partial`
* `Sb.Props.C102_claim_false`
* `Sb.Props.C103_remembers_partial`
* `Sb.Props.C103_http_error`
* `Sb.Props.C103_claim_false`
* `Sb.Props.C103_success_raises`
* `Sb.Props.C103_cached_page`
* `Sb.Props.C103_apart`
* `Sb.Props.C103_http_text`
* `Sb.Props.C103_kinds`
* `Sb.Props.C103_only_base`
* `Sb.Props.C103_no_domain`
* `Sb.Props.C104_only_these`
* `Sb.Props.C104_order`
* `Sb.Props.C104_second`
* `Sb.Props.C104_all_matter`
* `Sb.Props.C105_counts`
* `Sb.Props.C105_score`
* `Sb.Props.C105_restart`
* `Sb.Props.C105_stored`
* `Sb.Props.C106_totals`
* `Sb.Props.C106_counts`
* `Sb.Props.C106_learn_undoes_unlearn_iff`
* `Sb.Props.C106_scores_iff`
* `Sb.Props.C106_one_mistake_partial`
* `Sb.Props.C106_claim_false`
* `Sb.Props.C106_one_mistake_breaks`
* `Sb.Props.C107_words`
* `Sb.Props.C107_counts`
* `Sb.Props.C107_plain_text`
* `Sb.Props.C108_absent_partial`
* `Sb.Props.C108_long_partial`
* `Sb.Props.C108_claim_false`
* `Sb.Props.C109_known`
* `Sb.Props.C109_stranger`
* `Sb.Props.C109_padding`
* `Sb.Props.C110_tokens_partial`
* `Sb.Props.C110_clues_partial`
* `Sb.Props.C110_one_sided_partial`
* `Sb.Props.C110_claim_false`
* `Sb.Props.C111_never_printed_partial`
* `Sb.Props.C111_raises_partial`
* `Sb.Props.C111_claim_false`
* `Sb.Props.C111_program_partial`
* `Sb.Props.C112_called_partial`
* `Sb.Props.C112_trained_partial`
* `Sb.Props.C112_claim_false`
* `Sb.Props.C113_survives_partial`
* `Sb.Props.C113_restart_partial`
* `Sb.Props.C113_http_error`
* `Sb.Props.C113_damaged`
* `Sb.Props.C113_afresh`
* `Sb.Props.C113_first`
* `Sb.Props.C113_switched_off`
* `Sb.Props.C113_claim_false`
* `Sb.Props.C114_forged`
* `Sb.Props.C114_refiltered_partial`
* `Sb.Props.C114_twice_partial`
* `Sb.Props.C114_determined`
* `Sb.Props.C114_written`
* `Sb.Props.C114_claim_false`
* `Sb.Props.C115_never_partial`
* `Sb.Props.C115_same_result`
* `Sb.Props.C115_claim_false`
* `Sb.Props.C116_marks_partial`
* `Sb.Props.C116_reread_partial`
* `Sb.Props.C116_trip_partial`
* `Sb.Props.C116_checked`
* `Sb.Props.C116_no_forgery`
* `Sb.Props.C116_raises`
* `Sb.Props.C116_claim_false`
* `Sb.Props.C116_headers_lost`
* `Sb.Props.C116_text`
* `Sb.Props.C116_names`
* `Sb.Props.C116_unixfrom`
* `Sb.Props.C117_seen_partial`
* `Sb.Props.C117_unseen`
* `Sb.Props.C117_forged`
* `Sb.Props.C117_claim_false`
* `Sb.Props.C118_typed_partial`
* `Sb.Props.C118_line_ends`
* `Sb.Props.C118_same_tokens_partial`
* `Sb.Props.C118_quoted`
* `Sb.Props.C118_broken`
* `Sb.Props.C118_folded`
* `Sb.Props.C118_claim_false`
* `Sb.Props.C119_raises`
* `Sb.Props.C119_training`
* `Sb.Props.C119_unread_partial`
* `Sb.Props.C119_claim_false`
* `Sb.Props.C120_delivered_partial`
* `Sb.Props.C120_claim_false`
* `Sb.Props.C120_parts_partial`
* `Sb.Props.C121_shared_partial`
* `Sb.Props.C121_same_provider_partial`
* `Sb.Props.C121_claim_false`
* `Sb.Props.C121_ipv4_partial`
* `Sb.Props.C121_families`
* `Sb.Props.C121_format`
* `Sb.Props.C122_parts_partial`
* `Sb.Props.C122_claim_false`
* `Sb.Props.C122_trip_partial`
* `Sb.Props.C122_uncut_partial`
* `Sb.Props.C123_same_tokens_partial`
* `Sb.Props.C123_claim_false`
* `Sb.Props.C123_trip_partial`
* `Sb.Props.C124_ended`
* `Sb.Props.C124_double`
* `Sb.Props.C124_read`
* `Sb.Props.C124_unseen`
* `Sb.Props.C124_missing_line`
* `Sb.Props.C124_no_headers`
* `Sb.Props.C124_from_last`
* `Sb.Props.C124_double_any`
* `Sb.Props.C124_plain`
* `Sb.Props.C125_crlf`
* `Sb.Props.C125_exact_partial`
* `Sb.Props.C125_lines`
* `Sb.Props.C125_unchanged_partial`
* `Sb.Props.C125_written`
* `Sb.Props.C125_same_partial`
* `Sb.Props.C125_claim_false`
* `Sb.Props.C126_lone_cr`
* `Sb.Props.C126_line_ends_partial`
* `Sb.Props.C126_message_partial`
* `Sb.Props.C127_stable_partial`
* `Sb.Props.C127_claim_false`
* `Sb.Props.C127_message_partial`
* `Sb.Props.C128_line_ends_partial`
* `Sb.Props.C128_claim_false`

## propext, Quot.sound

* `Sb.Props.C02_named_alias`
* `Sb.Props.C04_only_the_token_set`
* `Sb.Props.C05_unlearn_guard`
* `Sb.Props.C09_raising`
* `Sb.Props.C09_scoring_does_not_train`
* `Sb.Props.C22_unigram_same`
* `Sb.Props.C23_history`
* `Sb.Props.C23_outcomes`
* `Sb.Props.C26_claim_false`
* `Sb.Props.C26_next_store_destroys`
* `Sb.Props.C26_other_version`
* `Sb.Props.C26_load_outcome_partial`
* `Sb.Props.C27_unusable`
* `Sb.Props.C27_version`
* `Sb.Props.C34_any_file`
* `Sb.Props.C34_name_error`
* `Sb.Props.C46_unbounded_is_dict`
* `Sb.Props.C46_exact_partial`
* `Sb.Props.C51_untrain`
* `Sb.Props.C51_failed`
* `Sb.Props.C53_empty_start_diverges`
* `Sb.Props.C53_removes_sections`
* `Sb.Props.C53_nothing_to_strip`
* `Sb.Props.C54_words`
* `Sb.Props.C57_breakdown_host_ends`
* `Sb.Props.C57_breakdown_ipaddr`
* `Sb.Props.C57_breakdown_quad`
* `Sb.Props.C57_top_two`
* `Sb.Props.C58_head_unique`
* `Sb.Props.C60_nested_partial`
* `Sb.Props.C61_stable`
* `Sb.Props.C61_transparent`
* `Sb.Props.C61_evaluations`
* `Sb.Props.C62_never_works_partial`
* `Sb.Props.C62_training_error`
* `Sb.Props.C62_scoring_error`
* `Sb.Props.C70_learn`
* `Sb.Props.C70_unlearn`
* `Sb.Props.C70_words_untouched_partial`
* `Sb.Props.C77_tokens_are_bytes`
* `Sb.Props.C77_injective`
* `Sb.Props.C95_lists_agree`
* `Sb.Props.C103_same_key`
* `Sb.Props.C103_domain`
