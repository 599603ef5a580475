{
 "claims": [
  {
   "property": "C01",
   "status": "proved",
   "theorems": [
    "Sb.Props.C01_unlearn_undoes_learn"
   ],
   "note": "In-memory record storage, unigram and bigram mode, every pair of set iteration orders. Sane is the invariant of C05/C06."
  },
  {
   "property": "C02",
   "status": "proved",
   "theorems": [
    "Sb.Props.C02_counts_are_ledger",
    "Sb.Props.C02_training_does_not_raise",
    "Sb.Props.C02_named",
    "Sb.Props.C02_named_alias"
   ],
   "note": "Refinement of every valid history to the multiset of learned messages; no training call raises."
  },
  {
   "property": "C03",
   "status": "proved",
   "theorems": [
    "Sb.Props.C03_order_independent_scores",
    "Sb.Props.C03_order_independent_counts"
   ],
   "note": "Counts and scores."
  },
  {
   "property": "C04",
   "status": "proved",
   "theorems": [
    "Sb.Props.C04_only_the_token_set"
   ],
   "note": ""
  },
  {
   "property": "C05",
   "status": "proved",
   "theorems": [
    "Sb.Props.C05_unlearn_guard",
    "Sb.Props.C05_never_negative"
   ],
   "note": ""
  },
  {
   "property": "C06",
   "status": "proved",
   "theorems": [
    "Sb.Props.C06_no_dead_records",
    "Sb.Props.C06_last_occurrence_removed"
   ],
   "note": ""
  },
  {
   "property": "C07",
   "status": "proved",
   "theorems": [
    "Sb.Props.C07_counts_within_totals",
    "Sb.Props.C07_valid_history_scores",
    "Sb.Props.C07_valid_history_rounded",
    "Sb.Props.C07_invalid_history_raises"
   ],
   "note": "Exact arithmetic: never raises. Any monotone rounding: only the ValueError of log(0) after a product rounds to zero remains possible."
  },
  {
   "property": "C08",
   "status": "proved",
   "theorems": [
    "Sb.Props.C08_load_keeps_stale_cache",
    "Sb.Props.C08_cache_invisible",
    "Sb.Props.C08_probability_is_fresh"
   ],
   "note": "Histories of learn/unlearn/spamprob/probability; C08_load_keeps_stale_cache is the exception named in the statement."
  },
  {
   "property": "C09",
   "status": "proved",
   "theorems": [
    "Sb.Props.C09_raising",
    "Sb.Props.C09_scoring_does_not_train"
   ],
   "note": ""
  },
  {
   "property": "C10",
   "status": "proved",
   "theorems": [
    "Sb.Props.C10_exact_formula",
    "Sb.Props.C10_rounded_bounds",
    "Sb.Props.C10_raises_iff"
   ],
   "note": ""
  },
  {
   "property": "C11",
   "status": "proved",
   "theorems": [
    "Sb.Props.C11_odd_raises",
    "Sb.Props.C11_rounded_bounds",
    "Sb.Props.C11_exact_value",
    "Sb.Props.C11_exact_monotone"
   ],
   "note": ""
  },
  {
   "property": "C12",
   "status": "proved",
   "theorems": [
    "Sb.Props.C12_score_bounds"
   ],
   "note": "Any field, any monotone rounding with the laws FloatOps.Sound (met by exact reals and by 53-bit rounding)."
  },
  {
   "property": "C13",
   "status": "proved",
   "theorems": [
    "Sb.Props.C13_score_formula"
   ],
   "note": ""
  },
  {
   "property": "C14",
   "status": "proved",
   "theorems": [
    "Sb.Props.C14_only_the_token_set",
    "Sb.Props.C14_same_errors"
   ],
   "note": ""
  },
  {
   "property": "C15",
   "status": "proved",
   "theorems": [
    "Sb.Props.C15_no_evidence",
    "Sb.Props.C15_neutral_tokens_inert"
   ],
   "note": "Unigram mode."
  },
  {
   "property": "C16",
   "status": "proved",
   "theorems": [
    "Sb.Props.C16_monotone"
   ],
   "note": ""
  },
  {
   "property": "C17",
   "status": "proved",
   "theorems": [
    "Sb.Props.C17_mirror",
    "Sb.Props.C17_fails_beyond_150"
   ],
   "note": "With the counterexample beyond 150 clue tokens."
  },
  {
   "property": "C18",
   "status": "proved",
   "theorems": [
    "Sb.Props.C18_clue_selection",
    "Sb.Props.C18_all_used"
   ],
   "note": "Unigram mode; C20 is the bigram counterpart."
  },
  {
   "property": "C19",
   "status": "proved",
   "theorems": [
    "Sb.Props.C19_same_probability",
    "Sb.Props.C19_evidence"
   ],
   "note": ""
  },
  {
   "property": "C20",
   "status": "proved",
   "theorems": [
    "Sb.Props.C20_tiling"
   ],
   "note": ""
  },
  {
   "property": "C21",
   "status": "partial",
   "theorems": [
    "Sb.Props.C21_bigram_training_partial",
    "Sb.Props.C21_claim_false",
    "Sb.Props.C21_last_token_lost"
   ],
   "note": "The documented claim is refuted (C21_claim_false, C21_last_token_lost); what is trained is characterised exactly."
  },
  {
   "property": "C22",
   "status": "partial",
   "theorems": [
    "Sb.Props.C22_iterator_training_partial",
    "Sb.Props.C22_claim_false",
    "Sb.Props.C22_unigram_same"
   ],
   "note": "True in unigram mode; refuted in bigram mode (C22_claim_false), where the trained tokens are characterised by position."
  },
  {
   "property": "C23",
   "status": "proved",
   "theorems": [
    "Sb.Props.C23_pickle_round_trip",
    "Sb.Props.C23_history",
    "Sb.Props.C23_outcomes"
   ],
   "note": "For any pickle codec whose decoding inverts its encoding; also for histories with stores, loads and reopenings."
  },
  {
   "property": "C24",
   "status": "partial",
   "theorems": [
    "Sb.Props.C24_crash_safe_rename_partial",
    "Sb.Props.C24_one_store_partial",
    "Sb.Props.C24_claim_false_copy",
    "Sb.Props.C24_dead_owner_blocks"
   ],
   "note": "Holds at every point of every run if the move is a rename; refuted if it is a copy (C24_claim_false_copy). C24_dead_owner_blocks: the lock left behind blocks every later call."
  },
  {
   "property": "C25",
   "status": "proved",
   "theorems": [
    "Sb.Props.C25_no_tearing",
    "Sb.Props.C25_mutual_exclusion",
    "Sb.Props.C25_failed_copy_tears"
   ],
   "note": "Transition system over any number of processes, crashes included. C25_failed_copy_tears is the exception named in the statement."
  },
  {
   "property": "C26",
   "status": "partial",
   "theorems": [
    "Sb.Props.C26_claim_false",
    "Sb.Props.C26_next_store_destroys",
    "Sb.Props.C26_other_version",
    "Sb.Props.C26_load_outcome_partial"
   ],
   "note": "Refuted (C26_claim_false, C26_next_store_destroys); C26_load_outcome_partial says exactly what load does."
  },
  {
   "property": "C27",
   "status": "partial",
   "theorems": [
    "Sb.Props.C27_counts_survive_partial",
    "Sb.Props.C27_unusable",
    "Sb.Props.C27_claim_false",
    "Sb.Props.C27_version"
   ],
   "note": "Refuted (C27_claim_false, C27_unusable); the counts survive."
  },
  {
   "property": "C28",
   "status": "proved",
   "theorems": [
    "Sb.Props.C28_shelve_is_classifier"
   ],
   "note": "Histories also include probability and store-and-reopen."
  },
  {
   "property": "C29",
   "status": "proved",
   "theorems": [
    "Sb.Props.C29_store_reopen",
    "Sb.Props.C29_wordinfokeys"
   ],
   "note": ""
  },
  {
   "property": "C30",
   "status": "partial",
   "theorems": [
    "Sb.Props.C30_file_partial",
    "Sb.Props.C30_moment_partial",
    "Sb.Props.C30_scores_iff_partial",
    "Sb.Props.C30_stored_partial",
    "Sb.Props.C30_crash_without_unlearn_partial",
    "Sb.Props.C30_crash_between_calls_partial",
    "Sb.Props.C30_claim_false"
   ],
   "note": "Holds at every crash point of histories without unlearn; refuted with unlearn (C30_claim_false). The contents of the file at every moment, and what can be scored from it, are given exactly for all histories (C30_file, C30_moment, C30_scores_iff, C30_stored)."
  },
  {
   "property": "C31",
   "status": "partial",
   "theorems": [
    "Sb.Props.C31_other_tokens_partial",
    "Sb.Props.C31_state_key_raises",
    "Sb.Props.C31_claim_false"
   ],
   "note": "Refuted for the state key (C31_claim_false, C31_state_key_raises); true for every other token."
  },
  {
   "property": "C32",
   "status": "partial",
   "theorems": [
    "Sb.Props.C32_iteration_partial",
    "Sb.Props.C32_non_ascii_cut",
    "Sb.Props.C32_claim_false"
   ],
   "note": "Holds for ASCII items on any file; refuted beyond ASCII (C32_claim_false, C32_non_ascii_cut)."
  },
  {
   "property": "C33",
   "status": "partial",
   "theorems": [
    "Sb.Props.C33_search_by_content_partial",
    "Sb.Props.C33_getitem_by_content_partial",
    "Sb.Props.C33_str_lookup_fails",
    "Sb.Props.C33_bytes_lookup_fails",
    "Sb.Props.C33_claim_false",
    "Sb.Props.C33_hash",
    "Sb.Props.C33_insert_finds_free_slot"
   ],
   "note": "The probing is correct for keys compared by content, duplicates and collisions included; refuted for the code as it is (C33_claim_false, C33_str_lookup_fails, C33_bytes_lookup_fails)."
  },
  {
   "property": "C34",
   "status": "partial",
   "theorems": [
    "Sb.Props.C34_any_file",
    "Sb.Props.C34_counts_exchanged_partial",
    "Sb.Props.C34_twice_is_identity_partial",
    "Sb.Props.C34_name_error",
    "Sb.Props.C34_claim_false"
   ],
   "note": "Refuted (C34_claim_false, C34_name_error); with a working cdb module totals survive and word counts are exchanged. C34_any_file: what the constructor does with any file, well formed or not (values of ASCII without white space, plus sign and underscore)."
  },
  {
   "property": "C35",
   "status": "proved",
   "theorems": [
    "Sb.Props.C35_accepted",
    "Sb.Props.C35_rejected",
    "Sb.Props.C35_from_payload",
    "Sb.Props.C35_write_once",
    "Sb.Props.C35_never_reserved",
    "Sb.Props.C35_empty_id_replaced"
   ],
   "note": ""
  },
  {
   "property": "C36",
   "status": "proved",
   "theorems": [
    "Sb.Props.C36_thresholds",
    "Sb.Props.C36_monotone",
    "Sb.Props.C36_other_arguments",
    "Sb.Props.C36_is_unsure"
   ],
   "note": "NaN and the two cutoffs are the exceptions to the agreement with is_unsure."
  },
  {
   "property": "C37",
   "status": "partial",
   "theorems": [
    "Sb.Props.C37_trustworthy_partial",
    "Sb.Props.C37_own_header_wins",
    "Sb.Props.C37_claim_false",
    "Sb.Props.C37_after_remove"
   ],
   "note": "Refuted for a message that arrives with the header (C37_claim_false, C37_own_header_wins); holds otherwise and after remove_sb_headers."
  },
  {
   "property": "C38",
   "status": "proved",
   "theorems": [
    "Sb.Props.C38_removes_exactly",
    "Sb.Props.C38_raises",
    "Sb.Props.C38_raw_subject_raises"
   ],
   "note": "With exactly when it raises: only for header values that are Header objects (C38_raises, C38_raw_subject_raises)."
  },
  {
   "property": "C39",
   "status": "partial",
   "theorems": [
    "Sb.Props.C39_roundtrip_partial",
    "Sb.Props.C39_roundtrip_iff_partial",
    "Sb.Props.C39_claim_false",
    "Sb.Props.C39_created_header",
    "Sb.Props.C39_raw_subject_damaged",
    "Sb.Props.C39_string_notations"
   ],
   "note": "Refuted (C39_claim_false, C39_raw_subject_damaged, C39_string_notations); holds exactly under the conditions in C39_roundtrip_iff_partial."
  },
  {
   "property": "C40",
   "status": "partial",
   "theorems": [
    "Sb.Props.C40_exact",
    "Sb.Props.C40_equal_flags_partial",
    "Sb.Props.C40_claim_false"
   ],
   "note": "Refuted (C40_claim_false); exact effect in C40_exact."
  },
  {
   "property": "C41",
   "status": "proved",
   "theorems": [
    "Sb.Props.C41_evidence",
    "Sb.Props.C41_default_cutoff"
   ],
   "note": "For any rendering of words and numbers (parameter Fmt)."
  },
  {
   "property": "C42",
   "status": "partial",
   "theorems": [
    "Sb.Props.C42_bound_partial",
    "Sb.Props.C42_claim_false"
   ],
   "note": "Refuted (C42_claim_false); the bound that does hold is C42_bound_partial."
  },
  {
   "property": "C43",
   "status": "proved",
   "theorems": [
    "Sb.Props.C43_same_lines",
    "Sb.Props.C43_idempotent",
    "Sb.Props.C43_crlf_only",
    "Sb.Props.C43_unchanged"
   ],
   "note": ""
  },
  {
   "property": "C44",
   "status": "proved",
   "theorems": [
    "Sb.Props.C44_body_kept",
    "Sb.Props.C44_headers_only",
    "Sb.Props.C44_headers_fall_into_body",
    "Sb.Props.C44_no_header_block"
   ],
   "note": "Includes the two kinds of messages whose added headers end up in the body (C44_headers_fall_into_body, C44_no_header_block)."
  },
  {
   "property": "C45",
   "status": "proved",
   "theorems": [
    "Sb.Props.C45_bounded"
   ],
   "note": ""
  },
  {
   "property": "C46",
   "status": "partial",
   "theorems": [
    "Sb.Props.C46_fifo_partial",
    "Sb.Props.C46_last_n_partial",
    "Sb.Props.C46_unbounded_is_dict",
    "Sb.Props.C46_put_get",
    "Sb.Props.C46_claim_false",
    "Sb.Props.C46_evicts_early",
    "Sb.Props.C46_exact_partial"
   ],
   "note": "Refuted for repeated keys (C46_claim_false, C46_evicts_early); first-in first-out proved for fresh keys, a dictionary for unbounded caches, exactly when a key just put is missing (C46_put_get), and the exact contents for every sequence of calls (C46_exact_partial)."
  },
  {
   "property": "C47",
   "status": "partial",
   "theorems": [
    "Sb.Props.C47_bounded_partial",
    "Sb.Props.C47_empty_replaced",
    "Sb.Props.C47_claim_false"
   ],
   "note": "Refuted for an empty cache (C47_claim_false); C47_empty_replaced says what happens, C47_bounded_partial covers the others."
  },
  {
   "property": "C48",
   "status": "proved",
   "theorems": [
    "Sb.Props.C48_observers_cannot_disturb",
    "Sb.Props.C48_signal_after_change",
    "Sb.Props.C48_each_once",
    "Sb.Props.C48_get"
   ],
   "note": "Observers are arbitrary effects on the state of the user that may raise; they do not change corpora themselves."
  },
  {
   "property": "C49",
   "status": "partial",
   "theorems": [
    "Sb.Props.C49_written_partial",
    "Sb.Props.C49_rejected",
    "Sb.Props.C49_kept_partial",
    "Sb.Props.C49_empty_directory",
    "Sb.Props.C49_exact_partial",
    "Sb.Props.C49_claim_false",
    "Sb.Props.C49_evicted",
    "Sb.Props.C49_files_partial"
   ],
   "note": "Refuted (C49_claim_false, C49_evicted); proved: right after adding, within cache_size for all histories, and exactly what is in every file for every history with any cache_size (C49_files_partial; for histories without repeated names as a queue, C49_exact_partial); nothing is ever written when the directory had no message."
  },
  {
   "property": "C50",
   "status": "partial",
   "theorems": [
    "Sb.Props.C50_at_construction_partial",
    "Sb.Props.C50_constant",
    "Sb.Props.C50_claim_false"
   ],
   "note": "Refuted (C50_claim_false); right at construction, constant afterwards."
  },
  {
   "property": "C51",
   "status": "partial",
   "theorems": [
    "Sb.Props.C51_no_key",
    "Sb.Props.C51_trains_on_removal",
    "Sb.Props.C51_claim_false",
    "Sb.Props.C51_untrain",
    "Sb.Props.C51_failed",
    "Sb.Props.C51_trainers_partial",
    "Sb.Props.C51_moved_partial"
   ],
   "note": "Refuted (C51_claim_false); proved what each event does, with and without a method key on messages, with one trainer and with any number of them (C51_trainers_partial; C51_moved_partial for a message moved from spam to ham)."
  },
  {
   "property": "C52",
   "status": "partial",
   "theorems": [
    "Sb.Props.C52_not_due_partial",
    "Sb.Props.C52_no_timestamp",
    "Sb.Props.C52_timestamps",
    "Sb.Props.C52_claim_false",
    "Sb.Props.C52_construction"
   ],
   "note": "Refuted (C52_claim_false); exact behaviour proved for due and not due, with and without creation times."
  },
  {
   "property": "C53",
   "status": "proved",
   "theorems": [
    "Sb.Props.C53_terminates",
    "Sb.Props.C53_empty_start_diverges",
    "Sb.Props.C53_removes_sections",
    "Sb.Props.C53_nothing_to_strip",
    "Sb.Props.C53_strippers"
   ],
   "note": "For all matchers that keep the contract and for the five strippers of the module; the uuencode stripper raises TypeError on every begin line (C53_strippers)."
  },
  {
   "property": "C54",
   "status": "partial",
   "theorems": [
    "Sb.Props.C54_words",
    "Sb.Props.C54_digits",
    "Sb.Props.C54_claim_false",
    "Sb.Props.C54_text_partial",
    "Sb.Props.C54_raises_partial",
    "Sb.Props.C54_iff_partial",
    "Sb.Props.C54_str_partial"
   ],
   "note": "Refuted (C54_claim_false); exact tokens and exactly when it raises, for bytes and str."
  },
  {
   "property": "C55",
   "status": "partial",
   "theorems": [
    "Sb.Props.C55_claim_false",
    "Sb.Props.C55_body_partial",
    "Sb.Props.C55_stripped",
    "Sb.Props.C55_text_partial",
    "Sb.Props.C55_left"
   ],
   "note": "Refuted (C55_claim_false); exactly when a body can be tokenized, and its tokens."
  },
  {
   "property": "C56",
   "status": "proved",
   "theorems": [
    "Sb.Props.C56_header_tokens",
    "Sb.Props.C56_one_token",
    "Sb.Props.C56_noheader"
   ],
   "note": "About all header lists and both options."
  },
  {
   "property": "C57",
   "status": "proved",
   "theorems": [
    "Sb.Props.C57_breakdown_host",
    "Sb.Props.C57_breakdown_host_ends",
    "Sb.Props.C57_breakdown_ipaddr",
    "Sb.Props.C57_breakdown_quad",
    "Sb.Props.C57_top_two"
   ],
   "note": ""
  },
  {
   "property": "C58",
   "status": "proved",
   "theorems": [
    "Sb.Props.C58_head_unique",
    "Sb.Props.C58_terminates",
    "Sb.Props.C58_repair"
   ],
   "note": "The base64 decoder is a parameter; C58_repair shows that a successful repair raises TypeError."
  },
  {
   "property": "C59",
   "status": "proved",
   "theorems": [
    "Sb.Props.C59_format",
    "Sb.Props.C59_shared",
    "Sb.Props.C59_prefix_lengths_ignored"
   ],
   "note": "IPv4."
  },
  {
   "property": "C60",
   "status": "partial",
   "theorems": [
    "Sb.Props.C60_sequential",
    "Sb.Props.C60_lookups",
    "Sb.Props.C60_nested_partial",
    "Sb.Props.C60_overlap",
    "Sb.Props.C60_claim_false",
    "Sb.Props.C60_bounded",
    "Sb.Props.C60_changed_for_good"
   ],
   "note": "Restored by every call that runs alone and by nested calls (C60_sequential, C60_nested_partial); refuted for overlapping calls (C60_claim_false, C60_overlap, C60_changed_for_good)."
  },
  {
   "property": "C61",
   "status": "proved",
   "theorems": [
    "Sb.Props.C61_stable",
    "Sb.Props.C61_transparent",
    "Sb.Props.C61_evaluations"
   ],
   "note": ""
  },
  {
   "property": "C62",
   "status": "partial",
   "theorems": [
    "Sb.Props.C62_claim_false",
    "Sb.Props.C62_never_works_partial",
    "Sb.Props.C62_training_error",
    "Sb.Props.C62_scoring_error"
   ],
   "note": "Refuted (C62_claim_false); proved that every call of every history raises and that nothing is ever counted."
  },
  {
   "property": "C63",
   "status": "partial",
   "theorems": [
    "Sb.Props.C63_attributes_partial",
    "Sb.Props.C63_headers_lost",
    "Sb.Props.C63_claim_false"
   ],
   "note": "Refuted (C63_claim_false, C63_headers_lost); the three attributes survive."
  },
  {
   "property": "C64",
   "status": "proved",
   "theorems": [
    "Sb.Props.C64_saved_headers_restore"
   ],
   "note": ""
  },
  {
   "property": "C65",
   "status": "proved",
   "theorems": [
    "Sb.Props.C65_score",
    "Sb.Props.C65_level",
    "Sb.Props.C65_level_range"
   ],
   "note": ""
  },
  {
   "property": "C66",
   "status": "proved",
   "theorems": [
    "Sb.Props.C66_only_what_is_asked"
   ],
   "note": ""
  },
  {
   "property": "C67",
   "status": "partial",
   "theorems": [
    "Sb.Props.C67_read_not_removable",
    "Sb.Props.C67_values_removable_partial",
    "Sb.Props.C67_claim_false"
   ],
   "note": "Refuted (C67_claim_false); C67_read_not_removable is the exact behaviour, the messages of values() can be removed."
  },
  {
   "property": "C68",
   "status": "partial",
   "theorems": [
    "Sb.Props.C68_confined_partial",
    "Sb.Props.C68_directories",
    "Sb.Props.C68_claim_false",
    "Sb.Props.C68_exact_partial",
    "Sb.Props.C68_untouched_partial"
   ],
   "note": "Refuted (C68_claim_false); proved for proper names (C68_confined_partial); C68_exact_partial says what is at every path after every history with any names, C68_untouched_partial which paths are safe."
  },
  {
   "property": "C69",
   "status": "partial",
   "theorems": [
    "Sb.Props.C69_mapping_partial",
    "Sb.Props.C69_claim_false",
    "Sb.Props.C69_file_partial"
   ],
   "note": "items() always raises, values() of files raises at a file with one of two names; everything else agrees."
  },
  {
   "property": "C70",
   "status": "partial",
   "theorems": [
    "Sb.Props.C70_learn",
    "Sb.Props.C70_unlearn",
    "Sb.Props.C70_words_untouched_partial",
    "Sb.Props.C70_claim_false"
   ],
   "note": "Refuted (C70_claim_false); exact effect proved."
  },
  {
   "property": "C71",
   "status": "partial",
   "theorems": [
    "Sb.Props.C71_claim_false",
    "Sb.Props.C71_exact_partial",
    "Sb.Props.C71_timeout"
   ],
   "note": "Refuted (C71_claim_false); C71_exact_partial gives the outcome in every case."
  },
  {
   "property": "C72",
   "status": "proved",
   "theorems": [
    "Sb.Props.C72_base_url"
   ],
   "note": "About the function itself; its only caller (l.286, option off by default) omits an argument and would raise TypeError."
  },
  {
   "property": "C73",
   "status": "partial",
   "theorems": [
    "Sb.Props.C73_urls_partial",
    "Sb.Props.C73_claim_false",
    "Sb.Props.C73_repeated_partial"
   ],
   "note": "Refuted for comments (C73_claim_false); holds for URLs (C73_urls_partial) and after repetition (C73_repeated_partial)."
  },
  {
   "property": "C74",
   "status": "partial",
   "theorems": [
    "Sb.Props.C74_tokens",
    "Sb.Props.C74_claim_false",
    "Sb.Props.C74_trailing_partial"
   ],
   "note": "Refuted (C74_claim_false); exact tokens proved."
  },
  {
   "property": "C75",
   "status": "partial",
   "theorems": [
    "Sb.Props.C75_message_partial",
    "Sb.Props.C75_undecoded_partial",
    "Sb.Props.C75_claim_false"
   ],
   "note": "Refuted (C75_claim_false); C75_message_partial says exactly which messages can be tokenized."
  },
  {
   "property": "C76",
   "status": "partial",
   "theorems": [
    "Sb.Props.C76_filename_partial",
    "Sb.Props.C76_claim_false"
   ],
   "note": "Refuted (C76_claim_false); exact tokens proved."
  },
  {
   "property": "C77",
   "status": "proved",
   "theorems": [
    "Sb.Props.C77_tokens_are_bytes",
    "Sb.Props.C77_injective"
   ],
   "note": ""
  },
  {
   "property": "C78",
   "status": "proved",
   "theorems": [
    "Sb.Props.C78_order"
   ],
   "note": ""
  },
  {
   "property": "C79",
   "status": "proved",
   "theorems": [
    "Sb.Props.C79_message_id"
   ],
   "note": ""
  },
  {
   "property": "C80",
   "status": "proved",
   "theorems": [
    "Sb.Props.C80_determined",
    "Sb.Props.C80_virus_tokens",
    "Sb.Props.C80_shown",
    "Sb.Props.C80_some_iff"
   ],
   "note": "C80_determined: the description of the clues leaves no choice."
  },
  {
   "property": "C81",
   "status": "proved",
   "theorems": [
    "Sb.Props.C81_subject",
    "Sb.Props.C81_pieces",
    "Sb.Props.C81_addresses",
    "Sb.Props.C81_recipients",
    "Sb.Props.C81_mailer",
    "Sb.Props.C81_order"
   ],
   "note": "Through the views of the email package described in DESIGN.md; the rounding of log2 is a parameter."
  },
  {
   "property": "C82",
   "status": "partial",
   "theorems": [
    "Sb.Props.C82_tie_partial",
    "Sb.Props.C82_no_tie",
    "Sb.Props.C82_one_kind",
    "Sb.Props.C82_state",
    "Sb.Props.C82_first_message",
    "Sb.Props.C82_claim_false"
   ],
   "note": "Refuted (C82_claim_false, C82_first_message); C82_tie_partial says exactly when scoring raises, for every comparison sort."
  },
  {
   "property": "C83",
   "status": "partial",
   "theorems": [
    "Sb.Props.C83_bytes_partial",
    "Sb.Props.C83_one_bad_token",
    "Sb.Props.C83_surrogates",
    "Sb.Props.C83_str_like_memory",
    "Sb.Props.C83_keys_faithful",
    "Sb.Props.C83_claim_false"
   ],
   "note": "Refuted (C83_claim_false); C83_bytes_partial gives the exact effect in every reachable state; str tokens work like in memory (C83_str_like_memory)."
  },
  {
   "property": "C84",
   "status": "proved",
   "theorems": [
    "Sb.Props.C84_sections",
    "Sb.Props.C84_urls",
    "Sb.Props.C84_total"
   ],
   "note": ""
  },
  {
   "property": "C85",
   "status": "partial",
   "theorems": [
    "Sb.Props.C85_call_ignores",
    "Sb.Props.C85_lines_unused",
    "Sb.Props.C85_only_partial",
    "Sb.Props.C85_both_partial",
    "Sb.Props.C85_never_skipped",
    "Sb.Props.C85_claim_false"
   ],
   "note": "Refuted (C85_claim_false); C85_only_partial and C85_both_partial give the tokens of tokenize_headers itself."
  },
  {
   "property": "C86",
   "status": "proved",
   "theorems": [
    "Sb.Props.C86_each",
    "Sb.Props.C86_reduced",
    "Sb.Props.C86_raises"
   ],
   "note": "C86_raises: a raw 8-bit header of the mark that cannot be compared raises."
  },
  {
   "property": "C87",
   "status": "proved",
   "theorems": [
    "Sb.Props.C87_commonprefix",
    "Sb.Props.C87_prefixes",
    "Sb.Props.C87_suffixes",
    "Sb.Props.C87_order"
   ],
   "note": "getaddresses and str.lower are parameters."
  },
  {
   "property": "C88",
   "status": "proved",
   "theorems": [
    "Sb.Props.C88_received",
    "Sb.Props.C88_headers"
   ],
   "note": "Under PlainClasses: white space, digits and letters of the str patterns do not overlap."
  },
  {
   "property": "C89",
   "status": "partial",
   "theorems": [
    "Sb.Props.C89_text_partial",
    "Sb.Props.C89_raises_partial",
    "Sb.Props.C89_claim_false"
   ],
   "note": "Refuted (C89_claim_false); C89_text_partial gives the exact tokens, C89_raises_partial the exception."
  },
  {
   "property": "C90",
   "status": "partial",
   "theorems": [
    "Sb.Props.C90_defaults",
    "Sb.Props.C90_body_partial",
    "Sb.Props.C90_additive",
    "Sb.Props.C90_stops_partial",
    "Sb.Props.C90_images_partial",
    "Sb.Props.C90_claim_false",
    "Sb.Props.C90_order"
   ],
   "note": "Refuted (C90_claim_false); C90_stops_partial says exactly when a message can be tokenized, C90_additive that only tokens are added."
  },
  {
   "property": "C91",
   "status": "partial",
   "theorems": [
    "Sb.Props.C91_body_partial",
    "Sb.Props.C91_same",
    "Sb.Props.C91_never",
    "Sb.Props.C91_claim_false"
   ],
   "note": "Refuted (C91_claim_false, C91_never); C91_body_partial gives the exact tokens."
  },
  {
   "property": "C92",
   "status": "proved",
   "theorems": [
    "Sb.Props.C92_probability",
    "Sb.Props.C92_score",
    "Sb.Props.C92_returns",
    "Sb.Props.C92_limit",
    "Sb.Props.C92_nearest"
   ],
   "note": "The platform is a parameter (Sound and Double); binary64 with round to nearest even and gradual underflow is shown to be one. Overflow is not modelled. C92_nearest: the platform float64 rounds to the nearest double, ties to even."
  },
  {
   "property": "C93",
   "status": "partial",
   "theorems": [
    "Sb.Props.C93_file_partial",
    "Sb.Props.C93_claim_false",
    "Sb.Props.C93_nothing_lost_partial",
    "Sb.Props.C93_monotone_partial",
    "Sb.Props.C93_sessions_partial"
   ],
   "note": "Refuted (C93_claim_false): a lost update. C93_file_partial says exactly what is in the file after any schedule; C93_nothing_lost_partial and C93_monotone_partial: without overlaps the claim holds; C93_sessions_partial: serial sessions."
  },
  {
   "property": "C94",
   "status": "partial",
   "theorems": [
    "Sb.Props.C94_scan_partial",
    "Sb.Props.C94_raises_partial",
    "Sb.Props.C94_claim_false",
    "Sb.Props.C94_same",
    "Sb.Props.C94_body_partial"
   ],
   "note": "Refuted (C94_claim_false); C94_scan_partial says exactly what the stripper does with every text, C94_same when that is what it does without the option, C94_body_partial what it means for a message."
  },
  {
   "property": "C95",
   "status": "partial",
   "theorems": [
    "Sb.Props.C95_lists_agree",
    "Sb.Props.C95_any_file",
    "Sb.Props.C95_truncated_partial",
    "Sb.Props.C95_records_before_cut",
    "Sb.Props.C95_noticed_iff",
    "Sb.Props.C95_claim_false",
    "Sb.Props.C95_unfinished_reads_empty",
    "Sb.Props.C95_unfinished_no_items",
    "Sb.Props.C95_header_is_last"
   ],
   "note": "Refuted (C95_claim_false, C95_unfinished_reads_empty); C95_truncated_partial says exactly what reading a cut file gives, C95_noticed_iff which cuts are noticed, C95_records_before_cut what is unharmed."
  },
  {
   "property": "C96",
   "status": "partial",
   "theorems": [
    "Sb.Props.C96_own_words_partial",
    "Sb.Props.C96_other_words",
    "Sb.Props.C96_own_words_ham_partial",
    "Sb.Props.C96_other_words_ham",
    "Sb.Props.C96_score_partial",
    "Sb.Props.C96_claim_false"
   ],
   "note": "Refuted (C96_claim_false). C96_own_words_partial and C96_own_words_ham_partial hold up to the sharp bound of 11 to 1; C96_other_words and C96_other_words_ham hold always; C96_score_partial is the score level."
  },
  {
   "property": "C97",
   "status": "proved",
   "theorems": [
    "Sb.Props.C97_side",
    "Sb.Props.C97_added_tokens",
    "Sb.Props.C97_score_can_drop"
   ],
   "note": "C97_side and C97_added_tokens; C97_score_can_drop shows that nothing more can be said about the score itself."
  },
  {
   "property": "C98",
   "status": "partial",
   "theorems": [
    "Sb.Props.C98_name",
    "Sb.Props.C98_bytes",
    "Sb.Props.C98_str_partial",
    "Sb.Props.C98_not_a_token",
    "Sb.Props.C98_claim_false",
    "Sb.Props.C98_mixed",
    "Sb.Props.C98_counts"
   ],
   "note": "Refuted for str tokens with spaces (C98_claim_false) and mixed kinds (C98_mixed); C98_bytes, C98_str_partial, C98_not_a_token and C98_counts are what holds."
  },
  {
   "property": "C99",
   "status": "proved",
   "theorems": [
    "Sb.Props.C99_one_type",
    "Sb.Props.C99_parts",
    "Sb.Props.C99_broken_type",
    "Sb.Props.C99_tokens",
    "Sb.Props.C99_with_options",
    "Sb.Props.C99_texts",
    "Sb.Props.C99_octets",
    "Sb.Props.C99_images",
    "Sb.Props.C99_type_tokens",
    "Sb.Props.C99_wrapped",
    "Sb.Props.C99_unparsed"
   ],
   "note": "C99_parts and C99_tokens (C99_with_options) in general; C99_wrapped, C99_broken_type and C99_unparsed are consequences."
  },
  {
   "property": "C100",
   "status": "partial",
   "theorems": [
    "Sb.Props.C100_line_ends",
    "Sb.Props.C100_works_partial",
    "Sb.Props.C100_raises",
    "Sb.Props.C100_bytes",
    "Sb.Props.C100_claim_false",
    "Sb.Props.C100_headers_partial",
    "Sb.Props.C100_text",
    "Sb.Props.C100_from_after_cr",
    "Sb.Props.C100_parts_partial",
    "Sb.Props.C100_signed_partial",
    "Sb.Props.C100_headers_lost",
    "Sb.Props.C100_attached"
   ],
   "note": "The code violates the claim: C100_claim_false (C100_raises says for which types), C100_from_after_cr, C100_headers_lost. Proved for all messages: C100_line_ends; for all parsed messages without a text of that type: C100_works_partial, C100_headers_partial, C100_parts_partial, C100_signed_partial; C100_text gives the lines of a text message exactly."
  },
  {
   "property": "C101",
   "status": "partial",
   "theorems": [
    "Sb.Props.C101_add",
    "Sb.Props.C101_remove",
    "Sb.Props.C101_own_headers_partial",
    "Sb.Props.C101_tokens_partial",
    "Sb.Props.C101_default",
    "Sb.Props.C101_claim_false",
    "Sb.Props.C101_counted_false"
   ],
   "note": "The code violates the claim: C101_claim_false (a notation in the subject), C101_counted_false (COUNT_ALL_HEADER_LINES). Proved for all messages without these two: C101_own_headers_partial, C101_tokens_partial, C101_default; C101_add and C101_remove say that no other header changes."
  },
  {
   "property": "C102",
   "status": "partial",
   "theorems": [
    "Sb.Props.C102_counts_partial",
    "Sb.Props.C102_score_partial",
    "Sb.Props.C102_same_order_partial",
    "Sb.Props.C102_same_order_score_partial",
    "Sb.Props.C102_round_trip_partial",
    "Sb.Props.C102_claim_false"
   ],
   "note": "The code violates the claim with bigrams: C102_claim_false. Proved without bigrams, for all sessions and messages: C102_counts_partial, C102_score_partial, C102_round_trip_partial; with bigrams, if the parts of a message are always visited in the same order: C102_same_order_partial, C102_same_order_score_partial."
  },
  {
   "property": "C103",
   "status": "partial",
   "theorems": [
    "Sb.Props.C103_remembers_partial",
    "Sb.Props.C103_http_error",
    "Sb.Props.C103_claim_false",
    "Sb.Props.C103_success_raises",
    "Sb.Props.C103_cached_page",
    "Sb.Props.C103_same_key",
    "Sb.Props.C103_apart",
    "Sb.Props.C103_domain",
    "Sb.Props.C103_http_text",
    "Sb.Props.C103_kinds",
    "Sb.Props.C103_only_base",
    "Sb.Props.C103_no_domain"
   ],
   "note": "The code violates the claim after a HTTP error (C103_claim_false, C103_http_error: the characters of the token are returned) and for every page that is fetched (C103_success_raises). Proved for all other answers and all calls in between: C103_remembers_partial; which token is returned: C103_kinds, C103_domain, C103_http_text. Also: cached pages, shared keys, pages never share tokens with mail."
  },
  {
   "property": "C104",
   "status": "proved",
   "theorems": [
    "Sb.Props.C104_only_these",
    "Sb.Props.C104_order",
    "Sb.Props.C104_second",
    "Sb.Props.C104_all_matter"
   ],
   "note": "For all options, headers and parts; the decoding of values by the email package is a parameter."
  },
  {
   "property": "C105",
   "status": "proved",
   "theorems": [
    "Sb.Props.C105_counts",
    "Sb.Props.C105_score",
    "Sb.Props.C105_restart",
    "Sb.Props.C105_stored"
   ],
   "note": "For all sessions with one client; several clients on one file: C93. COUNT_ALL_HEADER_LINES (default off) is left out because it counts SpamBayes headers (C101)."
  },
  {
   "property": "C106",
   "status": "partial",
   "theorems": [
    "Sb.Props.C106_totals",
    "Sb.Props.C106_counts",
    "Sb.Props.C106_learn_undoes_unlearn_iff",
    "Sb.Props.C106_scores_iff",
    "Sb.Props.C106_one_mistake_partial",
    "Sb.Props.C106_claim_false",
    "Sb.Props.C106_one_mistake_breaks"
   ],
   "note": "Refuted: C106_claim_false, C106_one_mistake_breaks. C106_totals and C106_counts give the numbers after any history, C106_scores_iff which messages can be scored (C106_one_mistake_partial after one mistake), C106_learn_undoes_unlearn_iff when learning again repairs it."
  },
  {
   "property": "C107",
   "status": "proved",
   "theorems": [
    "Sb.Props.C107_words",
    "Sb.Props.C107_counts",
    "Sb.Props.C107_plain_text"
   ],
   "note": "C107_words for one message, C107_counts for sessions, C107_plain_text for plain texts. Default options; without bigrams."
  },
  {
   "property": "C108",
   "status": "partial",
   "theorems": [
    "Sb.Props.C108_absent_partial",
    "Sb.Props.C108_long_partial",
    "Sb.Props.C108_claim_false"
   ],
   "note": "The code violates the claim: C108_claim_false. C108_absent_partial says exactly when a message has such a token, C108_long_partial which tokens cannot be feigned."
  },
  {
   "property": "C109",
   "status": "proved",
   "theorems": [
    "Sb.Props.C109_known",
    "Sb.Props.C109_stranger",
    "Sb.Props.C109_padding"
   ],
   "note": "C109_known is the general form; C109_padding (default options) and C109_stranger are special cases. Without bigrams."
  },
  {
   "property": "C110",
   "status": "partial",
   "theorems": [
    "Sb.Props.C110_tokens_partial",
    "Sb.Props.C110_clues_partial",
    "Sb.Props.C110_one_sided_partial",
    "Sb.Props.C110_claim_false"
   ],
   "note": "Refuted: C110_claim_false. C110_tokens_partial, C110_clues_partial and C110_one_sided_partial are what holds."
  },
  {
   "property": "C111",
   "status": "partial",
   "theorems": [
    "Sb.Props.C111_never_printed_partial",
    "Sb.Props.C111_raises_partial",
    "Sb.Props.C111_claim_false",
    "Sb.Props.C111_program_partial"
   ],
   "note": "Refuted: C111_claim_false. C111_never_printed_partial and C111_raises_partial say what happens in every history while the functions exist; C111_program_partial says what happens in the program as it is printed, where the second function has the name of the first, which is thereby gone."
  },
  {
   "property": "C112",
   "status": "partial",
   "theorems": [
    "Sb.Props.C112_called_partial",
    "Sb.Props.C112_trained_partial",
    "Sb.Props.C112_claim_false"
   ],
   "note": "Refuted: C112_claim_false. C112_called_partial says for every program which observers are called, C112_trained_partial what the classifier learns."
  },
  {
   "property": "C113",
   "status": "partial",
   "theorems": [
    "Sb.Props.C113_survives_partial",
    "Sb.Props.C113_restart_partial",
    "Sb.Props.C113_http_error",
    "Sb.Props.C113_damaged",
    "Sb.Props.C113_afresh",
    "Sb.Props.C113_first",
    "Sb.Props.C113_switched_off",
    "Sb.Props.C113_claim_false"
   ],
   "note": "Two processes on one directory violate the claim (C113_claim_false), and so do damaged files (C113_damaged) and exceptions (C113_switched_off). For one process, with any restarts and timeouts: C113_survives_partial, C113_restart_partial; after a HTTP error: C113_http_error; files that give OSError or ValueError: C113_afresh. About the code with the two faults of C62 taken out (the set-up of the page corpus, and the variable nobody assigns)."
  },
  {
   "property": "C114",
   "status": "partial",
   "theorems": [
    "Sb.Props.C114_forged",
    "Sb.Props.C114_refiltered_partial",
    "Sb.Props.C114_twice_partial",
    "Sb.Props.C114_determined",
    "Sb.Props.C114_written",
    "Sb.Props.C114_claim_false"
   ],
   "note": "Refuted for To or Subject headers that the filter has to create: C114_claim_false. C114_refiltered_partial and C114_twice_partial give the condition; C114_written says what is written; C114_forged and C114_determined hold without a condition (C114_determined: without bigrams and COUNT_ALL_HEADER_LINES, see C102 and C101)."
  },
  {
   "property": "C115",
   "status": "partial",
   "theorems": [
    "Sb.Props.C115_never_partial",
    "Sb.Props.C115_same_result",
    "Sb.Props.C115_claim_false"
   ],
   "note": "Refuted: C115_claim_false. C115_never_partial says what the variable holds after any texts, C115_same_result that text and tokens are those of URLStripper."
  },
  {
   "property": "C116",
   "status": "partial",
   "theorems": [
    "Sb.Props.C116_marks_partial",
    "Sb.Props.C116_reread_partial",
    "Sb.Props.C116_trip_partial",
    "Sb.Props.C116_checked",
    "Sb.Props.C116_no_forgery",
    "Sb.Props.C116_raises",
    "Sb.Props.C116_claim_false",
    "Sb.Props.C116_headers_lost",
    "Sb.Props.C116_text",
    "Sb.Props.C116_names",
    "Sb.Props.C116_unixfrom"
   ],
   "note": "Refuted: C116_claim_false, a header value with a vertical tab (or FF, FS, GS, RS) cannot be written (C116_raises), or hides the headers after it from readers (C116_headers_lost). C116_trip_partial proves the claim for all ASCII texts without these characters, C116_reread_partial for all headers whose lines are continued properly, C116_marks_partial for what add_sb_headers makes, C116_checked for versions of Python that check headers, C116_text what becomes of the body; C116_no_forgery holds for all ASCII values and versions. Values that are not ASCII are not covered."
  },
  {
   "property": "C117",
   "status": "partial",
   "theorems": [
    "Sb.Props.C117_seen_partial",
    "Sb.Props.C117_unseen",
    "Sb.Props.C117_forged",
    "Sb.Props.C117_claim_false"
   ],
   "note": "Refuted: C117_claim_false, a lone CR in the traceback makes the reader see a header that was made up (C117_forged). C117_seen_partial proves the claim for all tracebacks without one; C117_unseen: in a message without blank line nothing of what was added is seen as a header."
  },
  {
   "property": "C118",
   "status": "partial",
   "theorems": [
    "Sb.Props.C118_typed_partial",
    "Sb.Props.C118_line_ends",
    "Sb.Props.C118_same_tokens_partial",
    "Sb.Props.C118_quoted",
    "Sb.Props.C118_broken",
    "Sb.Props.C118_folded",
    "Sb.Props.C118_claim_false"
   ],
   "note": "Refuted: C118_claim_false; C118_quoted (a line that begins with \"From \"), C118_folded (a long subject) and C118_broken (a \"<script\" over two lines) are the three ways. C118_same_tokens_partial proves the claim for messages without them whose body is ASCII and without lone CR, with any markup; C118_line_ends is the part about bodies. C118_typed_partial is the same for any text type and for long headers that the tokenizer does not read. Messages with parts: C123."
  },
  {
   "property": "C119",
   "status": "partial",
   "theorems": [
    "Sb.Props.C119_raises",
    "Sb.Props.C119_training",
    "Sb.Props.C119_unread_partial",
    "Sb.Props.C119_claim_false"
   ],
   "note": "Refuted: C119_claim_false; C119_raises holds for all messages with such a byte in To, Cc, X-Mailer or Message-Id, C119_training is what training then does. C119_unread_partial: the claim for headers that are not read. For Subject, From, Sender and Reply-To it depends on how the standard library decodes the value."
  },
  {
   "property": "C120",
   "status": "partial",
   "theorems": [
    "Sb.Props.C120_delivered_partial",
    "Sb.Props.C120_claim_false",
    "Sb.Props.C120_parts_partial"
   ],
   "note": "Refuted: C120_claim_false (the word \"From\" at the beginning of a line, with the default options). C120_delivered_partial proves the claim for messages that are Durable: no such line, no \"<script\" that is broken over two lines, no CR without LF, headers that the tokenizer reads are of one line; other headers may be of any length. C120_parts_partial is the same for messages with parts of any depth, as they are read (without message/delivery-status, and with texts that keep their words)."
  },
  {
   "property": "C121",
   "status": "partial",
   "theorems": [
    "Sb.Props.C121_shared_partial",
    "Sb.Props.C121_same_provider_partial",
    "Sb.Props.C121_claim_false",
    "Sb.Props.C121_ipv4_partial",
    "Sb.Props.C121_families",
    "Sb.Props.C121_format"
   ],
   "note": "IPv4: proved (C121_ipv4_partial). IPv6: refuted (C121_claim_false); C121_same_provider_partial and C121_shared_partial say exactly which addresses share which clues. Addresses with a scope are not modelled."
  },
  {
   "property": "C122",
   "status": "partial",
   "theorems": [
    "Sb.Props.C122_parts_partial",
    "Sb.Props.C122_claim_false",
    "Sb.Props.C122_trip_partial",
    "Sb.Props.C122_uncut_partial"
   ],
   "note": "Refuted: C122_claim_false, a multipart without parts inside a multipart grows. C122_parts_partial proves the claim for all trees of text, message and multipart parts in which no part contains a line with the boundary around it. C122_trip_partial proves it for whatever was read from any ASCII text (without VT, FF, FS, GS, RS): the conditions are then on types and boundaries only, what the texts contain does not matter; C122_uncut_partial is the same for a multipart without parts that is no part itself. The parts of multipart/signed, whose headers are not folded, are included. Left out are message/delivery-status and header values that are not ASCII."
  },
  {
   "property": "C123",
   "status": "partial",
   "theorems": [
    "Sb.Props.C123_same_tokens_partial",
    "Sb.Props.C123_claim_false",
    "Sb.Props.C123_trip_partial"
   ],
   "note": "Refuted: C123_claim_false, a quoted line of a part. C123_same_tokens_partial proves the claim for sound trees of any depth whose texts keep their words; settled_plain shows that texts that are not encoded do. C123_trip_partial is the same for whatever was read from a text (C122_trip_partial). Default options."
  },
  {
   "property": "C124",
   "status": "proved",
   "theorems": [
    "Sb.Props.C124_ended",
    "Sb.Props.C124_double",
    "Sb.Props.C124_read",
    "Sb.Props.C124_unseen",
    "Sb.Props.C124_missing_line",
    "Sb.Props.C124_no_headers",
    "Sb.Props.C124_from_last",
    "Sb.Props.C124_double_any",
    "Sb.Props.C124_plain"
   ],
   "note": "C124_read says what a multipart message whose parts are texts is read as, C124_double, C124_double_any, C124_ended and C124_plain are the other cases; lines end with LF. C124_missing_line, C124_no_headers and C124_from_last: where the headers end if no empty line follows them, or a From line is the last of them. C124_unseen: tokens. depth_enough shows that the bound of the depth in readMail does not matter."
  },
  {
   "property": "C125",
   "status": "partial",
   "theorems": [
    "Sb.Props.C125_crlf",
    "Sb.Props.C125_exact_partial",
    "Sb.Props.C125_lines",
    "Sb.Props.C125_unchanged_partial",
    "Sb.Props.C125_written",
    "Sb.Props.C125_same_partial",
    "Sb.Props.C125_claim_false"
   ],
   "note": "Refuted: C125_claim_false, a space is written after the colon of a header that had none; and by default a line of a signed text that begins with \"From \" is quoted. C125_lines says what is written for every message of texts, messages and multiparts of any depth whose lines are in the form in which messages are written (NeatMail: one space after the colon of a header, no line without words in a header, no part without a line of text); C125_unchanged_partial: it is what was read if mangle_from_ is false or no line begins with \"From \". C125_written and C125_same_partial are the same for a message with texts as parts, whose last line need not have an end. C125_crlf and C125_exact_partial: with CR LF at the ends of lines, as mail comes from the network, it is written character by character as it was read, if the types and boundaries do not depend on the ends of lines in values. Header values that are not ASCII and message/delivery-status are left out."
  },
  {
   "property": "C126",
   "status": "partial",
   "theorems": [
    "Sb.Props.C126_lone_cr",
    "Sb.Props.C126_line_ends_partial",
    "Sb.Props.C126_message_partial"
   ],
   "note": "Proved for ASCII texts, of any depth and also without boundaries: C126_message_partial. It is assumed that get_content_type() and get_boundary() give the same for the headers of this message with other line ends in values and that its boundaries have none in them (EndsIgnoredAt; folded_ignores: a Content-Type of two lines), and that no part is message/delivery-status. C126_line_ends_partial is the same with the assumption for all headers. C126_lone_cr: a CR alone, which ends a line too, does make a difference, as \"From \" after it is not quoted. Missing: header values that are not ASCII, and message/delivery-status."
  },
  {
   "property": "C127",
   "status": "partial",
   "theorems": [
    "Sb.Props.C127_stable_partial",
    "Sb.Props.C127_claim_false",
    "Sb.Props.C127_message_partial"
   ],
   "note": "Refuted: C127_claim_false, a header with a semicolon is folded there first, and the line after it, which is still too long, is folded only when it is written again. C127_stable_partial: it holds for every ASCII message, of any depth, whose lines are in the form in which messages are written (NeatMail), with lines that begin with \"From \" and are quoted once; C127_message_partial needs the assumption about types only for this message. Missing: messages with headers that are folded."
  },
  {
   "property": "C128",
   "status": "partial",
   "theorems": [
    "Sb.Props.C128_line_ends_partial",
    "Sb.Props.C128_claim_false"
   ],
   "note": "Refuted: C128_claim_false, a subject of two lines has its line end in a token. C128_line_ends_partial proves the claim for ASCII messages of any depth: Subject, From, To, Cc, Sender, Reply-To, X-Mailer and Message-Id of the message itself are of one line; types, boundaries, file names and decoders of its parts do not depend on line ends in values (PartIgnores; they may be of several lines, as in folded_ignores); texts are not encoded or are decoded to the same, with no \"<script\" that is broken over two lines (TextIgnores). Missing: header values that are not ASCII."
  }
 ]
}