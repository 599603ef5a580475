STATUS = {
'C01': ('proved', 'In-memory record storage, unigram and bigram mode, every pair of set iteration orders. Sane is the invariant of C05/C06.'),
'C02': ('proved', 'Refinement of every valid history to the multiset of learned messages; no training call raises.'),
'C03': ('proved', 'Counts and scores.'),
'C04': ('proved', ''),
'C05': ('proved', ''),
'C06': ('proved', ''),
'C08': ('proved', 'Histories of learn/unlearn/spamprob/probability; C08_load_keeps_stale_cache is the exception named in the statement.'),
'C09': ('proved', ''),
'C21': ('partial', 'The documented claim is refuted (C21_claim_false, C21_last_token_lost); what is trained is characterised exactly.'),
'C22': ('partial', 'True in unigram mode; refuted in bigram mode (C22_claim_false), where the trained tokens are characterised by position.'),
'C07': ('proved', 'Exact arithmetic: never raises. Any monotone rounding: only the ValueError of log(0) after a product rounds to zero remains possible.'),
'C10': ('proved', ''),
'C11': ('proved', ''),
'C12': ('proved', 'Any field, any monotone rounding with the laws FloatOps.Sound (met by exact reals and by 53-bit rounding).'),
'C13': ('proved', ''),
'C14': ('proved', ''),
'C15': ('proved', 'Unigram mode.'),
'C16': ('proved', ''),
'C17': ('proved', 'With the counterexample beyond 150 clue tokens.'),
'C18': ('proved', 'Unigram mode; C20 is the bigram counterpart.'),
'C19': ('proved', ''),
'C20': ('proved', ''),
'C28': ('proved', 'Histories also include probability and store-and-reopen.'),
'C29': ('proved', ''),
'C30': ('partial', 'Holds at every crash point of histories without unlearn; refuted with unlearn (C30_claim_false). The contents of the file at every moment, and what can be scored from it, are given exactly for all histories (C30_file, C30_moment, C30_scores_iff, C30_stored).'),
'C31': ('partial', 'Refuted for the state key (C31_claim_false, C31_state_key_raises); true for every other token.'),
'C23': ('proved', 'For any pickle codec whose decoding inverts its encoding; also for histories with stores, loads and reopenings.'),
'C24': ('partial', 'Holds at every point of every run if the move is a rename; refuted if it is a copy (C24_claim_false_copy). C24_dead_owner_blocks: the lock left behind blocks every later call.'),
'C25': ('proved', 'Transition system over any number of processes, crashes included. C25_failed_copy_tears is the exception named in the statement.'),
'C26': ('partial', 'Refuted (C26_claim_false, C26_next_store_destroys); C26_load_outcome_partial says exactly what load does.'),
'C27': ('partial', 'Refuted (C27_claim_false, C27_unusable); the counts survive.'),
'C32': ('partial', 'Holds for ASCII items on any file; refuted beyond ASCII (C32_claim_false, C32_non_ascii_cut).'),
'C33': ('partial', 'The probing is correct for keys compared by content, duplicates and collisions included; refuted for the code as it is (C33_claim_false, C33_str_lookup_fails, C33_bytes_lookup_fails).'),
'C34': ('partial', 'Refuted (C34_claim_false, C34_name_error); with a working cdb module totals survive and word counts are exchanged. C34_any_file: what the constructor does with any file, well formed or not (values of ASCII without white space, plus sign and underscore).'),
'C35': ('proved', ''),
'C36': ('proved', 'NaN and the two cutoffs are the exceptions to the agreement with is_unsure.'),
'C37': ('partial', 'Refuted for a message that arrives with the header (C37_claim_false, C37_own_header_wins); holds otherwise and after remove_sb_headers.'),
'C38': ('proved', 'With exactly when it raises: only for header values that are Header objects (C38_raises, C38_raw_subject_raises).'),
'C39': ('partial', 'Refuted (C39_claim_false, C39_raw_subject_damaged, C39_string_notations); holds exactly under the conditions in C39_roundtrip_iff_partial.'),
'C40': ('partial', 'Refuted (C40_claim_false); exact effect in C40_exact.'),
'C41': ('proved', 'For any rendering of words and numbers (parameter Fmt).'),
'C42': ('partial', 'Refuted (C42_claim_false); the bound that does hold is C42_bound_partial.'),
'C43': ('proved', ''),
'C44': ('proved', 'Includes the two kinds of messages whose added headers end up in the body (C44_headers_fall_into_body, C44_no_header_block).'),
'C63': ('partial', 'Refuted (C63_claim_false, C63_headers_lost); the three attributes survive.'),
'C64': ('proved', ''),
'C65': ('proved', ''),
'C66': ('proved', ''),
'C45': ('proved', ''),
'C46': ('partial', 'Refuted for repeated keys (C46_claim_false, C46_evicts_early); first-in first-out proved for fresh keys, a dictionary for unbounded caches, exactly when a key just put is missing (C46_put_get), and the exact contents for every sequence of calls (C46_exact_partial).'),
'C47': ('partial', 'Refuted for an empty cache (C47_claim_false); C47_empty_replaced says what happens, C47_bounded_partial covers the others.'),
'C48': ('proved', 'Observers are arbitrary effects on the state of the user that may raise; they do not change corpora themselves.'),
'C49': ('partial', 'Refuted (C49_claim_false, C49_evicted); proved: right after adding, within cache_size for all histories, and exactly what is in every file for every history with any cache_size (C49_files_partial; for histories without repeated names as a queue, C49_exact_partial); nothing is ever written when the directory had no message.'),
'C50': ('partial', 'Refuted (C50_claim_false); right at construction, constant afterwards.'),
'C51': ('partial', 'Refuted (C51_claim_false); proved what each event does, with and without a method key on messages, with one trainer and with any number of them (C51_trainers_partial; C51_moved_partial for a message moved from spam to ham).'),
'C52': ('partial', 'Refuted (C52_claim_false); exact behaviour proved for due and not due, with and without creation times.'),
'C67': ('partial', 'Refuted (C67_claim_false); C67_read_not_removable is the exact behaviour, the messages of values() can be removed.'),
'C68': ('partial', 'Refuted (C68_claim_false); proved for proper names (C68_confined_partial); C68_exact_partial says what is at every path after every history with any names, C68_untouched_partial which paths are safe.'),
'C69': ('partial', 'items() always raises, values() of files raises at a file with one of two names; everything else agrees.'),
'C70': ('partial', 'Refuted (C70_claim_false); exact effect proved.'),
'C57': ('proved', ''),
'C59': ('proved', 'IPv4.'),
'C60': ('partial', 'Restored by every call that runs alone and by nested calls (C60_sequential, C60_nested_partial); refuted for overlapping calls (C60_claim_false, C60_overlap, C60_changed_for_good).'),
'C61': ('proved', ''),
'C62': ('partial', 'Refuted (C62_claim_false); proved that every call of every history raises and that nothing is ever counted.'),
'C71': ('partial', 'Refuted (C71_claim_false); C71_exact_partial gives the outcome in every case.'),
'C72': ('proved', 'About the function itself; its only caller (l.286, option off by default) omits an argument and would raise TypeError.'),
'C53': ('proved', 'For all matchers that keep the contract and for the five strippers of the module; the uuencode stripper raises TypeError on every begin line (C53_strippers).'),
'C73': ('partial', 'Refuted for comments (C73_claim_false); holds for URLs (C73_urls_partial) and after repetition (C73_repeated_partial).'),
'C74': ('partial', 'Refuted (C74_claim_false); exact tokens proved.'),
'C54': ('partial', 'Refuted (C54_claim_false); exact tokens and exactly when it raises, for bytes and str.'),
'C55': ('partial', 'Refuted (C55_claim_false); exactly when a body can be tokenized, and its tokens.'),
'C56': ('proved', 'About all header lists and both options.'),
'C58': ('proved', 'The base64 decoder is a parameter; C58_repair shows that a successful repair raises TypeError.'),
'C75': ('partial', 'Refuted (C75_claim_false); C75_message_partial says exactly which messages can be tokenized.'),
'C76': ('partial', 'Refuted (C76_claim_false); exact tokens proved.'),
'C77': ('proved', ''),
'C78': ('proved', ''),
'C79': ('proved', ''),
'C80': ('proved', 'C80_determined: the description of the clues leaves no choice.'),
'C81': ('proved', 'Through the views of the email package described in DESIGN.md; the rounding of log2 is a parameter.'),
'C82': ('partial', 'Refuted (C82_claim_false, C82_first_message); C82_tie_partial says exactly when scoring raises, for every comparison sort.'),
'C83': ('partial', 'Refuted (C83_claim_false); C83_bytes_partial gives the exact effect in every reachable state; str tokens work like in memory (C83_str_like_memory).'),
'C84': ('proved', ''),
'C85': ('partial', 'Refuted (C85_claim_false); C85_only_partial and C85_both_partial give the tokens of tokenize_headers itself.'),
'C86': ('proved', 'C86_raises: a raw 8-bit header of the mark that cannot be compared raises.'),
'C87': ('proved', 'getaddresses and str.lower are parameters.'),
'C88': ('proved', 'Under PlainClasses: white space, digits and letters of the str patterns do not overlap.'),
'C89': ('partial', 'Refuted (C89_claim_false); C89_text_partial gives the exact tokens, C89_raises_partial the exception.'),
'C90': ('partial', 'Refuted (C90_claim_false); C90_stops_partial says exactly when a message can be tokenized, C90_additive that only tokens are added.'),
'C91': ('partial', 'Refuted (C91_claim_false, C91_never); C91_body_partial gives the exact tokens.'),
'C92': ('proved', 'The platform is a parameter (Sound and Double); binary64 with round to nearest even and gradual underflow is shown to be one. Overflow is not modelled. C92_nearest: the platform float64 rounds to the nearest double, ties to even.'),
'C93': ('partial', 'Refuted (C93_claim_false): a lost update. C93_file_partial says exactly what is in the file after any schedule; C93_nothing_lost_partial and C93_monotone_partial: without overlaps the claim holds; C93_sessions_partial: serial sessions.'),
'C94': ('partial', 'Refuted (C94_claim_false); C94_scan_partial says exactly what the stripper does with every text, C94_same when that is what it does without the option, C94_body_partial what it means for a message.'),
'C95': ('partial', 'Refuted (C95_claim_false, C95_unfinished_reads_empty); C95_truncated_partial says exactly what reading a cut file gives, C95_noticed_iff which cuts are noticed, C95_records_before_cut what is unharmed.'),
'C96': ('partial', 'Refuted (C96_claim_false). C96_own_words_partial and C96_own_words_ham_partial hold up to the sharp bound of 11 to 1; C96_other_words and C96_other_words_ham hold always; C96_score_partial is the score level.'),
'C97': ('proved', 'C97_side and C97_added_tokens; C97_score_can_drop shows that nothing more can be said about the score itself.'),
'C98': ('partial', 'Refuted for str tokens with spaces (C98_claim_false) and mixed kinds (C98_mixed); C98_bytes, C98_str_partial, C98_not_a_token and C98_counts are what holds.'),
'C99': ('proved', 'C99_parts and C99_tokens (C99_with_options) in general; C99_wrapped, C99_broken_type and C99_unparsed are consequences.'),
'C100': ('partial', 'The code violates the claim: C100_claim_false (C100_raises says for which types), C100_from_after_cr, C100_headers_lost. Proved for all messages: C100_line_ends; for all parsed messages without a text of that type: C100_works_partial, C100_headers_partial, C100_parts_partial, C100_signed_partial; C100_text gives the lines of a text message exactly.'),
'C101': ('partial', 'The code violates the claim: C101_claim_false (a notation in the subject), C101_counted_false (COUNT_ALL_HEADER_LINES). Proved for all messages without these two: C101_own_headers_partial, C101_tokens_partial, C101_default; C101_add and C101_remove say that no other header changes.'),
'C102': ('partial', 'The code violates the claim with bigrams: C102_claim_false. Proved without bigrams, for all sessions and messages: C102_counts_partial, C102_score_partial, C102_round_trip_partial; with bigrams, if the parts of a message are always visited in the same order: C102_same_order_partial, C102_same_order_score_partial.'),
'C103': ('partial', 'The code violates the claim after a HTTP error (C103_claim_false, C103_http_error: the characters of the token are returned) and for every page that is fetched (C103_success_raises). Proved for all other answers and all calls in between: C103_remembers_partial; which token is returned: C103_kinds, C103_domain, C103_http_text. Also: cached pages, shared keys, pages never share tokens with mail.'),
'C104': ('proved', 'For all options, headers and parts; the decoding of values by the email package is a parameter.'),
'C105': ('proved', 'For all sessions with one client; several clients on one file: C93. COUNT_ALL_HEADER_LINES (default off) is left out because it counts SpamBayes headers (C101).'),
'C106': ('partial', 'Refuted: C106_claim_false, C106_one_mistake_breaks. C106_totals and C106_counts give the numbers after any history, C106_scores_iff which messages can be scored (C106_one_mistake_partial after one mistake), C106_learn_undoes_unlearn_iff when learning again repairs it.'),
'C107': ('proved', 'C107_words for one message, C107_counts for sessions, C107_plain_text for plain texts. Default options; without bigrams.'),
'C108': ('partial', 'The code violates the claim: C108_claim_false. C108_absent_partial says exactly when a message has such a token, C108_long_partial which tokens cannot be feigned.'),
'C109': ('proved', 'C109_known is the general form; C109_padding (default options) and C109_stranger are special cases. Without bigrams.'),
'C110': ('partial', 'Refuted: C110_claim_false. C110_tokens_partial, C110_clues_partial and C110_one_sided_partial are what holds.'),
'C111': ('partial', 'Refuted: C111_claim_false. C111_never_printed_partial and C111_raises_partial say what happens in every history while the functions exist; C111_program_partial says what happens in the program as it is printed, where the second function has the name of the first, which is thereby gone.'),
'C112': ('partial', 'Refuted: C112_claim_false. C112_called_partial says for every program which observers are called, C112_trained_partial what the classifier learns.'),
'C113': ('partial', 'Two processes on one directory violate the claim (C113_claim_false), and so do damaged files (C113_damaged) and exceptions (C113_switched_off). For one process, with any restarts and timeouts: C113_survives_partial, C113_restart_partial; after a HTTP error: C113_http_error; files that give OSError or ValueError: C113_afresh. About the code with the two faults of C62 taken out (the set-up of the page corpus, and the variable nobody assigns).'),
'C114': ('partial', 'Refuted for To or Subject headers that the filter has to create: C114_claim_false. C114_refiltered_partial and C114_twice_partial give the condition; C114_written says what is written; C114_forged and C114_determined hold without a condition (C114_determined: without bigrams and COUNT_ALL_HEADER_LINES, see C102 and C101).'),
'C115': ('partial', 'Refuted: C115_claim_false. C115_never_partial says what the variable holds after any texts, C115_same_result that text and tokens are those of URLStripper.'),
'C116': ('partial', 'Refuted: C116_claim_false, a header value with a vertical tab (or FF, FS, GS, RS) cannot be written (C116_raises), or hides the headers after it from readers (C116_headers_lost). C116_trip_partial proves the claim for all ASCII texts without these characters, C116_reread_partial for all headers whose lines are continued properly, C116_marks_partial for what add_sb_headers makes, C116_checked for versions of Python that check headers, C116_text what becomes of the body; C116_no_forgery holds for all ASCII values and versions. Values that are not ASCII are not covered.'),
'C117': ('partial', 'Refuted: C117_claim_false, a lone CR in the traceback makes the reader see a header that was made up (C117_forged). C117_seen_partial proves the claim for all tracebacks without one; C117_unseen: in a message without blank line nothing of what was added is seen as a header.'),
'C118': ('partial', 'Refuted: C118_claim_false; C118_quoted (a line that begins with "From "), C118_folded (a long subject) and C118_broken (a "<script" over two lines) are the three ways. C118_same_tokens_partial proves the claim for messages without them whose body is ASCII and without lone CR, with any markup; C118_line_ends is the part about bodies. C118_typed_partial is the same for any text type and for long headers that the tokenizer does not read. Messages with parts: C123.'),
'C119': ('partial', 'Refuted: C119_claim_false; C119_raises holds for all messages with such a byte in To, Cc, X-Mailer or Message-Id, C119_training is what training then does. C119_unread_partial: the claim for headers that are not read. For Subject, From, Sender and Reply-To it depends on how the standard library decodes the value.'),
'C120': ('partial', 'Refuted: C120_claim_false (the word "From" at the beginning of a line, with the default options). C120_delivered_partial proves the claim for messages that are Durable: no such line, no "<script" that is broken over two lines, no CR without LF, headers that the tokenizer reads are of one line; other headers may be of any length. C120_parts_partial is the same for messages with parts of any depth, as they are read (without message/delivery-status, and with texts that keep their words).'),
'C121': ('partial', 'IPv4: proved (C121_ipv4_partial). IPv6: refuted (C121_claim_false); C121_same_provider_partial and C121_shared_partial say exactly which addresses share which clues. Addresses with a scope are not modelled.'),
'C122': ('partial', 'Refuted: C122_claim_false, a multipart without parts inside a multipart grows. C122_parts_partial proves the claim for all trees of text, message and multipart parts in which no part contains a line with the boundary around it. C122_trip_partial proves it for whatever was read from any ASCII text (without VT, FF, FS, GS, RS): the conditions are then on types and boundaries only, what the texts contain does not matter; C122_uncut_partial is the same for a multipart without parts that is no part itself. The parts of multipart/signed, whose headers are not folded, are included. Left out are message/delivery-status and header values that are not ASCII.'),
'C123': ('partial', 'Refuted: C123_claim_false, a quoted line of a part. C123_same_tokens_partial proves the claim for sound trees of any depth whose texts keep their words; settled_plain shows that texts that are not encoded do. C123_trip_partial is the same for whatever was read from a text (C122_trip_partial). Default options.'),
'C124': ('proved', 'C124_read says what a multipart message whose parts are texts is read as, C124_double, C124_double_any, C124_ended and C124_plain are the other cases; lines end with LF. C124_missing_line, C124_no_headers and C124_from_last: where the headers end if no empty line follows them, or a From line is the last of them. C124_unseen: tokens. depth_enough shows that the bound of the depth in readMail does not matter.'),
'C125': ('partial', 'Refuted: C125_claim_false, a space is written after the colon of a header that had none; and by default a line of a signed text that begins with "From " is quoted. C125_lines says what is written for every message of texts, messages and multiparts of any depth whose lines are in the form in which messages are written (NeatMail: one space after the colon of a header, no line without words in a header, no part without a line of text); C125_unchanged_partial: it is what was read if mangle_from_ is false or no line begins with "From ". C125_written and C125_same_partial are the same for a message with texts as parts, whose last line need not have an end. C125_crlf and C125_exact_partial: with CR LF at the ends of lines, as mail comes from the network, it is written character by character as it was read, if the types and boundaries do not depend on the ends of lines in values. Header values that are not ASCII and message/delivery-status are left out.'),
'C126': ('partial', 'Proved for ASCII texts, of any depth and also without boundaries: C126_message_partial. It is assumed that get_content_type() and get_boundary() give the same for the headers of this message with other line ends in values and that its boundaries have none in them (EndsIgnoredAt; folded_ignores: a Content-Type of two lines), and that no part is message/delivery-status. C126_line_ends_partial is the same with the assumption for all headers. C126_lone_cr: a CR alone, which ends a line too, does make a difference, as "From " after it is not quoted. Missing: header values that are not ASCII, and message/delivery-status.'),
'C127': ('partial', 'Refuted: C127_claim_false, a header with a semicolon is folded there first, and the line after it, which is still too long, is folded only when it is written again. C127_stable_partial: it holds for every ASCII message, of any depth, whose lines are in the form in which messages are written (NeatMail), with lines that begin with "From " and are quoted once; C127_message_partial needs the assumption about types only for this message. Missing: messages with headers that are folded.'),
'C128': ('partial', 'Refuted: C128_claim_false, a subject of two lines has its line end in a token. C128_line_ends_partial proves the claim for ASCII messages of any depth: Subject, From, To, Cc, Sender, Reply-To, X-Mailer and Message-Id of the message itself are of one line; types, boundaries, file names and decoders of its parts do not depend on line ends in values (PartIgnores; they may be of several lines, as in folded_ignores); texts are not encoded or are decoded to the same, with no "<script" that is broken over two lines (TextIgnores). Missing: header values that are not ASCII.'),
}
