{
 "claims": [
  {
   "property": "C01",
   "status": "proved",
   "theorems": [
    "Txt.C01_insert_splices"
   ],
   "note": ""
  },
  {
   "property": "C02",
   "status": "proved",
   "theorems": [
    "Txt.C02_delete_cuts"
   ],
   "note": ""
  },
  {
   "property": "C03",
   "status": "proved",
   "theorems": [
    "Txt.C03_history_agrees",
    "Txt.C03_fuzz_never_disagrees",
    "Txt.C03_fuzz_overflow"
   ],
   "note": ""
  },
  {
   "property": "C04",
   "status": "proved",
   "theorems": [
    "Txt.C04_insert_panics_iff"
   ],
   "note": ""
  },
  {
   "property": "C05",
   "status": "partial",
   "theorems": [
    "Txt.C05_delete_past_end_partial",
    "Txt.C05_delete_past_end_exact_partial",
    "Txt.C05_ignored_at_insert",
    "Txt.C05_only_inserted",
    "Txt.C05_ignored_at_delete",
    "Txt.C05_within_last_partial",
    "Txt.C05_overflow",
    "Txt.C05_delete_past_end_fails"
   ],
   "note": "The expected truncation is false of the code (refuted); proved: prefix kept, some suffix kept, exact truncation on unedited tables."
  },
  {
   "property": "C06",
   "status": "proved",
   "theorems": [
    "Txt.C06_zero_value",
    "Txt.C06_zero_value_never_recovers"
   ],
   "note": ""
  },
  {
   "property": "C07",
   "status": "proved",
   "theorems": [
    "Txt.C07_negative_insert"
   ],
   "note": ""
  },
  {
   "property": "C08",
   "status": "proved",
   "theorems": [
    "Txt.C08_close"
   ],
   "note": ""
  },
  {
   "property": "C09",
   "status": "proved",
   "theorems": [
    "Txt.C09_clean_preserves"
   ],
   "note": ""
  },
  {
   "property": "C10",
   "status": "proved",
   "theorems": [
    "Txt.C10_new",
    "Txt.C10_walk",
    "Txt.C10_insert",
    "Txt.C10_delete",
    "Txt.C10_clean",
    "Txt.C10_history"
   ],
   "note": ""
  },
  {
   "property": "C11",
   "status": "proved",
   "theorems": [
    "Diff.C11_terminates",
    "Diff.C11_reconstructs",
    "Diff.C11_assembleChanges",
    "Diff.C11_fuzz_never_panics"
   ],
   "note": ""
  },
  {
   "property": "C12",
   "status": "proved",
   "theorems": [
    "Diff.C12_longest_anchor",
    "Diff.C12_nothing_in_common",
    "Diff.C12_keeps_longest"
   ],
   "note": ""
  },
  {
   "property": "C13",
   "status": "proved",
   "theorems": [
    "Diff.C13_normal_form"
   ],
   "note": ""
  },
  {
   "property": "C14",
   "status": "proved",
   "theorems": [
    "Diff.C14_empty_iff_equal"
   ],
   "note": ""
  },
  {
   "property": "C15",
   "status": "proved",
   "theorems": [
    "Diff.C15_patch_applies",
    "Diff.C15_injective",
    "Diff.C17_prints_patch"
   ],
   "note": ""
  },
  {
   "property": "C16",
   "status": "proved",
   "theorems": [
    "Diff.C16_headers_truthful"
   ],
   "note": ""
  },
  {
   "property": "C17",
   "status": "proved",
   "theorems": [
    "Diff.C17_accepts_iff",
    "Diff.C17_lenient",
    "Diff.C17_exit_zero",
    "Diff.C17_unreadable_is_empty",
    "Diff.C17_prints_patch"
   ],
   "note": ""
  },
  {
   "property": "C72",
   "status": "proved",
   "theorems": [
    "Go.C72_atoi_itoa",
    "Go.C72_atoi_iff",
    "Go.C72_atoi_clamps"
   ],
   "note": ""
  },
  {
   "property": "C73",
   "status": "proved",
   "theorems": [
    "Go.C73_terminated",
    "Go.C73_unterminated",
    "Go.C73_lossless"
   ],
   "note": ""
  },
  {
   "property": "C18",
   "status": "proved",
   "theorems": [
    "TSort.C18_respects_constraints",
    "TSort.C18_any_state"
   ],
   "note": ""
  },
  {
   "property": "C19",
   "status": "proved",
   "theorems": [
    "TSort.C19_permutation"
   ],
   "note": ""
  },
  {
   "property": "C20",
   "status": "proved",
   "theorems": [
    "TSort.C20_terminates",
    "TSort.C20_fails_iff_cycle"
   ],
   "note": ""
  },
  {
   "property": "C21",
   "status": "partial",
   "theorems": [
    "TSort.C21_add_forgets",
    "TSort.C21_nothing_lost_partial"
   ],
   "note": "The property is false of the code; C21_add_forgets is the counterexample, C21_nothing_lost_partial proves it for histories that never re-add an item on its own."
  },
  {
   "property": "C22",
   "status": "proved",
   "theorems": [
    "TSort.C22_drains",
    "TSort.C22_failure_is_final"
   ],
   "note": ""
  },
  {
   "property": "C23",
   "status": "proved",
   "theorems": [
    "TSort.C23_even",
    "TSort.C23_odd",
    "TSort.C23_long",
    "TSort.C23_words",
    "TSort.C23_printable",
    "TSort.C23_operands",
    "TSort.C23_self_pair_forgets"
   ],
   "note": ""
  },
  {
   "property": "C36",
   "status": "proved",
   "theorems": [
    "Cksum.C36_posix_crc",
    "Cksum.C36_bits_determined"
   ],
   "note": ""
  },
  {
   "property": "C37",
   "status": "proved",
   "theorems": [
    "Cksum.C37_table"
   ],
   "note": ""
  },
  {
   "property": "C38",
   "status": "proved",
   "theorems": [
    "Cksum.C38_burst_detected",
    "Cksum.C38_single_byte"
   ],
   "note": ""
  },
  {
   "property": "C39",
   "status": "proved",
   "theorems": [
    "Cksum.C39_all_readable",
    "Cksum.C39_no_operands",
    "Cksum.C39_unreadable"
   ],
   "note": ""
  },
  {
   "property": "C40",
   "status": "proved",
   "theorems": [
    "Cmp.C40_status",
    "Cmp.C40_silent",
    "Cmp.C40_equal_quiet"
   ],
   "note": ""
  },
  {
   "property": "C41",
   "status": "proved",
   "theorems": [
    "Cmp.C41_first_difference",
    "Cmp.C41_prefix"
   ],
   "note": ""
  },
  {
   "property": "C42",
   "status": "proved",
   "theorems": [
    "Cmp.C42_list_all",
    "Cmp.C42_differences_spec",
    "Cmp.C42_differences_sorted",
    "Cmp.C42_status_zero_although_different"
   ],
   "note": ""
  },
  {
   "property": "C43",
   "status": "proved",
   "theorems": [
    "Cmp.C43_two_operands",
    "Cmp.C43_every_vector",
    "Cmp.C43_too_many",
    "Cmp.C43_too_few",
    "Cmp.C43_empty_argument",
    "Cmp.C43_cannot_open"
   ],
   "note": ""
  },
  {
   "property": "C44",
   "status": "proved",
   "theorems": [
    "Head.C44_first_lines"
   ],
   "note": ""
  },
  {
   "property": "C45",
   "status": "proved",
   "theorems": [
    "Head.C45_no_arguments",
    "Head.C45_panics_iff"
   ],
   "note": ""
  },
  {
   "property": "C46",
   "status": "proved",
   "theorems": [
    "Cat.C46_concatenates",
    "Cat.C46_no_operands",
    "Cat.C46_every_vector",
    "Cat.C46_second_dash"
   ],
   "note": ""
  },
  {
   "property": "C47",
   "status": "proved",
   "theorems": [
    "Cat.C47_stops",
    "Cat.C47_read_error",
    "Cat.C47_exit_zero"
   ],
   "note": ""
  },
  {
   "property": "C48",
   "status": "proved",
   "theorems": [
    "Test.C48_strings",
    "Test.C48_integers",
    "Test.C48_error_iff",
    "Test.C48_unknown"
   ],
   "note": ""
  },
  {
   "property": "C49",
   "status": "proved",
   "theorems": [
    "Test.C49_not",
    "Test.C49_even",
    "Test.C49_base"
   ],
   "note": ""
  },
  {
   "property": "C50",
   "status": "partial",
   "theorems": [
    "Test.C50_counterexamples",
    "Test.C50_strings_partial",
    "Test.C50_special"
   ],
   "note": "False of the code: refuted by C50_counterexamples; proved for all left operands that are not special, and the special ones characterised."
  },
  {
   "property": "C51",
   "status": "partial",
   "theorems": [
    "Kill.C51_only_sigkill",
    "Kill.C51_request",
    "Kill.C51_counterexamples",
    "Kill.C51_delivers_partial",
    "Kill.C51_malformed",
    "Kill.C51_no_process",
    "Kill.C51_sent_iff"
   ],
   "note": "False of the code: it always sends signal 9 (C51_only_sigkill, C51_counterexamples); proved for requests of signal 9."
  },
  {
   "property": "C52",
   "status": "partial",
   "theorems": [
    "Cut.C52_always_fails",
    "Cut.C52_rejects_well_formed",
    "Cut.C52_rejects_ill_formed_partial"
   ],
   "note": "False of the code: every invocation is rejected."
  },
  {
   "property": "C74",
   "status": "proved",
   "theorems": [
    "Test.C74_file_tests",
    "Test.C74_links",
    "Test.C74_strings",
    "Test.C74_unsupported"
   ],
   "note": ""
  },
  {
   "property": "C75",
   "status": "proved",
   "theorems": [
    "Test.C75_extra_ignored",
    "Test.C75_three_outcomes"
   ],
   "note": ""
  },
  {
   "property": "C31",
   "status": "proved",
   "theorems": [
    "Flag.C31_suffix",
    "Flag.C31_double_dash"
   ],
   "note": "strconv.ParseInt is a parameter"
  },
  {
   "property": "C32",
   "status": "proved",
   "theorems": [
    "Flag.C32_bool_bundles"
   ],
   "note": ""
  },
  {
   "property": "C33",
   "status": "proved",
   "theorems": [
    "Flag.C33_values",
    "Flag.C33_bad_integer",
    "Flag.C33_mixed",
    "Flag.C33_mixed_bad_integer",
    "Flag.C33_unknown"
   ],
   "note": "value letters are ASCII; a non-ASCII value letter never takes a separate value (Flag.C35_non_ascii)"
  },
  {
   "property": "C34",
   "status": "partial",
   "theorems": [
    "Flag.C34_counterexample",
    "Flag.C34_attached",
    "Flag.C34_attached_partial"
   ],
   "note": "the property is false of the code: refuted with a witness; proved what really happens and the case in which it coincides"
  },
  {
   "property": "C35",
   "status": "proved",
   "theorems": [
    "Flag.C35_missing_value",
    "Flag.C35_missing_value_mixed",
    "Flag.C35_non_ascii"
   ],
   "note": "after any mixture of well-formed options"
  },
  {
   "property": "C24",
   "status": "proved",
   "theorems": [
    "Regex.C24_literal"
   ],
   "note": "on the runes of the text; texts shorter than 2^63 bytes, as all Go strings are"
  },
  {
   "property": "C25",
   "status": "proved",
   "theorems": [
    "Regex.C25_anchored"
   ],
   "note": ""
  },
  {
   "property": "C26",
   "status": "partial",
   "theorems": [
    "Regex.C26_no_effect",
    "Regex.C26_literal",
    "Regex.C26_counterexample",
    "Regex.C26_suffix_partial"
   ],
   "note": "False of the code: the right anchor never has any effect (C26_no_effect, C26_counterexample); only the direction suffix implies match holds."
  },
  {
   "property": "C27",
   "status": "proved",
   "theorems": [
    "Regex.C27_complete"
   ],
   "note": ""
  },
  {
   "property": "C28",
   "status": "partial",
   "theorems": [
    "Regex.C28_counterexample",
    "Regex.C28_sound_partial",
    "Regex.C28_actual"
   ],
   "note": "False of the code: refuted with a witness; proved for elements with fixed or at most single repetition and wildcards; C28_actual says exactly what is reported for every pattern."
  },
  {
   "property": "C29",
   "status": "proved",
   "theorems": [
    "Regex.C29_panics_iff",
    "Regex.C29_simple"
   ],
   "note": ""
  },
  {
   "property": "C30",
   "status": "proved",
   "theorems": [
    "Regex.C30_round_trip",
    "Regex.C30_exact"
   ],
   "note": "the regular expression for counts is modelled by hand"
  },
  {
   "property": "C59",
   "status": "proved",
   "theorems": [
    "Ed.C59_line_offsets",
    "Ed.C59_trailing_blank"
   ],
   "note": ""
  },
  {
   "property": "C60",
   "status": "proved",
   "theorems": [
    "Ed.C60_print_and_number"
   ],
   "note": ""
  },
  {
   "property": "C61",
   "status": "proved",
   "theorems": [
    "Ed.C61_delete",
    "Ed.C61_delete_numeric"
   ],
   "note": ""
  },
  {
   "property": "C62",
   "status": "partial",
   "theorems": [
    "Ed.C62_append_insert_change_partial",
    "Ed.C62_change_last_fails",
    "Ed.C62_change_after_blank_fails"
   ],
   "note": "False of the code for c at $ and for c that leaves a trailing blank line (both refuted with witnesses); proved otherwise."
  },
  {
   "property": "C63",
   "status": "proved",
   "theorems": [
    "Ed.C63_session",
    "Ed.C63_session_nonblank"
   ],
   "note": ""
  },
  {
   "property": "C64",
   "status": "proved",
   "theorems": [
    "Ed.C64_forward_search",
    "Ed.C64_search_diverges",
    "Ed.C64_hangs_after_append",
    "Ed.C64_search_empty",
    "Ed.C64_bad_expression"
   ],
   "note": "the regular expression engine is a parameter"
  },
  {
   "property": "C65",
   "status": "proved",
   "theorems": [
    "Ed.C65_no_file"
   ],
   "note": ""
  },
  {
   "property": "C66",
   "status": "proved",
   "theorems": [
    "Ed.C66_partition",
    "Ed.C66_rejects"
   ],
   "note": "the PEG rules are modelled as a recogniser with tokens in the order the generated parser records them; addresses with offsets are covered as text (their loss is C76)"
  },
  {
   "property": "C67",
   "status": "proved",
   "theorems": [
    "Ed.C67_range_commands",
    "Ed.C67_numbers",
    "Ed.C67_line_number",
    "Ed.C67_null",
    "Ed.C67_bare",
    "Ed.C67_names",
    "Ed.C67_write",
    "Ed.C67_mark",
    "Ed.C67_dest",
    "Ed.C67_read",
    "Ed.C67_shell",
    "Ed.C67_noName"
   ],
   "note": ""
  },
  {
   "property": "C68",
   "status": "proved",
   "theorems": [
    "Ed.C68_append_insert",
    "Ed.C68_change",
    "Ed.C68_limits"
   ],
   "note": ""
  },
  {
   "property": "C69",
   "status": "proved",
   "theorems": [
    "Ed.C69_schedule_independent",
    "Ed.C69_no_deadlock",
    "Ed.C69_stops",
    "Ed.C69_error_position",
    "Ed.C69_order_varies"
   ],
   "note": "goroutines as a transition system over the two unbuffered channels"
  },
  {
   "property": "C70",
   "status": "proved",
   "theorems": [
    "Ed.C70_atomic",
    "Ed.C70_outcome",
    "Ed.C70_temporary"
   ],
   "note": "rename is assumed atomic; links are in C104; partial writes of the temporary file are modelled byte by byte"
  },
  {
   "property": "C71",
   "status": "partial",
   "theorems": [
    "Ed.C71_arguments_ignored",
    "Ed.C71_counterexample",
    "Ed.C71_whole_partial",
    "Ed.C71_failed_save_loses_buffer",
    "Ed.C71_no_file"
   ],
   "note": "False of the code: range and name are ignored (C71_arguments_ignored, C71_counterexample); proved for w of the whole buffer to the edited file, that a failed save loses the buffer, and that without a file nothing is written."
  },
  {
   "property": "C76",
   "status": "partial",
   "theorems": [
    "Ed.C76_offsets_lost",
    "Ed.C76_executor_partial"
   ],
   "note": "False of the code: no parsed command ever carries an offset; proved for p when the caller sets the offsets itself."
  },
  {
   "property": "C77",
   "status": "proved",
   "theorems": [
    "Ed.C77_script"
   ],
   "note": "composition of scanner, line grouping, parser, channel, command execution and saving; explicit addresses n . $"
  },
  {
   "property": "C53",
   "status": "proved",
   "theorems": [
    "Locale.C53_precedence",
    "Locale.C53_lines",
    "Locale.C53_command"
   ],
   "note": "output used as a Printf format: values without % only"
  },
  {
   "property": "C54",
   "status": "proved",
   "theorems": [
    "Locale.C54_round_trip",
    "Locale.C54_fields",
    "Locale.C54_bad"
   ],
   "note": ""
  },
  {
   "property": "C57",
   "status": "proved",
   "theorems": [
    "Locale.C57_sound",
    "Locale.C57_complete",
    "Locale.C57_exact",
    "Locale.C57_unambiguous",
    "Locale.C57_rejects"
   ],
   "note": ""
  },
  {
   "property": "C58",
   "status": "proved",
   "theorems": [
    "Locale.C58_stops",
    "Locale.C58_stores"
   ],
   "note": ""
  },
  {
   "property": "C55",
   "status": "proved",
   "theorems": [
    "Locale.C55_cleans",
    "Locale.C55_panics",
    "Locale.C55_filters"
   ],
   "note": ""
  },
  {
   "property": "C78",
   "status": "proved",
   "theorems": [
    "Locale.C78_file",
    "Locale.C78_collate"
   ],
   "note": "C78_collate: with LC_COLLATE sections between the others"
  },
  {
   "property": "C79",
   "status": "proved",
   "theorems": [
    "Locale.C79_rest_ignored",
    "Locale.C79_collate"
   ],
   "note": "proved as the code behaves: the rest is ignored, the expected error is not reported"
  },
  {
   "property": "C56",
   "status": "partial",
   "theorems": [
    "Locale.C56_stops_partial",
    "Locale.C56_rounds",
    "Locale.C56_rounds_file",
    "Locale.C56_decided",
    "Locale.C56_decided_file",
    "Locale.C56_open_message_runs_forever",
    "Locale.C56_counterexample",
    "Locale.C56_collating_word_runs_forever",
    "Locale.C56_open_string_runs_forever"
   ],
   "note": "false in the code: theorems show the inputs on which the lexer runs forever; the partial theorem covers files without LC_COLLATE and LC_MESSAGES with a safe end; for every file, C56_decided_file: lexing either ends within 2*length+4 rounds of each loop or never"
  },
  {
   "property": "C80",
   "status": "partial",
   "theorems": [
    "Ed.C80_session_partial",
    "Ed.C80_append_crashes",
    "Ed.C80_delete_last_partial",
    "Ed.C80_delete_last_fails",
    "Ed.C80_delete_end_after_text",
    "Ed.C80_delete_end_after_delete",
    "Ed.C80_delete_end_untouched_partial",
    "Ed.C80_write"
   ],
   "note": "False of the code for appending after the last line (always a crash) and for deleting the last lines starting where lines were just added or deleted (for every buffer: nothing that was there before is removed); proved for sessions that keep the last line, for deleting the last lines when these and the line before them were left alone since the file was opened, and for w."
  },
  {
   "property": "C81",
   "status": "proved",
   "theorems": [
    "Cut.C81_separate_values",
    "Cut.C81_values",
    "Cut.C81_attached_refused",
    "Cut.C81_missing_value",
    "Cut.C81_never_works",
    "Cut.C81_boolean_values"
   ],
   "note": "Go's package flag is modelled; the usage text is a parameter"
  },
  {
   "property": "C82",
   "status": "proved",
   "theorems": [
    "Go.ParseInt.C82_accepted_exactly",
    "Go.ParseInt.C82_decimal",
    "Flag.C82_stores",
    "Flag.C82_refuses"
   ],
   "note": "strconv.ParseInt(s, 0, 64) is modelled for Go before and since 1.13, underscores included"
  },
  {
   "property": "C83",
   "status": "partial",
   "theorems": [
    "Ed.C83_counterexample",
    "Ed.C83_transcript",
    "Ed.C83_stdout",
    "Ed.C83_script",
    "Ed.C83_reader",
    "Ed.C83_reader_place",
    "Ed.C83_main_place",
    "Ed.C83_order_varies",
    "Ed.C83_results_partial"
   ],
   "note": "false as stated: counterexample, the exact contents of standard output and how the lines of the two goroutines are mixed are proved; the partial theorem says the rest is right"
  },
  {
   "property": "C84",
   "status": "proved",
   "theorems": [
    "Ed.C84_session",
    "Ed.C84_operand",
    "Ed.C84_begins",
    "Ed.C84_begins_empty"
   ],
   "note": "refinement of a reference editor on lists of lines, from typed characters to files; not covered: addresses with offsets (C76), buffers ending in a blank line (C59, C62), a failing w (C70, C71)"
  },
  {
   "property": "C85",
   "status": "partial",
   "theorems": [
    "Ed.C85_only_match",
    "Ed.C85_counterexample",
    "Ed.C85_others_match_partial"
   ],
   "note": "false as stated: all three outcomes when no other line matches are proved; the partial theorem covers the other case"
  },
  {
   "property": "C86",
   "status": "partial",
   "theorems": [
    "Ed.C86_current_iff",
    "Ed.C86_counterexample"
   ],
   "note": "false as stated: the exact conditions under which it holds are proved; d at a search or at '$' is left to C85 and C84"
  },
  {
   "property": "C87",
   "status": "partial",
   "theorems": [
    "Ed.C87_block_partial",
    "Ed.C87_every_text_partial",
    "Ed.C87_order",
    "Ed.C87_reader_partial",
    "Ed.C87_rest",
    "Ed.C87_block_exact",
    "Ed.C87_counterexample"
   ],
   "note": "false as stated: a text line of a dot and blanks ends the text for the parser but not for the reader; C87_block_exact says exactly when a block is one command, and C87_rest exactly what is executed otherwise"
  },
  {
   "property": "C88",
   "status": "proved",
   "theorems": [
    "Ed.C88_one",
    "Ed.C88_changes_nothing"
   ],
   "note": ""
  },
  {
   "property": "C89",
   "status": "partial",
   "theorems": [
    "Ed.C89_crashes",
    "Ed.C89_crashes_typed",
    "Ed.C89_print_number_partial",
    "Ed.C89_add_anywhere",
    "Ed.C89_failed_search",
    "Ed.C89_failed_search_outside",
    "Ed.C89_delete_anywhere",
    "Ed.C89_counterexample"
   ],
   "note": "false as stated: the program crashes, or accepts the address silently; exactly when p and n answer, and what a and i do, is proved"
  },
  {
   "property": "C90",
   "status": "proved",
   "theorems": [
    "Flag.C90_meaning"
   ],
   "note": ""
  },
  {
   "property": "C91",
   "status": "proved",
   "theorems": [
    "Diff.C91_listing",
    "Diff.C91_lines"
   ],
   "note": ""
  },
  {
   "property": "C92",
   "status": "partial",
   "theorems": [
    "Ed.C92_append_insert",
    "Ed.C92_change",
    "Ed.C92_names",
    "Ed.C92_survives_iff",
    "Ed.C92_stored_partial",
    "Ed.C92_counterexample"
   ],
   "note": "false as stated: what is stored is proved for all texts and names, and for which texts it is what was typed"
  },
  {
   "property": "C93",
   "status": "partial",
   "theorems": [
    "Ed.C93_ignored",
    "Ed.C93_executed_partial",
    "Ed.C93_counterexample"
   ],
   "note": "false as stated inside a text block: what the reader does with such a line is proved for every input"
  },
  {
   "property": "C94",
   "status": "partial",
   "theorems": [
    "Ed.C94_open_partial",
    "Ed.C94_program",
    "Ed.C94_commands",
    "Ed.C94_begins",
    "Ed.C94_write"
   ],
   "note": "false as stated: proved exactly which files are opened, and that the others crash the editor"
  },
  {
   "property": "C95",
   "status": "partial",
   "theorems": [
    "Ed.C95_only_w_partial",
    "Ed.C95_counterexample",
    "Ed.C95_edit_discards"
   ],
   "note": "false as stated: q and e discard silently; that only w changes files is proved for every run"
  },
  {
   "property": "C96",
   "status": "proved",
   "theorems": [
    "Ed.C96_text",
    "Ed.C96_lines"
   ],
   "note": ""
  },
  {
   "property": "C97",
   "status": "proved",
   "theorems": [
    "Txt.C97_history",
    "Txt.C97_only_calls",
    "Txt.C97_no_new_panic",
    "Txt.C97_zero_value"
   ],
   "note": "arrays and slices are modelled; the source given to NewPieceTable is taken not to change"
  },
  {
   "property": "C98",
   "status": "partial",
   "theorems": [
    "Locale.C98_before_partial",
    "Locale.C98_exactly_partial",
    "Locale.C98_directives",
    "Locale.C98_index",
    "Locale.C98_doubled",
    "Locale.C98_counterexample",
    "Locale.C98_lines_lost",
    "Locale.C53_command"
   ],
   "note": "false as stated; fmt.Printf without operands is modelled completely"
  },
  {
   "property": "C99",
   "status": "proved",
   "theorems": [
    "Ed.C99_message",
    "Ed.C99_after",
    "Ed.C99_unknown",
    "Ed.C99_reported",
    "Ed.C99_quoted"
   ],
   "note": "strconv.Quote is modelled; which characters outside ASCII are printable is a parameter"
  },
  {
   "property": "C100",
   "status": "partial",
   "theorems": [
    "Locale.C100_standard_partial",
    "Locale.C100_no_backslash_partial",
    "Locale.C100_counterexample"
   ],
   "note": "false as stated; NewLexer calls are taken one after the other while earlier lexers run"
  },
  {
   "property": "C101",
   "status": "proved",
   "theorems": [
    "Test.C101_streams",
    "Test.C101_left",
    "Test.C101_right",
    "Test.C101_unsupported",
    "Test.C101_unknown",
    "Test.C101_messages",
    "Test.C101_negated"
   ],
   "note": "strconv.Atoi and strconv.Quote are modelled"
  },
  {
   "property": "C102",
   "status": "proved",
   "theorems": [
    "Kill.C102_refused",
    "Kill.C102_crashes",
    "Kill.C102_complete",
    "Kill.C102_failures",
    "Kill.C102_exit",
    "Kill.C102_names",
    "Kill.C102_name_not_shown"
   ],
   "note": "names outside ASCII depend on unicode.ToUpper, a parameter"
  },
  {
   "property": "C103",
   "status": "proved",
   "theorems": [
    "Diff.C103_says",
    "Diff.C103_compares",
    "Diff.C103_complete",
    "Diff.C103_exit",
    "Diff.C103_quoted"
   ],
   "note": "strconv.Atoi and strconv.Quote are modelled"
  },
  {
   "property": "C104",
   "status": "partial",
   "theorems": [
    "Ed.Links.C104_atomic",
    "Ed.Links.C104_failure",
    "Ed.Links.C104_success",
    "Ed.Links.C104_permissions_partial",
    "Ed.Links.C104_names_partial",
    "Ed.Links.C104_counterexample",
    "Ed.Links.C104_swap_link_counterexample"
   ],
   "note": "false of the code: permissions are cut by the umask and other names of the file keep the old contents; exactly when they are kept is proved. Directories and special permission bits are not modelled"
  },
  {
   "property": "C105",
   "status": "proved",
   "theorems": [
    "Ed.C105_exact",
    "Ed.C105_rejected",
    "Ed.C105_line",
    "Ed.C105_one_meaning",
    "Ed.C105_missing",
    "Ed.C105_escaped_slash"
   ],
   "note": "For ASCII texts; texts and names with other characters are in C92"
  },
  {
   "property": "C106",
   "status": "partial",
   "theorems": [
    "Txt.C106_delete_negative",
    "Txt.C106_delete_negative_unedited",
    "Txt.C106_deleted_return",
    "Txt.C106_beyond_partial",
    "Ed.C106_backwards",
    "Ed.C106_backwards_edited",
    "Ed.C106_counterexample"
   ],
   "note": "false as stated: what happens instead is proved for every text and edit history"
  },
  {
   "property": "C107",
   "status": "proved",
   "theorems": [
    "Diff.C107_anchor",
    "Diff.C107_exact"
   ],
   "note": "with C12_nothing_in_common; IsDiff is the specification, a relation without loops or tables"
  },
  {
   "property": "C108",
   "status": "partial",
   "theorems": [
    "Diff.C108_size",
    "Diff.C108_unmoved_partial",
    "Diff.C108_ends_partial",
    "Diff.C108_counterexample"
   ],
   "note": "false as stated: there is no bound on how much longer a diff can be"
  },
  {
   "property": "C109",
   "status": "partial",
   "theorems": [
    "Diff.C109_unambiguous_partial",
    "Diff.C109_unmoved_partial",
    "Diff.C109_counterexample"
   ],
   "note": "false as stated"
  },
  {
   "property": "C110",
   "status": "partial",
   "theorems": [
    "TSort.C110_order",
    "TSort.C110_any_order",
    "TSort.C110_same_iff",
    "TSort.C110_command",
    "TSort.C110_counterexample"
   ],
   "note": "false as stated: exactly which orders come out, and when there is only one, is proved"
  },
  {
   "property": "C111",
   "status": "proved",
   "theorems": [
    "Ed.C111_tree",
    "Ed.C111_print"
   ],
   "note": "the rules run on the array of tokens; no uint32 overflow"
  },
  {
   "property": "C112",
   "status": "proved",
   "theorems": [
    "Ed.C112_reuse",
    "Ed.C112_parse_returns",
    "Ed.C112_execute"
   ],
   "note": ""
  },
  {
   "property": "C113",
   "status": "partial",
   "theorems": [
    "Cat.C113_cat",
    "Cksum.C113_cksum",
    "Cmp.C113_cmp_partial",
    "Cmp.C113_cmp_refines",
    "Cmp.C113_cmp_counterexample",
    "Diff.C113_diff",
    "Ed.C113_ed",
    "Ed.C113_ed_command",
    "Head.C113_head_file",
    "Head.C113_head_partial",
    "Head.C113_head_refines",
    "Head.C113_head_counterexample",
    "TSort.C113_tsort",
    "TSort.C113_tsort_command"
   ],
   "note": "false only for cmp and head with standard input named twice; the machines of bufio.Scanner, bufio.Reader and io.Copy are modelled"
  },
  {
   "property": "C114",
   "status": "partial",
   "theorems": [
    "Diff.C114_diff_ignores",
    "Diff.C114_diff_counterexample",
    "Ed.C114_ed_executes",
    "Ed.C114_ed_incomplete",
    "Ed.C114_ed_counterexample",
    "Cat.C114_cat_partial",
    "Cksum.C114_cksum",
    "Cmp.C114_cmp",
    "Head.C114_head",
    "TSort.C114_tsort",
    "TSort.C114_tsort_fails"
   ],
   "note": "false for diff and ed; for cat the status"
  },
  {
   "property": "C115",
   "status": "partial",
   "theorems": [
    "Ed.C115_any_buffer",
    "Ed.C115_new",
    "Ed.C115_session",
    "Ed.C115_quit"
   ],
   "note": "Quit never refuses"
  },
  {
   "property": "C116",
   "status": "partial",
   "theorems": [
    "Locale.C116_all_files",
    "Locale.C116_complete_partial",
    "Locale.C116_numbers_lost",
    "Locale.C116_counterexample"
   ],
   "note": "false: earlier definitions remain, numbers are lost"
  },
  {
   "property": "C117",
   "status": "proved",
   "theorems": [
    "Locale.C117_first_wrong",
    "Locale.C117_one_place",
    "Locale.C117_result",
    "Locale.C117_exact"
   ],
   "note": "on the tables of y.go; the beginning of a definition is taken up to the texts of the tokens"
  },
  {
   "property": "C118",
   "status": "partial",
   "theorems": [
    "Locale.C118_names_partial",
    "Locale.C118_not_verbose",
    "Locale.C118_counterexample"
   ],
   "note": "false: the list of expected tokens can be incomplete"
  },
  {
   "property": "C119",
   "status": "partial",
   "theorems": [
    "Locale.C119_crash",
    "Locale.C119_reported_partial"
   ],
   "note": "false: mistakes in statements end the process; what is reported is proved"
  },
  {
   "property": "C120",
   "status": "partial",
   "theorems": [
    "Locale.C120_as_written_partial",
    "Locale.C120_counterexample"
   ],
   "note": "false for every string with an escape; stated for int_curr_symbol, the only string that is stored"
  },
  {
   "property": "C121",
   "status": "partial",
   "theorems": [
    "Locale.C121_never_sent",
    "Locale.C121_productions",
    "Locale.C121_sent"
   ],
   "note": "false: the tokens that no file has are listed, and the list is exact"
  },
  {
   "property": "C122",
   "status": "proved",
   "theorems": [
    "Ed.C122_told_apart",
    "Ed.C122_texts"
   ],
   "note": "for the texts of C105 (ASCII)"
  },
  {
   "property": "C123",
   "status": "partial",
   "theorems": [
    "Txt.C123_follows_the_file",
    "Txt.C123_unaffected_partial",
    "Txt.C123_counterexample",
    "Ed.C123_editor"
   ],
   "note": "False of the code: the table keeps the open file, not its bytes, so every byte of the text that comes from the file is read from it anew each time. Proved: the text after any history is what its origins (file offsets and typed bytes) give in the file as it is now; it is unaffected exactly if the file has not changed at the offsets in use; witness of a changed text; and ed ends with a crash on the next reading command once the file has been made too short."
  },
  {
   "property": "C124",
   "status": "partial",
   "theorems": [
    "Cksum.C124_cksum",
    "Cmp.C124_cmp",
    "Diff.C124_diff",
    "Locale.C124_locale",
    "Head.C124_head",
    "TSort.C124_tsort",
    "Kill.C124_kill",
    "Cat.C124_cat_partial",
    "Ed.C124_ed",
    "Ed.C124_ed_saves",
    "C124_willing",
    "C124_counterexample"
   ],
   "note": "False of the code: cksum, cmp, diff, locale, head, tsort and kill never look at the result of printing; exit status, messages and signals sent are those of a run in which everything is taken, and the output is what was taken call by call (so lines can be missing in the middle). cat does stop at the first refused write, says why (as an error of reading) and has then printed a prefix of its output, but exits 0. ed never looks either: its runs are those in which everything is taken, the files are saved all the same, and of each message arrives what is taken. The signal that ends a process writing to a broken pipe is not modelled."
  },
  {
   "property": "C125",
   "status": "partial",
   "theorems": [
    "Tools.C125_identical",
    "Tools.C125_different_sums",
    "Tools.C125_diff_iff",
    "Tools.C125_diff_cmp_partial",
    "Tools.C125_counterexample",
    "Tools.C125_near_differences",
    "Tools.C125_cat_cksum",
    "Tools.C125_cat_cmp",
    "Tools.C125_cat_head",
    "Tools.C125_head_cmp",
    "Tools.C125_head_head"
   ],
   "note": "All parts are proved but one, which is false of the code: diff prints nothing also for files that differ in carriage returns before newlines or in the last newline. C125_diff_iff says exactly when it prints nothing; for files of plain lines that end with a newline diff and cmp agree."
  },
  {
   "property": "C126",
   "status": "partial",
   "theorems": [
    "Cat.C126_cat",
    "Cksum.C126_cksum",
    "Cmp.C126_cmp",
    "Cmp.C126_cmp_two",
    "Diff.C126_diff",
    "TSort.C126_tsort",
    "Head.C126_head_partial",
    "Head.C126_head_collected",
    "Head.C126_head_leaks",
    "Ed.C126_ed_partial",
    "Ed.C126_ed_leaks"
   ],
   "note": "True of cat, cksum, cmp, diff and tsort. False of head, which closes no file, and of ed, where e does not close the previous file: unless the garbage collector runs in time, head crashes on more files than can be open (and only then), and ed refuses the e command that is one too many. Saving never adds to the open files."
  },
  {
   "property": "C127",
   "status": "partial",
   "theorems": [
    "Diff.C127_diff_result",
    "Diff.C127_diff_bound",
    "Diff.C127_diff_disjoint",
    "Diff.C127_diff_same",
    "Diff.C127_diff_cubic",
    "TSort.C127_tsort_result",
    "TSort.C127_tsort_order",
    "TSort.C127_tsort_bound",
    "TSort.C127_tsort_quadratic",
    "Txt.C127_pieces",
    "Ed.C127_peg_result",
    "Ed.C127_peg_bound",
    "Ed.C127_ed_result",
    "Ed.C127_ed_blocks",
    "Ed.C127_ed_blocks_quadratic",
    "Ed.C127_number_result",
    "Ed.C127_number_bound",
    "Ed.C127_command_result",
    "Ed.C127_command_bound",
    "Ed.C127_command_pieces",
    "Regex.C127_regex_result",
    "Regex.C127_regex_bound_partial",
    "Regex.C127_regex_exponential"
   ],
   "note": "Proved for comparing (and the cubic bound is reached), sorting (and the quadratic bound is reached), piece tables and the parser of ed (linear, whatever the text). False for matching: C127_regex_exponential gives patterns of 2k+1 characters that take 2^k steps on k characters. What holds is a bound for every pattern whose exponent is the number of elements with a variable repetition (C127_regex_bound_partial)."
  },
  {
   "property": "C128",
   "status": "partial",
   "theorems": [
    "Cat.C128_cat",
    "Head.C128_head",
    "Head.C128_head_ends",
    "Head.C128_head_waits",
    "Head.C128_head_counterexample",
    "Cmp.C128_cmp_differs",
    "Cmp.C128_cmp_waits",
    "Cmp.C128_cmp_longer",
    "Ed.C128_ed_reader",
    "Ed.C128_ed_command",
    "Ed.C128_ed",
    "Ed.C128_ed_rests"
   ],
   "note": "Holds for cat, cmp and ed. For head the first half holds (every complete line is printed before it waits); the second is false: having printed the n lines it waits for one more line before it ends (`for scan.Scan() && j < s.numLines`, cmd/head/main.go:68-71; C128_head_waits, with `head -n 1` as a case). C128_head and C128_head_ends say exactly when it waits and when it ends. Lines of 65536 bytes or more are left to C45 and C93. ed: C128_ed_reader says what the reading goroutine has passed on when it waits, C128_ed that the editor then comes to rest in the state and with the results it would have if the input had ended there."
  },
  {
   "property": "C129",
   "status": "partial",
   "theorems": [
    "Regex.C129_same_partial",
    "Regex.C129_written_out",
    "Regex.C129_optional_last",
    "Regex.C129_optional_first",
    "Regex.C129_counterexample"
   ],
   "note": "False in general (C129_counterexample: ^a*a and ^aa* on xa), a consequence of how repetitions are counted (C28). C129_same_partial: it holds for patterns each of whose elements is a wildcard, is not repeated, has a fixed count or may occur at most once. The rewritings named in the statement are proved for all patterns."
  },
  {
   "property": "C130",
   "status": "proved",
   "theorems": [
    "Regex.C130_more_text",
    "Regex.C130_unanchored"
   ],
   "note": "Texts are given by their characters (valid ones); $ is without effect (C26), so patterns with $ are included."
  },
  {
   "property": "C131",
   "status": "partial",
   "theorems": [
    "Ed.C131_printed",
    "Ed.C131_inserted",
    "Ed.C131_deleted",
    "Ed.C131_place",
    "Ed.C131_edits_partial",
    "Ed.C131_first_line",
    "Ed.C131_all_deleted"
   ],
   "note": "The expected behaviour is false of the code; where text goes and what is deleted is given exactly, and the place is right iff no line before it ends in a carriage return. c works in two steps and is not stated separately; a delete whose start is $ is left out."
  },
  {
   "property": "C132",
   "status": "proved",
   "theorems": [
    "Ed.C132_write",
    "Ed.C132_open_and_save",
    "Ed.C132_write_again"
   ],
   "note": "For saves whose system calls succeed and files without lines of 65536 bytes (C94 says what happens on those, C70 and C71 what happens if a call fails). f.swp is removed if it was there."
  },
  {
   "property": "C133",
   "status": "partial",
   "theorems": [
    "Head.C133_beginning_partial",
    "Head.C133_whole_partial"
   ],
   "note": "The expected behaviour is false of the code; the exact condition is proved as an equivalence, under the conditions of C44 (no over-long line where head looks, no read error)."
  },
  {
   "property": "C134",
   "status": "partial",
   "theorems": [
    "Locale.C134_returns_partial",
    "Locale.C134_dos_partial",
    "Locale.C134_continued"
   ],
   "note": "Proved for all files of the form of C78 (collating sections included) and any carriage returns at the ends of their lines; refuted for continued lines. C78, C79, C119 and C120 now allow carriage returns at line ends, too."
  },
  {
   "property": "C135",
   "status": "proved",
   "theorems": [
    "Txt.C135_insert_undone",
    "Txt.C135_delete_undone",
    "Txt.C135_inserts_join",
    "Txt.C135_deletes_join",
    "Txt.C135_replacements_commute",
    "Txt.C135_only_text",
    "Txt.C135_past_end_differs",
    "Ed.C135_lines_undone",
    "Ed.C135_delete_lines_undone",
    "Ed.C135_only_lines"
   ],
   "note": "The ed part is about buffers whose lines all end in a newline, the last one not blank, as C63."
  },
  {
   "property": "C136",
   "status": "proved",
   "theorems": [
    "Cksum.C136_burst",
    "Cksum.C136_twice",
    "Cksum.C136_two_bits",
    "Cksum.C136_exchange",
    "Cksum.C136_short_file",
    "Cksum.C136_words_exchanged",
    "Cksum.C136_missed"
   ],
   "note": "The generator is shown primitive (period); the equivalences are exact. Damage at three or more separate places is not characterised beyond C36."
  },
  {
   "property": "C137",
   "status": "proved",
   "theorems": [
    "Cksum.C137_forge",
    "Cksum.C137_every_length",
    "Cksum.C137_short_differ"
   ],
   "note": ""
  },
  {
   "property": "C138",
   "status": "partial",
   "theorems": [
    "Cmp.C138_zero_iff",
    "Cmp.C138_transitive",
    "Cmp.C138_exchanged_status_partial",
    "Cmp.C138_symmetric",
    "Cmp.C138_counterexample",
    "Cmp.C138_exchanged_message",
    "Cmp.C138_exchanged_columns",
    "Cmp.C138_silent_only_hides"
   ],
   "note": "False of the code in one case, proved to be the only one: the files end together and one of them with a read error. Then a file named first that ends there hides the failure of the other (status 1 instead of 2)."
  },
  {
   "property": "C139",
   "status": "proved",
   "theorems": [
    "Ed.C139_others_untouched",
    "Ed.C139_none_created",
    "Ed.C139_contents",
    "Ed.C139_typed",
    "Ed.C139_namesake_lost"
   ],
   "note": "The system calls of one save are one step here; their order within a save is C70. Links are C104. C139_typed is for texts within ASCII."
  },
  {
   "property": "C140",
   "status": "partial",
   "theorems": [
    "Ed.C140_operand",
    "Ed.C140_too_long",
    "Ed.C140_opens_iff_partial",
    "Ed.C140_injected",
    "Ed.C140_counterexample"
   ],
   "note": "Expected of every name, which the code does not do; C140_operand says what it does for all names, C140_opens_iff_partial for which names it is as expected, C140_counterexample is an operand that deletes a line of a file and saves it."
  },
  {
   "property": "C141",
   "status": "proved",
   "theorems": [
    "Flag.C141_outcome",
    "Flag.C141_twice",
    "Flag.C141_variables",
    "Flag.C141_kept",
    "Flag.C141_order",
    "Flag.C141_bundling"
   ],
   "note": "C141_order and C141_bundling are for options with separate values that are acceptable (C33, C34 for the others)."
  },
  {
   "property": "C142",
   "status": "partial",
   "theorems": [
    "Diff.C142_replaced",
    "Diff.C142_reported_iff_partial",
    "Diff.C142_no_repeats",
    "Diff.C142_counterexample",
    "Diff.C142_printed"
   ],
   "note": "Expected of every edit, which the code does not do; C142_reported_iff_partial says exactly of which edits it is true."
  },
  {
   "property": "C143",
   "status": "partial",
   "theorems": [
    "TSort.C143_forced",
    "TSort.C143_same_meaning",
    "TSort.C143_repeated",
    "TSort.C143_command_partial",
    "TSort.C143_command_forced",
    "TSort.C143_command_repeated",
    "TSort.C143_counterexample"
   ],
   "note": "The command-level theorem excludes inputs with a word alone in one pair (x x) and first in another (x y): reading x x forgets what must come after x, so there the order of the pairs matters (C143_counterexample: a a a b prints a and b, a b a a prints only a). The library-level theorems have no such restriction because they speak of the constraints in force. Files: Verif/TSort/Rewritten.lean."
  },
  {
   "property": "C144",
   "status": "partial",
   "theorems": [
    "Tools.C144_script",
    "Tools.C144_ed_partial",
    "Tools.C144_no_blank_lines",
    "Tools.C144_counterexample"
   ],
   "note": "Files of plain lines that do not end in a blank line; lines of g are ASCII and do not start with a dot (the parser of ed does not take such text, C68, C92). Expected for all others: false if the last lines are changed right after a blank line (C144_counterexample, from C62). Not missing otherwise: C144_script gives the lines for all files of plain lines. File: Verif/Tools/DiffEd.lean."
  },
  {
   "property": "C145",
   "status": "proved",
   "theorems": [
    "Diff.C145_renamed",
    "Diff.C145_numbers",
    "Diff.C145_printed",
    "Diff.C145_command",
    "TSort.C145_sorted",
    "TSort.C145_tsort"
   ],
   "note": "The command theorems are for plain lines (diff) and words shorter than the limit of the scanner (tsort), in the original and the replaced input. Files: Verif/Diff/Renamed.lean, Verif/TSort/Renamed.lean."
  },
  {
   "property": "C146",
   "status": "partial",
   "theorems": [
    "Locale.C146_exactly_partial",
    "Locale.C146_in_force",
    "Locale.C146_again",
    "Locale.C146_counterexample"
   ],
   "note": "False of the code for values that need quoting: a value shown because its own variable is set, and LC_ALL, are printed without quotes. C146_exactly_partial says exactly for which values the text is read back (values without newlines and percent signs, see C98); C146_again needs all values made of ordinary characters."
  },
  {
   "property": "C147",
   "status": "proved",
   "theorems": [
    "Ed.C147_two_runs",
    "Ed.C147_needed"
   ],
   "note": "Files and scripts as in C77. C147_needed shows that the condition on the current line is needed. File: Verif/Ed/ComeBack.lean."
  },
  {
   "property": "C148",
   "status": "partial",
   "theorems": [
    "Test.C148_comparisons_partial",
    "Test.C148_orders",
    "Test.C148_texts",
    "Test.C148_files",
    "Test.C148_counterexample"
   ],
   "note": "For operands that test does not take for a flag, ! or the end (integers are never taken so); expected of all operands. False of the code for an empty left operand, where opposite questions are both answered with no (C148_counterexample, see C50). File: Verif/Test/Laws.lean."
  },
  {
   "property": "C149",
   "status": "partial",
   "theorems": [
    "Regex.C149_any_text_partial",
    "Regex.C149_at_the_start",
    "Regex.C149_counterexample"
   ],
   "note": "Brackets work for every text. The way of POSIX, a backslash, does not: a backslash is an ordinary character outside brackets, so \\. matches a backslash and any character, a\\* matches a, and a\\[ panics (C149_counterexample). Texts are sequences of valid characters, shorter than 2^63 bytes. File: Verif/Regex/Quoting.lean."
  },
  {
   "property": "C150",
   "status": "partial",
   "theorems": [
    "Ed.C150_command",
    "Ed.C150_session",
    "Ed.C150_blank_stays",
    "Ed.C150_blank_goes",
    "Ed.C150_blank_cannot_be_deleted",
    "Ed.C150_change_last",
    "Ed.C150_change_after_blank",
    "Ed.C150_script"
   ],
   "note": "What ed does is settled for every buffer of plain lines each ended by a newline. What a user expects is false: a blank line at the end cannot be deleted by any session (C150_blank_cannot_be_deleted), $c puts the text before the line that precedes the last (C150_change_last), and changing the last lines after a blank line puts the text before that one (C150_change_after_blank). Buffers whose last line lacks its newline are in C80, search addresses in C66. File: Verif/Ed/BlankEnd.lean."
  },
  {
   "property": "C151",
   "status": "partial",
   "theorems": [
    "Ed.C151_same_text_same_future_partial",
    "Ed.C151_as_if_opened",
    "Ed.C151_sessions",
    "Ed.C151_backwards_differs",
    "Ed.C151_failed_save_differs",
    "Ed.C151_unterminated_differs"
   ],
   "note": "Holds for every text that is empty or ends in a newline, with carriage returns, blank lines at the end and over-long lines included, as long as saves succeed and ranges of d and c are not backwards. Each of the three exceptions is shown by two editors with the same text that then differ. File: Verif/Ed/History.lean."
  },
  {
   "property": "C152",
   "status": "proved",
   "theorems": [
    "TSort.C152_same_orders",
    "TSort.C152_implied",
    "TSort.C152_command_implied",
    "TSort.C152_rearranged",
    "TSort.C152_order_matters"
   ],
   "note": "Strengthens C143, which compares only the exit status and the set of lines. File: Verif/TSort/Implied.lean."
  },
  {
   "property": "C153",
   "status": "proved",
   "theorems": [
    "Cmp.C153_forwards",
    "Cmp.C153_backwards",
    "Cmp.C153_rebuild",
    "Cmp.C153_same_listing",
    "Cmp.C153_message_not_enough"
   ],
   "note": "The reader of the listing is a separate specification (cut at blanks and newlines, decimal place, octal bytes). Both operands being - is excluded. File: Verif/Cmp/Rebuild.lean."
  },
  {
   "property": "C154",
   "status": "partial",
   "theorems": [
    "Ed.C154_opened_partial",
    "Ed.C154_empty",
    "Ed.C154_directory",
    "Ed.C154_whole_iff"
   ],
   "note": "Edit is modelled again with the reported size and the readable bytes as separate values (editOpened); on ordinary files it is the Edit of the model (editOpened_file). That a read of a directory fails and which sizes special files report are facts about the system, not modelled. File: Verif/Ed/Special.lean."
  },
  {
   "property": "C155",
   "status": "proved",
   "theorems": [
    "Cksum.C155_same_damage",
    "Cksum.C155_three",
    "Cksum.C155_joined",
    "Cksum.C155_same_text_added",
    "Cksum.C155_lengths_needed",
    "Cksum.C155_printed"
   ],
   "note": "Stated of the function memcrc with the code's own table and of the printed line. File: Verif/Cksum/Algebra.lean."
  },
  {
   "property": "C156",
   "status": "proved",
   "theorems": [
    "Locale.C156_same_statements",
    "Locale.C156_any_order",
    "Locale.C156_sections_moved",
    "Locale.C156_same_keyword"
   ],
   "note": "Through lexer and parser (NewLexer, yyParse), as in C78. File: Verif/Locale/Arrangement.lean."
  },
  {
   "property": "C157",
   "status": "partial",
   "theorems": [
    "Locale.C157_nothing_read",
    "Locale.C157_nothing_rejected",
    "Locale.C157_escape_partial",
    "Locale.C157_byte_order_mark",
    "Locale.C157_counterexample"
   ],
   "note": "Partial because the expectation is false of the code (C157_counterexample). A first line that is continued or is no valid UTF-8 is not covered by C157_nothing_read. File: Verif/Locale/Beginning.lean."
  },
  {
   "property": "C158",
   "status": "partial",
   "theorems": [
    "Tools.C158_library",
    "Tools.C158_cut",
    "Tools.C158_kill",
    "Tools.C158_cmp",
    "Tools.C158_head",
    "Tools.C158_cat",
    "Tools.C158_cksum",
    "Tools.C158_diff",
    "Tools.C158_tsort",
    "Tools.C158_dot_slash",
    "Tools.C158_counterexample"
   ],
   "note": "Partial because the expectation is false of seven commands (C158_counterexample). ed, which takes its first argument for a file name whatever it is, is covered by C140. File: Verif/Tools/EndOfOptions.lean."
  },
  {
   "property": "C159",
   "status": "proved",
   "theorems": [
    "TSort.C159_can_be_had",
    "TSort.C159_kept",
    "TSort.C159_checked",
    "TSort.C159_alone",
    "TSort.C159_command",
    "TSort.C159_printed"
   ],
   "note": "File: Verif/TSort/Checked.lean. Words shorter than 65534 bytes, as in C23."
  },
  {
   "property": "C160",
   "status": "proved",
   "theorems": [
    "Cmp.C160_earlier",
    "Cmp.C160_later",
    "Cmp.C160_same_place",
    "Cmp.C160_equal"
   ],
   "note": "f and g are not standard input, which could not be read twice. File: Verif/Cmp/Three.lean."
  },
  {
   "property": "C161",
   "status": "proved",
   "theorems": [
    "Tools.C161_cmp_head",
    "Tools.C161_cmp_ed",
    "Tools.C161_head_ed",
    "Tools.C161_cat_ed",
    "Tools.C161_count"
   ],
   "note": "For files of lines the line scanner delivers as they are (no carriage return at the end of a line, lines below 64 KiB), the last one not blank. File: Verif/Tools/LineNumbers.lean."
  },
  {
   "property": "C162",
   "status": "proved",
   "theorems": [
    "Ed.C162_company",
    "Ed.C162_own_step",
    "Ed.C162_two",
    "Ed.C162_in_turn",
    "Ed.C162_calls",
    "Ed.C162_between_calls",
    "Ed.C162_lost_update",
    "Ed.C162_same_file_counterexample"
   ],
   "note": "A save is one step of the process model; C162_calls and C162_between_calls take it apart. Hypotheses: no file has the empty name (the name of an editor without a file), and names are files of their own (no links, as in C70). The last two theorems show that the condition on the files is needed: ed takes no lock and does not look whether the file has changed since it was read."
  },
  {
   "property": "C163",
   "status": "proved",
   "theorems": [
    "Ed.Links.C163_open_file",
    "Ed.Links.C163_versions",
    "Ed.Links.C163_reader"
   ],
   "note": "On the disk model of C104. Needed: the temporary names have no other names and no links lead to them, and no saved file is itself the temporary file of another (C104_swap_link_counterexample shows what happens otherwise). Only ed changes the disk here."
  },
  {
   "property": "C164",
   "status": "proved",
   "theorems": [
    "Ed.C164_reported",
    "Ed.C164_stays",
    "Ed.C164_unsaved"
   ],
   "note": "Cut short means the process ends; the machine goes on running (ed does not call fsync, and what a disk holds after a power failure is not modelled)."
  },
  {
   "property": "C165",
   "status": "partial",
   "theorems": [
    "Ed.Race.C165_bytes",
    "Ed.Race.C165_one_succeeds",
    "Ed.Race.C165_same_text_partial",
    "Ed.Race.C165_alone_partial",
    "Ed.Race.C165_nothing_left",
    "Ed.Race.C165_missing",
    "Ed.Race.C165_counterexample"
   ],
   "note": "The last sentence of the statement is false: C165_counterexample has two editors after which the file holds the shorter text followed by the end of the longer one, or the text of the editor whose save failed while the save of the other succeeded, or null bytes for a while. The general bounds (bytes, one success, old text until then) hold without restriction; the end result is proved for equal texts and for a save that is not disturbed. Needed: the temporary name has no other name and no links (as in C104)."
  },
  {
   "property": "C166",
   "status": "partial",
   "theorems": [
    "Head.C166_left",
    "Head.C166_terminal_partial",
    "Head.C166_nothing_left",
    "Head.C166_then_cat_partial",
    "Head.C166_twice_partial",
    "Head.C166_counterexample"
   ],
   "note": "The last sentence of the statement is false: C166_counterexample. The theorems say exactly what is left for lines that arrive one at a time, and bound it from both sides for any division."
  },
  {
   "property": "C167",
   "status": "partial",
   "theorems": [
    "Kill.C167_kill",
    "Cat.C167_cat",
    "Cat.C167_cat_files",
    "Ed.C167_ed",
    "Ed.C167_ed_saved",
    "Ed.C167_ed_unread",
    "Ed.C167_ed_taken_partial",
    "Ed.C167_ed_ends"
   ],
   "note": "That the request is carried out although nobody reads the output is refuted for every input (C167_ed_unread, C167_ed_saved, C167_kill); it holds as long as the messages are taken (C167_ed_taken_partial, last part of C167_kill). cat is complete. That a failed write to standard output ends the process is package os (epipecheck), part of the trusted base."
  },
  {
   "property": "C168",
   "status": "partial",
   "theorems": [
    "Ed.C168_same",
    "Ed.C168_journal",
    "Ed.C168_never_quiet",
    "Ed.C168_edit",
    "Ed.C168_write",
    "Ed.C168_delete",
    "Ed.C168_told",
    "Ed.C168_search",
    "Ed.C168_quiet",
    "Ed.C168_mix_same",
    "Ed.C168_mix_all",
    "Ed.C168_mix_complete",
    "Ed.C168_mix_reader_place",
    "Ed.C168_mix_main_place"
   ],
   "note": "Refuted parts: C168_never_quiet (any input makes notes) and the middle part of C168_write."
  },
  {
   "property": "C169",
   "status": "partial",
   "theorems": [
    "Diff.C169_sections",
    "Diff.C169_header_partial",
    "Diff.C169_footer_partial",
    "Diff.C169_printed",
    "Diff.C169_header_printed_partial",
    "Diff.C169_counterexample"
   ],
   "note": "The expectation that common new lines in front never matter is refuted by C169_counterexample; what is missing for the positive part is an exact condition when both parts go on with the same line."
  },
  {
   "property": "C170",
   "status": "proved",
   "theorems": [
    "TSort.C170_apart",
    "TSort.C170_together",
    "TSort.C170_fails",
    "TSort.C170_command"
   ],
   "note": ""
  },
  {
   "property": "C171",
   "status": "proved",
   "theorems": [
    "Ed.C171_visits",
    "Ed.C171_numbers",
    "Ed.C171_print_stays"
   ],
   "note": ""
  },
  {
   "property": "C172",
   "status": "partial",
   "theorems": [
    "Ed.C172_shown",
    "Ed.C172_add_partial",
    "Ed.C172_delete_partial",
    "Ed.C172_change_partial",
    "Ed.C172_then_append",
    "Ed.C172_typed",
    "Ed.C172_counterexample"
   ],
   "note": "false as stated for a, d and c: the code adds one to the largest integer; which numbers are taken, which end the program, and where the next text goes is proved exactly"
  },
  {
   "property": "C173",
   "status": "proved",
   "theorems": [
    "Ed.C173_command",
    "Ed.C173_session",
    "Ed.C173_crash",
    "Ed.C173_fits",
    "Ed.C173_terminated",
    "Ed.C173_script"
   ],
   "note": "cuts that end behind the end of an unterminated text depend on the pieces: C05 and C80"
  },
  {
   "property": "C174",
   "status": "proved",
   "theorems": [
    "Ed.C174_command",
    "Ed.C174_session",
    "Ed.C174_settled",
    "Ed.C174_covers"
   ],
   "note": "saves are taken to succeed; marks, backward searches, offsets, searches that find nothing and places behind the end of the text are what the reference cannot carry out: C76, C89, C64, C173"
  },
  {
   "property": "C175",
   "status": "proved",
   "theorems": [
    "Ed.C175_search",
    "Ed.C175_command",
    "Ed.C175_session",
    "Ed.C175_said",
    "Ed.C175_adrift"
   ],
   "note": "saves are taken to succeed, and capacities of tables to stay below 2^62; the reference leaves open ranges given backwards and places behind the end in d and c, w without the file, and texts with lines too long to be read (C175_said): see C61, C62, C76, C173"
  },
  {
   "property": "C176",
   "status": "proved",
   "theorems": [
    "Ed.C176_command",
    "Ed.C176_failed",
    "Ed.C176_session"
   ],
   "note": "that edits are lost by a failed save is a fault of the code (see C71)"
  },
  {
   "property": "C177",
   "status": "proved",
   "theorems": [
    "Ed.C177_command",
    "Ed.C177_script",
    "Ed.C177_every_file",
    "Ed.C177_said",
    "Ed.C177_blank"
   ],
   "note": "C177_blank shows that blank last lines have to be excluded: they are not counted (C28)"
  },
  {
   "property": "C178",
   "status": "proved",
   "theorems": [
    "Ed.C178_one_test",
    "Ed.C178_leaves",
    "Ed.C178_needs_distinct"
   ],
   "note": "for scripts C177 speaks of: no searches, no e, no backwards ranges"
  },
  {
   "property": "C179",
   "status": "proved",
   "theorems": [
    "Ed.C179_every_file",
    "Ed.C179_alike",
    "Ed.C179_one_test"
   ],
   "note": "regular expressions enter as a parameter (which expression matches which line), as elsewhere in the model of ed"
  },
  {
   "property": "C180",
   "status": "partial",
   "theorems": [
    "Ed.C180_order_partial",
    "Ed.C180_none_lost_partial",
    "Ed.C180_backwards"
   ],
   "note": "false for ranges given backwards, which always double lines of a file just opened (C180_backwards); proved for the scripts of C177 and C179: no ranges backwards, no `e`, searches only for known expressions, no blank line that becomes the last one"
  },
  {
   "property": "C181",
   "status": "partial",
   "theorems": [
    "Ed.C181_answers_partial"
   ],
   "note": "proved for the scripts of C177 and C179: no ranges backwards, no `e`, searches only for known expressions, no blank line that becomes the last one; after a range given backwards bytes from elsewhere show up (C106, C151)"
  }
 ]
}