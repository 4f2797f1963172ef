{
 "claims": [
  {
   "property": "C01",
   "status": "partial",
   "theorems": [
    "Litcheck.C01_ordered_partial",
    "Litcheck.C01_crlf_refuted"
   ],
   "note": "Proved for every matcher that meets its contract, for inputs searched with LF line endings, and for all inputs if the check file has only CHECK, CHECK-COUNT, CHECK-DAG and CHECK-NOT lines; with CRLF endings and other directives the code violates it (refuted theorem)."
  },
  {
   "property": "C02",
   "status": "proved",
   "theorems": [
    "Litcheck.C02_plain_iff"
   ],
   "note": ""
  },
  {
   "property": "C03",
   "status": "partial",
   "theorems": [
    "Litcheck.C03_next_partial",
    "Litcheck.C03_crlf_refuted"
   ],
   "note": "Proved for every matcher that meets its contract, for inputs searched with LF line endings, and for all inputs if the check file has only CHECK, CHECK-COUNT, CHECK-DAG and CHECK-NOT lines; with CRLF endings and other directives the code violates it (refuted theorem)."
  },
  {
   "property": "C04",
   "status": "partial",
   "theorems": [
    "Litcheck.C04_same_partial",
    "Litcheck.C04_crlf_refuted"
   ],
   "note": "Proved for every matcher that meets its contract, for inputs searched with LF line endings, and for all inputs if the check file has only CHECK, CHECK-COUNT, CHECK-DAG and CHECK-NOT lines; with CRLF endings and other directives the code violates it (refuted theorem)."
  },
  {
   "property": "C05",
   "status": "partial",
   "theorems": [
    "Litcheck.C05_empty_partial",
    "Litcheck.C05_crlf_refuted",
    "Litcheck.C05_eof_refuted"
   ],
   "note": "Proved for every matcher that meets its contract, for inputs searched with LF line endings, and for all inputs if the check file has only CHECK, CHECK-COUNT, CHECK-DAG and CHECK-NOT lines; with CRLF endings and other directives the code violates it (refuted theorem)."
  },
  {
   "property": "C06",
   "status": "partial",
   "theorems": [
    "Litcheck.C06_not_partial",
    "Litcheck.C06_crlf_refuted"
   ],
   "note": "Patterns whose meaning does not depend on variables; LF inputs, or only CHECK, CHECK-COUNT, CHECK-DAG and CHECK-NOT lines; otherwise refuted for CRLF endings."
  },
  {
   "property": "C07",
   "status": "partial",
   "theorems": [
    "Litcheck.C07_count_partial",
    "Litcheck.C09_crlf_refuted"
   ],
   "note": "Proved for every matcher that meets its contract, for inputs searched with LF line endings, and for all inputs if the check file has only CHECK, CHECK-COUNT, CHECK-DAG and CHECK-NOT lines; with CRLF endings and other directives the code violates it (refuted theorem)."
  },
  {
   "property": "C08",
   "status": "partial",
   "theorems": [
    "Litcheck.C08_dag_partial",
    "Litcheck.C08_dag_accounted",
    "Litcheck.C08_duplicate_refuted",
    "Litcheck.dag_adjacent_rejected",
    "Litcheck.dag_incomplete"
   ],
   "note": "Soundness up to duplicates; code violates the rest (refuted)."
  },
  {
   "property": "C09",
   "status": "partial",
   "theorems": [
    "Litcheck.C09_blocks_partial",
    "Litcheck.C09_crlf_refuted"
   ],
   "note": "Proved for every matcher that meets its contract, for inputs searched with LF line endings, and for all inputs if the check file has only CHECK, CHECK-COUNT, CHECK-DAG and CHECK-NOT lines; with CRLF endings and other directives the code violates it (refuted theorem)."
  },
  {
   "property": "C10",
   "status": "partial",
   "theorems": [
    "Litcheck.C10_missing_label_partial",
    "Litcheck.C10_crlf_refuted"
   ],
   "note": "LF mode only (with CRLF endings the code violates it, refuted); patterns otherwise arbitrary."
  },
  {
   "property": "C100",
   "status": "proved",
   "theorems": [
    "Litcheck.Sets.C100_refused",
    "Litcheck.Sets.C100_fixed"
   ],
   "note": "Any input, options, definitions and other lines."
  },
  {
   "property": "C101",
   "status": "partial",
   "theorems": [
    "Litcheck.Spans.C101_accepted",
    "Litcheck.Spans.C101_at",
    "Litcheck.Spans.C101_text",
    "Litcheck.Spans.C101_slice",
    "Litcheck.Spans.C101_contains",
    "Litcheck.Spans.C101_unchecked_partial",
    "Litcheck.Spans.C101_shift_partial",
    "Litcheck.Spans.C101_extend_partial",
    "Litcheck.Spans.C101_spanned",
    "Litcheck.Spans.C101_unchecked_refuted",
    "Litcheck.Spans.C101_reversed_refuted",
    "Litcheck.Spans.C101_shift_refuted"
   ],
   "note": "Exact for ranges which end after they start and for shifts within the file. Refuted: from_range_unchecked truncates positions silently; ranges which end before they start are accepted and have no length; a shift to the left of the start wraps."
  },
  {
   "property": "C102",
   "status": "partial",
   "theorems": [
    "Litcheck.Inputs.C102_slice",
    "Litcheck.Inputs.C102_new",
    "Litcheck.Inputs.C102_within",
    "Litcheck.Inputs.C102_bounds",
    "Litcheck.Inputs.C102_bytes",
    "Litcheck.Inputs.C102_chars_partial",
    "Litcheck.Inputs.C102_peek",
    "Litcheck.Inputs.C102_start_refuted",
    "Litcheck.Inputs.C102_chars_refuted"
   ],
   "note": "Characters: if the part is text in UTF-8. Refuted: the start may be set beyond the end of the part, and then asking for the part panics; a part which begins within a character reads as NULs for ever. How bstr decodes characters is modelled by the decoder of the regular expressions."
  },
  {
   "property": "C103",
   "status": "partial",
   "theorems": [
    "Litcheck.Cursors.C103_within",
    "Litcheck.Cursors.C103_panics",
    "Litcheck.Cursors.C103_line_partial",
    "Litcheck.Cursors.C103_bounds",
    "Litcheck.Cursors.C103_guard",
    "Litcheck.Cursors.C103_reset",
    "Litcheck.Cursors.C103_start",
    "Litcheck.Cursors.C103_end",
    "Litcheck.Cursors.C103_newline",
    "Litcheck.Cursors.C103_position",
    "Litcheck.Cursors.C103_consume_refuted",
    "Litcheck.Cursors.C103_crlf_refuted",
    "Litcheck.Cursors.C103_bounds_refuted"
   ],
   "note": "The bounds, the guards and the absence of panics: for all texts and histories (without debug assertions). The line: for texts with line feeds and histories without consume_newline, for which it is false (C103_consume_refuted, C103_crlf_refuted). The start can be moved to before the bounds (C103_bounds_refuted); nothing in the repository calls consume_newline."
  },
  {
   "property": "C11",
   "status": "proved",
   "theorems": [
    "Litcheck.C11_no_failure_lost",
    "Litcheck.C11_failed_rule"
   ],
   "note": ""
  },
  {
   "property": "C12",
   "status": "proved",
   "theorems": [
    "Litcheck.C12_empty_fails",
    "Litcheck.C12_otherwise"
   ],
   "note": ""
  },
  {
   "property": "C13",
   "status": "partial",
   "theorems": [
    "Litcheck.C13_rules_partial",
    "Litcheck.Sets.C13_text_partial",
    "Litcheck.Sets.C13_matchers_partial",
    "Litcheck.Sets.C13_uses_partial",
    "Litcheck.C13_next_label_refuted",
    "Litcheck.C13_dag_not_refuted",
    "Litcheck.C13_duplicates_refuted",
    "Litcheck.C13_crlf_refuted",
    "Litcheck.Sets.C13_literal_empty_refuted",
    "Litcheck.Sets.C13_same_empty_refuted",
    "Litcheck.Sets.C13_label_empty_refuted",
    "Litcheck.Sets.C13_same_label_refuted"
   ],
   "note": "Proved from the text of the check file, for every LF input (every input if no directive looks at lines), for files whose directives are in order, where groups and labels use no variables and capture no numbers, and other patterns that use variables are well-formed, safe and begin with a part which is not empty (PlainFile); refuted with concrete inputs where the code panics: CHECK-NEXT before a label, a failed CHECK-DAG group before CHECK-NOT, repeated patterns in a group, CRLF, {LITERAL} without text, empty matches of CHECK-SAME and CHECK-LABEL, CHECK-SAME before a label. Panics inside matchers with variables: C76-C78."
  },
  {
   "property": "C14",
   "status": "proved",
   "theorems": [
    "Litcheck.C14_drop",
    "Litcheck.C14_save",
    "Litcheck.C14_history"
   ],
   "note": "take/merge of guards (dynamic CHECK-DAG visitor) not modelled"
  },
  {
   "property": "C15",
   "status": "proved",
   "theorems": [
    "Litcheck.C15_off",
    "Litcheck.C15_on",
    "Litcheck.C14_history"
   ],
   "note": ""
  },
  {
   "property": "C16",
   "status": "proved",
   "theorems": [
    "Litcheck.C16_compile_keeps",
    "Litcheck.C16_compile_keeps_implicit"
   ],
   "note": ""
  },
  {
   "property": "C17",
   "status": "proved",
   "theorems": [
    "Litcheck.C17_relative_first"
   ],
   "note": ""
  },
  {
   "property": "C18",
   "status": "partial",
   "theorems": [
    "Litcheck.C18_gaps_partial",
    "Litcheck.C18_absent_partial",
    "Litcheck.C18_label_refuted"
   ],
   "note": "Holds before the first label; refuted for labelled blocks."
  },
  {
   "property": "C19",
   "status": "proved",
   "theorems": [
    "Litcheck.C19_leftmost",
    "Litcheck.C19_found_iff"
   ],
   "note": ""
  },
  {
   "property": "C20",
   "status": "proved",
   "theorems": [
    "Litcheck.C20_strict",
    "Litcheck.C20_each",
    "Litcheck.C20_idempotent",
    "Litcheck.C20_equal_iff"
   ],
   "note": ""
  },
  {
   "property": "C21",
   "status": "proved",
   "theorems": [
    "Litcheck.C21_round_trip",
    "Litcheck.C21_unsigned_refuted",
    "Litcheck.C21_hex_refuted",
    "Litcheck.C21_hex_negative_refuted"
   ],
   "note": "Proved for the numbers a format can print; outside (unsigned >= 2^64, negative hexadecimal) refuted."
  },
  {
   "property": "C22",
   "status": "partial",
   "theorems": [
    "Litcheck.C22_symmetric_partial",
    "Litcheck.C22_symmetric_dec",
    "Litcheck.C22_casing_refuted",
    "Litcheck.C22_precise",
    "Litcheck.C22_conflict_iff"
   ],
   "note": "The casing depends on the order (refuted); everything else proved."
  },
  {
   "property": "C23",
   "status": "proved",
   "theorems": [
    "Litcheck.C23_line",
    "Litcheck.C23_step",
    "Litcheck.C23_mono"
   ],
   "note": ""
  },
  {
   "property": "C24",
   "status": "proved",
   "theorems": [
    "Litcheck.C24_disjoint_iff",
    "Litcheck.C24_error"
   ],
   "note": ""
  },
  {
   "property": "C25",
   "status": "partial",
   "theorems": [
    "Litcheck.C25_unused_iff_partial",
    "Litcheck.C25_accepted_iff_partial",
    "Litcheck.C25_duplicate_refuted",
    "Litcheck.C25_command"
   ],
   "note": "Of the library: for distinct prefixes; refuted for a prefix given twice. Of the command, which removes repetitions: success means that every check prefix is used in the check file (C25_command), for all options."
  },
  {
   "property": "C26",
   "status": "partial",
   "theorems": [
    "Litcheck.C26_history_partial",
    "Litcheck.C26_edit",
    "Litcheck.C26_new",
    "Litcheck.C26_new_ok",
    "Litcheck.C26_after_newline_refuted",
    "Litcheck.C26_delete_line_refuted",
    "Litcheck.C26_huge_refuted"
   ],
   "note": "For edits selecting by positions within lines; refuted for columns just after a line feed, and for edits which insert 2 GiB or more at once. Files below 4 GiB."
  },
  {
   "property": "C27",
   "status": "proved",
   "theorems": [
    "Litcheck.C27_line",
    "Litcheck.C27_round_trip",
    "Litcheck.C27_location",
    "Litcheck.C27_back",
    "Litcheck.C27_characters_refuted"
   ],
   "note": "Byte columns; locations (counted in characters) do not lead back (refuted)."
  },
  {
   "property": "C28",
   "status": "proved",
   "theorems": [
    "Litcheck.C28_partition"
   ],
   "note": ""
  },
  {
   "property": "C29",
   "status": "partial",
   "theorems": [
    "Litcheck.C29_stable",
    "Litcheck.C29_loaded",
    "Litcheck.C29_latest",
    "Litcheck.C29_edited",
    "Litcheck.C29_again_partial",
    "Litcheck.C29_again_refuted",
    "Litcheck.C29_group_refuted",
    "Litcheck.C29_named_partial",
    "Litcheck.C29_named_refuted"
   ],
   "note": "Names lead to files by their text. Loading the same name and content again gives the same id only if nothing else was loaded under the name in between (otherwise refuted). Refuted: the standard input and a file called stdin are taken for each other, and so are all paths which are not valid Unicode."
  },
  {
   "property": "C30",
   "status": "proved",
   "theorems": [
    "Litcheck.C30_symbols",
    "Litcheck.C30_total"
   ],
   "note": ""
  },
  {
   "property": "C31",
   "status": "proved",
   "theorems": [
    "Litcheck.C31_accepted",
    "Litcheck.C31_refused"
   ],
   "note": "Values are strings."
  },
  {
   "property": "C32",
   "status": "partial",
   "theorems": [
    "Litcheck.PathTree.get_is_last_partial",
    "Litcheck.PathTree.insert_keeps_others_partial",
    "Litcheck.PathTree.get_is_last_refuted_root",
    "Litcheck.PathTree.get_is_last_refuted_empty",
    "Litcheck.PathTree.reinsert_refused"
   ],
   "note": "For every history of accepted and refused insertions, over a file system that may change between calls. Excluded and refuted: inserting / while its kind is unknown (/x/.. for a missing /x) is accepted and lost; a path that canonicalises to nothing panics. Also shown: re-inserting a path of unknown kind that became a branch is refused, against the documentation."
  },
  {
   "property": "C33",
   "status": "partial",
   "theorems": [
    "Litcheck.PathTree.nearest_is_longest_partial",
    "Litcheck.PathTree.nearest_is_longest_refuted",
    "Litcheck.PathTree.nearest_entry_refuted"
   ],
   "note": "Proved for every history whose paths have two components or are known directories. Refuted otherwise: a relative one-component path makes a root that hides nearer directories. Also refuted: the documentation, which promises the nearest entry of any kind."
  },
  {
   "property": "C34",
   "status": "partial",
   "theorems": [
    "Litcheck.PathTree.canonicalised_simple",
    "Litcheck.PathTree.canonicalise_idempotent",
    "Litcheck.PathTree.canonicalise_same_place_partial",
    "Litcheck.PathTree.canonicalise_same_place_refuted",
    "Litcheck.PathTree.C34_resolved",
    "Litcheck.PathTree.C34_simple",
    "Litcheck.PathTree.C34_idempotent_partial",
    "Litcheck.PathTree.C34_idempotent_refuted"
   ],
   "note": "Normal form and idempotence for every component sequence; same location unless the path tries to climb above the root, where the root itself is dropped (refuted). With a file system whose links the operating system resolves: normal form always; idempotent unless the path cannot be resolved but what it is simplified to can (refuted: /x/../l for a link /l and no /x)."
  },
  {
   "property": "C35",
   "status": "proved",
   "theorems": [
    "Litcheck.C35_round_trip",
    "Litcheck.C35_reparse",
    "Litcheck.C35_pattern_refuted"
   ],
   "note": "With patterns the text gains a group (refuted)."
  },
  {
   "property": "C36",
   "status": "partial",
   "theorems": [
    "Litcheck.C36_accepts",
    "Litcheck.C36_documented_accepted",
    "Litcheck.C36_documented_partial",
    "Litcheck.C36_plain",
    "Litcheck.C36_total",
    "Litcheck.C36_meaning",
    "Litcheck.C36_nul_refuted",
    "Litcheck.C36_lone_refuted"
   ],
   "note": "Exact characterisation of what is accepted; it equals the documented grammar for texts without NUL in which no pattern begins with a brace. Refuted otherwise. Regular expressions are a parameter."
  },
  {
   "property": "C37",
   "status": "proved",
   "theorems": [
    "Litcheck.C37_required",
    "Litcheck.C37_unsupported"
   ],
   "note": ""
  },
  {
   "property": "C38",
   "status": "partial",
   "theorems": [
    "Litcheck.C38_verdict_partial",
    "Litcheck.C38_script",
    "Litcheck.C38_extension_refuted",
    "Litcheck.C38_redefine_refuted"
   ],
   "note": "Proved when the test file name has an extension, its temporary directory can be made and substitutions apply. Refuted otherwise: a name without extension panics, an invalid REDEFINE ends the run."
  },
  {
   "property": "C39",
   "status": "proved",
   "theorems": [
    "Litcheck.C39_retries",
    "Litcheck.C39_bounds",
    "Litcheck.C39_flaky",
    "Litcheck.C39_script"
   ],
   "note": ""
  },
  {
   "property": "C40",
   "status": "proved",
   "theorems": [
    "Litcheck.C40_lookup",
    "Litcheck.C40_override",
    "Litcheck.C40_visible",
    "Litcheck.C40_define",
    "Litcheck.C40_redefine",
    "Litcheck.C40_script"
   ],
   "note": ""
  },
  {
   "property": "C41",
   "status": "partial",
   "theorems": [
    "Litcheck.C41_partial",
    "Litcheck.C41_marker_refuted",
    "Litcheck.C41_join_refuted"
   ],
   "note": "Proved for literal keys beginning with a percent sign, where no text contains # and no replacement contains a percent sign; outside this two scripts refute the property."
  },
  {
   "property": "C42",
   "status": "proved",
   "theorems": [
    "Litcheck.C42_inherit",
    "Litcheck.C42_assoc",
    "Litcheck.C42_chain"
   ],
   "note": ""
  },
  {
   "property": "C43",
   "status": "proved",
   "theorems": [
    "Litcheck.C43_selected"
   ],
   "note": ""
  },
  {
   "property": "C44",
   "status": "partial",
   "theorems": [
    "Litcheck.C44_parse",
    "Litcheck.C44_directives_unique",
    "Litcheck.C44_ok_iff_partial",
    "Litcheck.C44_runs",
    "Litcheck.C44_end",
    "Litcheck.C44_usize",
    "Litcheck.C44_line_references",
    "Litcheck.C44_define_refuted",
    "Litcheck.C44_continuation_refuted",
    "Litcheck.C44_last_line_refuted",
    "Litcheck.C44_comma_refuted"
   ],
   "note": "Exact for every text. Refuted: definitions without a value and continuations at the end of the text are accepted, the last line without a line feed has the wrong number."
  },
  {
   "property": "C45",
   "status": "partial",
   "theorems": [
    "Litcheck.TestList.C45_deque",
    "Litcheck.TestList.C45_cursor",
    "Litcheck.TestList.C45_iter",
    "Litcheck.TestList.C45_iter_length_partial",
    "Litcheck.TestList.C45_drain",
    "Litcheck.TestList.C45_split_partial",
    "Litcheck.TestList.C45_parallel_unindexed",
    "Litcheck.TestList.C45_parallel_partial",
    "Litcheck.TestList.C45_split_refuted",
    "Litcheck.TestList.C45_split_two_refuted",
    "Litcheck.TestList.C45_back_iter_refuted",
    "Litcheck.TestList.C45_back_mut_refuted",
    "Litcheck.TestList.C45_splice_refuted",
    "Litcheck.TestList.C45_parallel_refuted"
   ],
   "note": "Every history of pushes, pops, appends and clears, and every history of cursor operations from the front other than splicing, agrees with the plain sequence, with exact lengths; iterating and draining visit each test once in order; splitting preserves the sequence. Refuted: a split cuts one test too late (always), two tests are never separated, into_par_iter over three tests may panic, reading the iterator from the back yields the first test only, back_mut and splicing lose track of the position."
  },
  {
   "property": "C46",
   "status": "proved",
   "theorems": [
    "Litcheck.Registry.C46_set",
    "Litcheck.Registry.C46_insert",
    "Litcheck.Registry.C46_load"
   ],
   "note": ""
  },
  {
   "property": "C47",
   "status": "partial",
   "theorems": [
    "Litcheck.Registry.C47_first_partial",
    "Litcheck.Registry.C47_directory_partial",
    "Litcheck.Registry.C47_cached_refuted",
    "Litcheck.Registry.C47_elsewhere_refuted"
   ],
   "note": "Proved for the first input, and for suite directories after any suite directories. Refuted: after another file, a file of a nested suite is given to the outer suite (cache); a suite whose sources are elsewhere panics."
  },
  {
   "property": "C48",
   "status": "proved",
   "theorems": [
    "Litcheck.Runner.C48_accounted",
    "Litcheck.Runner.C48_once",
    "Litcheck.Runner.C48_schedule",
    "Litcheck.Runner.C48_progress",
    "Litcheck.Runner.C48_terminates"
   ],
   "note": "A transition system over any number of workers; every interleaving. Tests which panic or hang are not part of the model of the runner."
  },
  {
   "property": "C49",
   "status": "proved",
   "theorems": [
    "Litcheck.Runner.C49_finish",
    "Litcheck.Runner.C49_exit",
    "Litcheck.Runner.C49_other",
    "Litcheck.Runner.ran_sh"
   ],
   "note": "The hypothesis that executing a test never yields excluded/skipped is proved of the shell format (ran_sh)."
  },
  {
   "property": "C50",
   "status": "proved",
   "theorems": [
    "Litcheck.C50_not"
   ],
   "note": ""
  },
  {
   "property": "C51",
   "status": "partial",
   "theorems": [
    "Litcheck.C51_accepted",
    "Litcheck.C51_rejected_iff",
    "Litcheck.C51_shrink_front",
    "Litcheck.C51_truncate",
    "Litcheck.C51_pop_front_refuted",
    "Litcheck.C51_pop_back_refuted",
    "Litcheck.C51_truncate_refuted"
   ],
   "note": "pop_front, pop_back and truncate are refuted."
  },
  {
   "property": "C52",
   "status": "partial",
   "theorems": [
    "Litcheck.C52_next",
    "Litcheck.C52_prev",
    "Litcheck.C52_next_in_range",
    "Litcheck.C52_prev_in_range",
    "Litcheck.C52_prev_refuted",
    "Litcheck.C52_last_refuted",
    "Litcheck.C52_crlf_refuted"
   ],
   "note": "Searching a text backwards from its end always reports that there is no line feed (C52_last_refuted). CRLF finders and the next line start after a backward search are refuted."
  },
  {
   "property": "C53",
   "status": "partial",
   "theorems": [
    "Litcheck.C53_variables_partial",
    "Litcheck.Sets.C53_text_partial"
   ],
   "note": "Entry environments, carrying from block to block, chains of CHECK-COUNT, lines which bind nothing; and the same of the text of a check file (C53_text_partial), where the lines of a group of CHECK-DAG lines are matched in the order of their places, each with the variables left by the match before. Missing: check files which are not GoodFile, CRLF inputs looked at by lines."
  },
  {
   "property": "C54",
   "status": "proved",
   "theorems": [
    "Litcheck.C54_read"
   ],
   "note": "i/o errors and UTF-8 validation are not modelled."
  },
  {
   "property": "C55",
   "status": "partial",
   "theorems": [
    "Litcheck.C55_matched_is_read",
    "Litcheck.C55_printed_matches",
    "Litcheck.C55_precision_refuted"
   ],
   "note": "Refuted for precisions above 39 (32 in hexadecimal)."
  },
  {
   "property": "C56",
   "status": "proved",
   "theorems": [
    "Litcheck.C56_excerpt"
   ],
   "note": "32-bit overflow of spans is not modelled."
  },
  {
   "property": "C57",
   "status": "partial",
   "theorems": [
    "Litcheck.PathTree.iter_entries_partial",
    "Litcheck.PathTree.iter_entries_refuted"
   ],
   "note": "Exactly the entries, each once, except directories with nothing below (refuted)."
  },
  {
   "property": "C58",
   "status": "partial",
   "theorems": [
    "Litcheck.C58_verdict_partial",
    "Litcheck.C58_limit_partial",
    "Litcheck.C58_stopped_refuted"
   ],
   "note": "The verdict is right, but the process is not stopped at the limit: the code waits for the end of its output first (refuted)."
  },
  {
   "property": "C59",
   "status": "partial",
   "theorems": [
    "Litcheck.C59_not_run_partial",
    "Litcheck.C59_panics_refuted"
   ],
   "note": "Every binary that can be started makes the program panic."
  },
  {
   "property": "C60",
   "status": "partial",
   "theorems": [
    "Litcheck.Runner.C60_summary_partial",
    "Litcheck.Runner.C60_lost_refuted",
    "Litcheck.Runner.C60_selected_refuted"
   ],
   "note": "A test which ends with an error appears nowhere in the summary; if it was the only one selected, the command claims that none was."
  },
  {
   "property": "C61",
   "status": "partial",
   "theorems": [
    "Litcheck.Registry.C61_directories_partial",
    "Litcheck.Registry.C61_subdirectory_refuted"
   ],
   "note": "Proved for every list of suite directories on every disk with plain suites. Refuted for a subdirectory of a suite: its tests get the wrong name and a path at which there is no file."
  },
  {
   "property": "C62",
   "status": "partial",
   "theorems": [
    "Litcheck.Registry.C62_files_partial",
    "Litcheck.Registry.C61_directories_partial",
    "Litcheck.Registry.C62_union_refuted"
   ],
   "note": "Proved for any list of files of one suite and any list of suite directories. Refuted for a mixture: lit tests/a.txt tests runs a.txt only."
  },
  {
   "property": "C63",
   "status": "partial",
   "theorems": [
    "Litcheck.Registry.C63_file_partial",
    "Litcheck.Registry.C63_suite_refuted",
    "Litcheck.Registry.C63_directory_refuted",
    "Litcheck.Registry.C63_top_refuted",
    "Litcheck.Registry.C63_cached_refuted",
    "Litcheck.Registry.C63_panic_refuted"
   ],
   "note": "Proved for a run on one file. Refuted for whole suites, directories, the suite directory itself, cached ancestors; and a panic."
  },
  {
   "property": "C64",
   "status": "partial",
   "theorems": [
    "Litcheck.C64_parse_iff",
    "Litcheck.C64_parse_sound",
    "Litcheck.C64_documented_partial",
    "Litcheck.C64_one_line",
    "Litcheck.C64_indented_refuted"
   ],
   "note": "The check lines of every file are exactly characterised (C64_parse_iff) for prefixes that cannot be mistaken for each other. The documented rule holds if no directive is the first thing on an indented line; refuted otherwise."
  },
  {
   "property": "C65",
   "status": "proved",
   "theorems": [
    "Litcheck.C65_split_unique",
    "Litcheck.C65_split_concat",
    "Litcheck.C64_parse_iff",
    "Litcheck.C65_whitespace_facts"
   ],
   "note": "The meaning of a directive (Reads, in C64_parse_iff) is defined by the split. White space: what is dropped is stated in Spec/CheckLine and shown in C65_whitespace_facts."
  },
  {
   "property": "C66",
   "status": "partial",
   "theorems": [
    "Litcheck.C66_rejected_iff",
    "Litcheck.C66_readable_iff",
    "Litcheck.C66_misspelt_refuted"
   ],
   "note": "Rejection is exactly characterised. Refuted: misspelt directives are not reported."
  },
  {
   "property": "C67",
   "status": "partial",
   "theorems": [
    "Litcheck.C67_numeric_block_partial",
    "Litcheck.C67_implicit",
    "Litcheck.C67_implicit_refuted",
    "Litcheck.C67_rejected_refuted"
   ],
   "note": "Proved for blocks with ==, with a capture, or a single variable. Refuted: [[#A-1-1]] is A-(1-1), and several documented forms are rejected."
  },
  {
   "property": "C68",
   "status": "partial",
   "theorems": [
    "Litcheck.C68_reported_partial",
    "Litcheck.C68_documented_partial",
    "Litcheck.C68_constraint_refuted",
    "Litcheck.C68_value_refuted",
    "Litcheck.C68_alternatives_refuted"
   ],
   "note": "Proved for the weaker reading (constraints not enforced, values with special characters read as regular expressions) and, for plain inputs without constraints, for the documented one; parts must be readable by themselves. Refuted: [[#X: 5]] matches 7, [[A]] with value a.c matches abc, {{a|b}}c matches a."
  },
  {
   "property": "C69",
   "status": "partial",
   "theorems": [
    "Litcheck.C69_leftmost_partial",
    "Litcheck.C69_blank_partial",
    "Litcheck.C69_tab_refuted",
    "Litcheck.C69_number_refuted",
    "Litcheck.C69_blank_refuted"
   ],
   "note": "Proved for every pattern without uses whose literals have only blanks for horizontal white space (or with --strict-whitespace). Refuted otherwise: a literal with a tab is not found although the input has it (C69_tab_refuted); when a captured number does not fit, the search fails though a later match exists (C69_number_refuted). A pattern which is only white space is compared with the beginning of the range only (C69_blank_partial: exactly what it matches; C69_blank_refuted); the parser does not produce such patterns from a whole check line."
  },
  {
   "property": "C70",
   "status": "partial",
   "theorems": [
    "Litcheck.C70_single_partial",
    "Litcheck.C70_words_partial",
    "Litcheck.C70_words_total_partial",
    "Litcheck.C70_text_use_partial",
    "Litcheck.C70_overlap_refuted",
    "Litcheck.C70_capture_refuted"
   ],
   "note": "Proved for patterns which are one substitution or expression; and for patterns which are literals and uses of variables or expressions with plain non-empty values, up to the last use, and then a part without uses, if no sequence of these words at the front overlaps itself and no match which captures ends at the end of the range: the first match is reported if there is one; without captures the search ends with a result. For text[[X]] the condition is that the text does not overlap itself. Missing: regular expressions and captures before a use; values which are regular expressions. Refuted in general: aa[[X]] with X=b is not found in aaab; [[X]][[B:.+]] is not found in bc."
  },
  {
   "property": "C71",
   "status": "partial",
   "theorems": [
    "Litcheck.C71_decided",
    "Litcheck.C71_terminates_partial",
    "Litcheck.C71_ends_refuted"
   ],
   "note": "Ends if the range ends before the input or the first part does not match the empty text at the end. Refuted: the search for {{.*}}[[X]] in ab, X=b, goes on for ever. C71_decided: the number of attempts which the model makes decides."
  },
  {
   "property": "C72",
   "status": "partial",
   "theorems": [
    "Litcheck.C72_release_iff",
    "Litcheck.C72_checked",
    "Litcheck.C72_exact_partial",
    "Litcheck.C72_overflow_refuted",
    "Litcheck.C72_zero_refuted"
   ],
   "note": "Exact if no result overflows or the build checks for overflow. Refuted: a release build wraps, and a division by zero panics."
  },
  {
   "property": "C73",
   "status": "proved",
   "theorems": [
    "Litcheck.C73_undefined"
   ],
   "note": "For every pattern, input and environment; the parts need not be readable by themselves."
  },
  {
   "property": "C74",
   "status": "partial",
   "theorems": [
    "Litcheck.C74_captured_partial",
    "Litcheck.C74_unchanged"
   ],
   "note": "Variables which are not captured keep their values: proved for every pattern and result. The captured values: for patterns whose parts can be read by themselves (WellFormed)."
  },
  {
   "property": "C75",
   "status": "partial",
   "theorems": [
    "Litcheck.C75_failed_partial",
    "Litcheck.C75_failed_refuted"
   ],
   "note": "Proved when nothing is found and for diagnostics. Refuted: [[#%.2X,N:]]-[[X]] with --ignore-case fails on ab-b but binds N."
  },
  {
   "property": "C76",
   "status": "partial",
   "theorems": [
    "Litcheck.Sets.C76_nots_partial",
    "Litcheck.Sets.C76_plain_partial",
    "Litcheck.Sets.C76_variables_partial",
    "Litcheck.Sets.C76_same_text_refuted",
    "Litcheck.Sets.C76_number_refuted",
    "Litcheck.Sets.C76_variable_refuted"
   ],
   "note": "Proved for groups without uses of variables and number captures in which no literal is spelled as a regular expression of the group (StaticGroup), when the search does not end in a diagnostic; without captures it never does (C76_plain_partial). Groups with variables are decided when each line begins with a text, these texts are different and cannot overlap, and the values used are plain (C76_variables_partial). Refuted otherwise: CHECK-NOT: a.c hides CHECK-NOT: {{a.c}}; a captured number which does not fit is not seen; aa[[X]] is not found in aaab."
  },
  {
   "property": "C77",
   "status": "partial",
   "theorems": [
    "Litcheck.Sets.C77_dags_partial",
    "Litcheck.Sets.C77_dags_keep_partial",
    "Litcheck.Sets.C77_overlap_refuted",
    "Litcheck.Sets.C77_overlap_none",
    "Litcheck.Sets.C77_twice_refuted",
    "Litcheck.Sets.C77_variable_refuted"
   ],
   "note": "Proved for groups of distinct literals, and of patterns which use no variables (but may capture strings) whose matches are not inside one another (DagGroup); the captured variables are carried from match to match in the order of their places. Refuted: {{b}} and {{abc}} both match abc; a regular expression on two lines needs one match; with variables, matching goes on before the matches of the group."
  },
  {
   "property": "C78",
   "status": "partial",
   "theorems": [
    "Litcheck.Sets.C78_total_partial",
    "Litcheck.Sets.C78_repeated_refuted",
    "Litcheck.Sets.C78_prefix_refuted",
    "Litcheck.Sets.C78_substring_refuted",
    "Litcheck.Sets.C78_hang_refuted",
    "Litcheck.Sets.C78_dag_hang_refuted"
   ],
   "note": "Proved for patterns which use no variables and capture no numbers (but may capture strings), no two of the same text. Refuted: repeated literals z z y y panic; foo with foo[[X]] panics; [[X]]bar panics; [[X]]{{b.r}} and failing groups [[X]], [[Y]] go on for ever."
  },
  {
   "property": "C79",
   "status": "partial",
   "theorems": [
    "Litcheck.Sets.C79_text_partial",
    "Litcheck.Sets.C79_text_refuted"
   ],
   "note": "False of check files whose CHECK-DAG lines have overlapping matches (C79_text_refuted). Proved for check files which are GoodFile (decided by goodFile: well-formed patterns, CHECK-NOT groups as in C76, CHECK-DAG groups as in C77), inputs with LF line endings (or any, if no directive looks at lines), and the weak reading of patterns (C68)."
  },
  {
   "property": "C80",
   "status": "proved",
   "theorems": [
    "Litcheck.C80_text",
    "Litcheck.C80_all",
    "Litcheck.C80_value",
    "Litcheck.C80_last",
    "Litcheck.C80_global_refuted"
   ],
   "note": "Proved as stated for NAME. Refuted for $NAME on the left side: the sigil is known to the code which reads names but refused before (C80_global_refuted)."
  },
  {
   "property": "C81",
   "status": "partial",
   "theorems": [
    "Litcheck.C81_numeric_partial",
    "Litcheck.C81_unique",
    "Litcheck.C81_blanks_refuted",
    "Litcheck.C81_format_refuted"
   ],
   "note": "Proved: acceptance and the expression, given how the program splits a text into tokens (Written). Refuted: 5-3 is rejected while 5 - 3 is accepted; the format is forgotten (%x,X=255 stands for 255)."
  },
  {
   "property": "C82",
   "status": "partial",
   "theorems": [
    "Litcheck.C82_value_iff",
    "Litcheck.C82_ends_partial",
    "Litcheck.C82_constant",
    "Litcheck.C82_ends_refuted",
    "Litcheck.C82_undefined_refuted",
    "Litcheck.C82_constant_refuted"
   ],
   "note": "Proved: the value; ending if every name is defined once and needs only names defined before; constant definitions are as good as numbers. Refuted: #X=X+1 never ends; an undefined variable in a definition panics; definitions are evaluated again at each use. @LINE inside a definition is one given number."
  },
  {
   "property": "C83",
   "status": "partial",
   "theorems": [
    "Litcheck.C83_first_match_literals_partial",
    "Litcheck.C83_first_match_any_partial",
    "Litcheck.Sets.C83_text_partial",
    "Litcheck.C83_crlf_refuted"
   ],
   "note": "False of inputs with CRLF line endings (C83_crlf_refuted). Proved in both directions for inputs with LF line endings, or any inputs if no directive looks at lines: for check files of non-empty literals whose consecutive CHECK-NOT literals are distinct; from the text of the check file, for files of literals, regular expressions and captures of strings [[X:..]] (not in CHECK-NOT), without uses of variables, with implicit checks (that the file compiles is a hypothesis; among the matches which start first the library of regular expressions picks one, as a function of the place where the search starts); and for any patterns given matchers which report exactly the first match. Missing: CRLF inputs with directives which look at lines (false: C03-C06, C09); patterns with variables, whose matcher misses matches (C69, C70)."
  },
  {
   "property": "C84",
   "status": "partial",
   "theorems": [
    "Litcheck.Registry.C84_file_partial",
    "Litcheck.Registry.C84_types_partial",
    "Litcheck.Registry.C84_directory_refuted",
    "Litcheck.Registry.C84_refuted",
    "Litcheck.Registry.C84_glob_refuted"
   ],
   "note": "Proved for inputs which are files. Refuted for every directory: the walk begins with the directory itself, for which the function calls itself for ever; glob never returns."
  },
  {
   "property": "C85",
   "status": "proved",
   "theorems": [
    "Litcheck.C85_lines",
    "Litcheck.C85_number",
    "Litcheck.C85_increasing",
    "Litcheck.C85_anywhere"
   ],
   "note": "For texts in which no list of modifiers spans lines and which do not begin with a NUL (Readable), and prefixes without white space, as C64."
  },
  {
   "property": "C86",
   "status": "partial",
   "theorems": [
    "Litcheck.C86_partial",
    "Litcheck.C86_text_partial",
    "Litcheck.C86_groups_partial",
    "Litcheck.C86_groups_text_partial",
    "Litcheck.C86_refuted",
    "Litcheck.C86_regex_refuted",
    "Litcheck.C86_not_refuted",
    "Litcheck.C86_dag_refuted"
   ],
   "note": "As documented it is false (C86_refuted: a space does not match a tab; a tab in a literal matches no tab; C86_regex_refuted; repeated CHECK-NOT and CHECK-DAG lines: C86_not_refuted, C86_dag_refuted). Proved, for every input: white space of the text of check lines without {{..}} does not matter; of CHECK-NOT and CHECK-DAG lines if they are all text, and equal texts stay equal and different ones different."
  },
  {
   "property": "C87",
   "status": "partial",
   "theorems": [
    "Litcheck.C87_effect_partial",
    "Litcheck.C87_refuted"
   ],
   "note": "Not implemented by the code (C87_refuted). Proved: the option does to the reading of the check file what --strict-whitespace does, and nothing else."
  },
  {
   "property": "C88",
   "status": "partial",
   "theorems": [
    "Litcheck.C88_partial",
    "Litcheck.C88_text_partial",
    "Litcheck.C88_groups_partial",
    "Litcheck.C88_groups_text_partial",
    "Litcheck.C88_apart_refuted",
    "Litcheck.C88_dag_refuted",
    "Litcheck.C88_not_refuted",
    "Litcheck.C88_captured_refuted"
   ],
   "note": "For every input, any change of case of the input and of text-only lines (of CHECK-NOT lines if they are all text, and equal texts stay equal and different ones different: C88_groups_partial); lines capture no variable, CHECK-NOT and CHECK-DAG lines use none, CHECK-DAG lines have a regular expression. False otherwise: C88_apart_refuted, C88_dag_refuted, C88_not_refuted, C88_captured_refuted."
  },
  {
   "property": "C89",
   "status": "proved",
   "theorems": [
    "Litcheck.C89_substitutions"
   ],
   "note": "For a test file whose name has an extension (without one the program panics, see C38). What the commands become with these values is C40_script and C41."
  },
  {
   "property": "C90",
   "status": "proved",
   "theorems": [
    "Litcheck.C90",
    "Litcheck.C90_text",
    "Litcheck.C90_definitions"
   ],
   "note": "For all check files, inputs, options and environments; covers passing, failing and panicking runs of the model."
  },
  {
   "property": "C91",
   "status": "partial",
   "theorems": [
    "Litcheck.C91_exit",
    "Litcheck.C91_satisfied_partial",
    "Litcheck.C91_satisfied_refuted"
   ],
   "note": "The exit code is exactly characterised, for prefixes as the command line admits them (C91_exit; with repetitions by C92_command). That success means that the input satisfies the check file is subject to the conditions of C79, and false without them (C91_satisfied_refuted). What clap does with the arguments and with FILECHECK_OPTS is not modelled."
  },
  {
   "property": "C92",
   "status": "proved",
   "theorems": [
    "Litcheck.C92_prefixes",
    "Litcheck.C92_parse",
    "Litcheck.C92_verify",
    "Litcheck.C92_command"
   ],
   "note": "For all check files, inputs and options. C92_parse and C92_verify for the library, where prefixes are not sorted; C92_command for the command."
  },
  {
   "property": "C93",
   "status": "partial",
   "theorems": [
    "Litcheck.C93_finite",
    "Litcheck.C93_output_partial",
    "Litcheck.C93_reaches_end_partial",
    "Litcheck.C93_stuck_refuted"
   ],
   "note": "Every run is finite; for scripts that fit into a pipe no schedule gets stuck and every run can be continued to an end, where exactly what the process writes was captured. For larger scripts the property is false: the script is written, and the writing thread joined, before the reading threads start, so that a process that writes more than a pipe holds before reading its input blocks lit for ever, also past its timeout (C93_stuck_refuted)."
  },
  {
   "property": "C94",
   "status": "partial",
   "theorems": [
    "Litcheck.PathTree.C94_descendants_partial",
    "Litcheck.PathTree.C94_depth_partial",
    "Litcheck.PathTree.C94_depth_refuted",
    "Litcheck.PathTree.C94_path_refuted"
   ],
   "note": "Without a limit: exactly the entries of iter at or below the path (with the restrictions of C34: directories without anything below them are left out). With a limit: the limit is counted from some ancestor of the path, not from the path itself, so entries within the limit are missing, already in the example of the documentation (C94_depth_refuted). The path is not canonicalised (C94_path_refuted)."
  },
  {
   "property": "C95",
   "status": "partial",
   "theorems": [
    "Litcheck.Position.C95_number_partial",
    "Litcheck.Position.C95_index",
    "Litcheck.Position.C95_checked",
    "Litcheck.Position.C95_saturating",
    "Litcheck.Position.C95_operators_partial",
    "Litcheck.Position.C95_offset_partial",
    "Litcheck.Position.C95_invalid_refuted",
    "Litcheck.Position.C95_offset_refuted"
   ],
   "note": "Checked and saturating operations: exact for all values. Operators: exact or panic in builds with overflow checks; without them NonZeroU32::new_unchecked gets a zero, which is undefined behaviour (C95_invalid_refuted). A byte index plus an offset wraps silently in every build (C95_offset_refuted)."
  },
  {
   "property": "C96",
   "status": "partial",
   "theorems": [
    "Litcheck.C96_no_abort_partial",
    "Litcheck.C96_zero_refuted",
    "Litcheck.C96_overflow_refuted",
    "Litcheck.C96_alternative_refuted",
    "Litcheck.C96_precision_refuted"
   ],
   "note": "Proved for well-formed patterns (parts whose regular expressions have no alternatives outside of groups, precisions up to 39 or 32 digits) with safe expressions, for all inputs, ranges, variables and attempts; refuted for division by zero, overflow with checks, alternatives before a capture and large precisions. Whether the search ends is C71."
  },
  {
   "property": "C97",
   "status": "partial",
   "theorems": [
    "Litcheck.Runner.C97_groups",
    "Litcheck.Runner.C97_total",
    "Litcheck.Runner.C97_table",
    "Litcheck.Runner.C97_words",
    "Litcheck.Runner.C97_run_partial",
    "Litcheck.Runner.C97_quiet",
    "Litcheck.Runner.C97_exit",
    "Litcheck.Runner.C97_live",
    "Litcheck.Runner.C97_output",
    "Litcheck.Runner.C97_lost_refuted"
   ],
   "note": "What a small reader gets out of the printed text. A test which ends with an error is listed nowhere. Percentages and fractions of seconds are parameters; colours and the progress bar are left out."
  },
  {
   "property": "C98",
   "status": "partial",
   "theorems": [
    "Litcheck.C98_configured_partial",
    "Litcheck.C98_programs",
    "Litcheck.C98_error",
    "Litcheck.C98_run",
    "Litcheck.C98_path_refuted",
    "Litcheck.C98_unset_refuted"
   ],
   "note": "PATH in the configuration is ignored (C98_path_refuted); if lit has no PATH its tests get an empty component, which is their directory (C98_unset_refuted)"
  },
  {
   "property": "C99",
   "status": "partial",
   "theorems": [
    "Litcheck.Registry.C99_tests",
    "Litcheck.Registry.C99_run",
    "Litcheck.Registry.C99_report",
    "Litcheck.Registry.C99_suites",
    "Litcheck.Registry.C99_none",
    "Litcheck.Registry.C99_filter_refuted"
   ],
   "note": "All but the filters, which have no effect on the listings (C99_filter_refuted). What a small reader gets out of the printed text; names with line feeds are left out."
  }
 ]
}