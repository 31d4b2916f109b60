{
 "claims": [
  {
   "property": "C01",
   "status": "partial",
   "theorems": [
    "CM.Props.C01_edits_exactly_region_false",
    "CM.Props.C01_edits_exactly_region_partial",
    "CM.Props.C01_edits_exactly_region_lf_partial",
    "CM.Props.C01_nothing_else",
    "CM.Props.C01_exactly"
   ],
   "note": "Full statement is false: a lone carriage return is a column for the parser but not for the scanner (C01_edits_exactly_region_false). Proved when no lone carriage return precedes the end of the region on its lines, and for all files without carriage returns; C01_exactly says exactly what is edited in every other case."
  },
  {
   "property": "C02",
   "status": "partial",
   "theorems": [
    "CM.Props.C02_original_is_region_false",
    "CM.Props.C02_original_is_region_partial",
    "CM.Props.C02_put_back_partial",
    "CM.Props.C02_exactly"
   ],
   "note": "Full statement is false for the same reason as C01 (C02_original_is_region_false); proved when the region's lines are free of carriage returns; C02_exactly says what the original text is otherwise."
  },
  {
   "property": "C03",
   "status": "proved",
   "theorems": [
    "CM.Props.C03_selected",
    "CM.Props.C03_normalize_spec",
    "CM.Props.C03_normalize_unique",
    "CM.Props.C03_other_characters_kept",
    "CM.Props.C03_no_cr_left",
    "CM.Props.C03_unchanged_without_crlf",
    "CM.Props.C03_not_idempotent"
   ],
   "note": "Complete; normalisation is not idempotent on CR CR LF (C03_not_idempotent)."
  },
  {
   "property": "C04",
   "status": "partial",
   "theorems": [
    "CM.Props.C04_restored_up_to_crlf_partial",
    "CM.Props.C04_restored_partial",
    "CM.Props.C04_source_restored_up_to_crlf_partial",
    "CM.Props.C04_source_restored_partial",
    "CM.Props.C04_full_false"
   ],
   "note": "Full statement is false with CRLF line ends: reverting writes the normalised text (C04_full_false). Proved exactly for files without CRLF, and up to CRLF in general, for every schedule, interrupt and failure other than of writing a source file."
  },
  {
   "property": "C05",
   "status": "partial",
   "theorems": [
    "CM.Props.C05_marker_present_false",
    "CM.Props.C05_marker_present_partial",
    "CM.Props.C05_exactly"
   ],
   "note": "False where lone carriage returns make the scanner miss the region (C05_marker_present_false); C05_exactly says when the marker is there, for every text and span."
  },
  {
   "property": "C06",
   "status": "proved",
   "theorems": [
    "CM.Props.C06_shards_partition",
    "CM.Props.C06_shard_members"
   ],
   "note": "Complete, for every list and shard count."
  },
  {
   "property": "C07",
   "status": "proved",
   "theorems": [
    "CM.Props.C07_shard_order",
    "CM.Props.C07_shards_balanced"
   ],
   "note": "Complete."
  },
  {
   "property": "C08",
   "status": "proved",
   "theorems": [
    "CM.Props.C08_shard_argument",
    "CM.Props.C08_accepted_shard_selects"
   ],
   "note": "Complete; Rust also accepts a leading plus sign in each number, which the specification says."
  },
  {
   "property": "C09",
   "status": "proved",
   "theorems": [
    "CM.Props.C09_exit_status",
    "CM.Props.C09_verdict"
   ],
   "note": "Complete: exit status classification and verdict as a function of phase results."
  },
  {
   "property": "C10",
   "status": "proved",
   "theorems": [
    "CM.Props.C10_counts_in_run",
    "CM.Props.C10_counts",
    "CM.Props.C10_total_is_sum",
    "CM.Props.C10_recording_total"
   ],
   "note": "Complete: for every sequence of outcomes, and in every reachable state of a run both for the counters in memory and for outcomes.json, also when a thread failed while recording."
  },
  {
   "property": "C11",
   "status": "proved",
   "theorems": [
    "CM.Props.C11_exit_code",
    "CM.Props.C11_order_independent",
    "CM.Props.C11_exit_code_defined"
   ],
   "note": "Complete, independent of the order of completion."
  },
  {
   "property": "C12",
   "status": "partial",
   "theorems": [
    "CM.Props.C12_zero_means_caught_false",
    "CM.Props.C12_zero_means_caught_partial",
    "CM.Props.C12_zero_exactly"
   ],
   "note": "Full statement is false: a cargo command killed by a signal makes the mutant neither caught nor missed, and the exit code is 0 (C12_zero_means_caught_false). Proved when every command exits with a status or times out; C12_zero_exactly says when the code is 0 without that assumption."
  },
  {
   "property": "C13",
   "status": "partial",
   "theorems": [
    "CM.Props.C13_read_back_exactly",
    "CM.Props.C13_lists_agree_in_run",
    "CM.Props.C13_lists_agree",
    "CM.Props.C13_one_line_each_false",
    "CM.Props.C13_lists_read_back_partial",
    "CM.Props.C13_names_fit_on_a_line",
    "CM.Props.C13_one_list_each",
    "CM.Props.C13_recording_total"
   ],
   "note": "The contents of the lists are proved for all names. One line each is false for names with a line feed (C13_one_line_each_false); C13_read_back_exactly: the lists read back as they were written if and only if each name fits on a line, and C13_names_fit_on_a_line says when they do."
  },
  {
   "property": "C14",
   "status": "partial",
   "theorems": [
    "CM.Props.C14_lists_never_claim_more_partial",
    "CM.Props.C14_at_most_one_line_missing_partial",
    "CM.Props.C14_last_written_has_every_line_partial",
    "CM.Props.C14_lists_never_claim_more_false",
    "CM.Props.C14_outcomes_json_stays_readable_false"
   ],
   "note": "At the granularity of single write calls, including while outcomes.json is rewritten (C14_last_written_has_every_line_partial). In full it is false for names with a line feed (C14_lists_never_claim_more_false), so names are assumed to fit on a line. That outcomes.json is unreadable while it is rewritten is C14_outcomes_json_stays_readable_false."
  },
  {
   "property": "C15",
   "status": "proved",
   "theorems": [
    "CM.Props.C15_log_files_unique",
    "CM.Props.C15_diff_files_unique"
   ],
   "note": "Complete."
  },
  {
   "property": "C16",
   "status": "proved",
   "theorems": [
    "CM.Props.C16_log_names_safe",
    "CM.Props.C16_log_names_ordinary"
   ],
   "note": "Complete."
  },
  {
   "property": "C17",
   "status": "proved",
   "theorems": [
    "CM.Props.C17_rotation",
    "CM.Props.C17_results_survive_crash"
   ],
   "note": "Complete: what the earlier mutants.out held is in mutants.out.old, apart from the lock file that rotation itself rewrites; at every crash point the earlier results are in one of the two."
  },
  {
   "property": "C18",
   "status": "partial",
   "theorems": [
    "CM.Props.C18_runs_exclusive_false",
    "CM.Props.C18_one_run_per_directory_partial",
    "CM.Props.C18_runs_exclusive_partial",
    "CM.Props.C18_after_the_window_partial",
    "CM.Props.C18_only_by_the_window_partial"
   ],
   "note": "Full statement is false: the lock file is opened, created and locked in steps that let two runs both hold a lock on different files after rotation (C18_runs_exclusive_false). Proved: at most one live run per directory instance, exclusion when no other run starts during the window, and how wide the window is: once a run has begun and nobody else is in the course of starting, its directory stays mutants.out and nobody else begins until it ends (C18_after_the_window_partial, C18_only_by_the_window_partial)."
  },
  {
   "property": "C19",
   "status": "partial",
   "theorems": [
    "CM.Props.C19_found",
    "CM.Props.C19_added_kept",
    "CM.Props.C19_keeps_overlapping_false",
    "CM.Props.C19_keeps_overlapping_partial",
    "CM.Props.C19_keeps_sublist"
   ],
   "note": "False for diffs without context, because C20 is (C19_keeps_overlapping_false). Proved for diffs whose hunks have context; for diffs without context C19_found says exactly what is kept, and C19_added_kept that no mutant with an added line is left out; that the result is a sublist holds for every diff."
  },
  {
   "property": "C20",
   "status": "partial",
   "theorems": [
    "CM.Props.C20_found",
    "CM.Props.C20_affected_lines_false",
    "CM.Props.C20_affected_lines_partial"
   ],
   "note": "False for pure deletions in diffs without context (git diff -U0), whose hunk header counts differently (C20_affected_lines_false). Proved otherwise; C20_found says exactly which lines are found in diffs without context."
  },
  {
   "property": "C21",
   "status": "partial",
   "theorems": [
    "CM.Props.C21_stale_refused_false",
    "CM.Props.C21_stale_refused_partial",
    "CM.Props.C21_agreeing_accepted",
    "CM.Props.C21_refused_exactly"
   ],
   "note": "False for an empty line beyond the end of the file, which counts as agreeing (C21_stale_refused_false). C21_refused_exactly says for every diff and file exactly when it is refused."
  },
  {
   "property": "C22",
   "status": "proved",
   "theorems": [
    "CM.Props.C22_dots_ignored",
    "CM.Props.C22_kept_are_named",
    "CM.Props.C22_named_as_written",
    "CM.Props.C22_repeated_refused",
    "CM.Props.C22_deleted_ignored",
    "CM.Props.C22_what_is_parsed",
    "CM.Props.C22_empty_selects_nothing"
   ],
   "note": "Complete. The parser (crate patch) is a parameter. C22_named_as_written: which names stand for a file, in terms of the text of the path; C22_dots_ignored: with dots and repeated slashes in it. C22_what_is_parsed: what the parser is given, in terms of the lines of the diff."
  },
  {
   "property": "C23",
   "status": "proved",
   "theorems": [
    "CM.Props.C23_explicit_timeout",
    "CM.Props.C23_auto_timeout",
    "CM.Props.C23_at_least_baseline",
    "CM.Props.C23_no_baseline",
    "CM.Props.C23_total"
   ],
   "note": "Complete over exact rational seconds (f64 rounding not modelled)."
  },
  {
   "property": "C24",
   "status": "proved",
   "theorems": [
    "CM.Props.C24_build_limit",
    "CM.Props.C24_build_limit_no_baseline",
    "CM.Props.C24_baseline_limits"
   ],
   "note": "Complete over exact rational seconds."
  },
  {
   "property": "C25",
   "status": "proved",
   "theorems": [
    "CM.Props.C25_not_left_running",
    "CM.Props.C25_results_are_true"
   ],
   "note": "Complete for the normal and timeout returns; when killing the process group itself fails or try_wait fails, the code returns without waiting, and the theorem says so."
  },
  {
   "property": "C26",
   "status": "partial",
   "theorems": [
    "CM.Props.C26_returns_false",
    "CM.Props.C26_first_poll_partial",
    "CM.Props.C26_no_more_polls_partial",
    "CM.Props.C26_signal_in_time_partial",
    "CM.Props.C26_over_when_child_exits_partial"
   ],
   "note": "Full statement is false: only SIGTERM is sent and then the code waits without limit (C26_returns_false). Proved: the limit is noticed at the first poll after it, the signal is sent within one polling interval, and the call returns as soon as the child exits."
  },
  {
   "property": "C27",
   "status": "proved",
   "theorems": [
    "CM.Props.C27_nothing_new_recorded",
    "CM.Props.C27_command_starts",
    "CM.Props.C27_error_unless_complete",
    "CM.Props.C27_interrupted_command_fails",
    "CM.Props.C27_signal_after_interrupt"
   ],
   "note": "Complete for the model of the lab (schedules, interrupt times and failures are arbitrary) and for the model of one running command: once the interrupt flag is set, the next poll signals the process group and the command fails."
  },
  {
   "property": "C28",
   "status": "proved",
   "theorems": [
    "CM.Props.C28_each_tested_once",
    "CM.Props.C28_recorded_are_executed"
   ],
   "note": "Complete for the model of the lab."
  },
  {
   "property": "C29",
   "status": "partial",
   "theorems": [
    "CM.Props.C29_baseline_sees_original",
    "CM.Props.C29_one_mutation_up_to_crlf_partial",
    "CM.Props.C29_one_mutation_partial",
    "CM.Props.C29_full_false"
   ],
   "note": "Full statement is false with CRLF line ends, see C04 (C29_full_false). Proved exactly for the baseline and for files without CRLF, and up to CRLF in general. Cargo commands are assumed not to change source files."
  },
  {
   "property": "C30",
   "status": "proved",
   "theorems": [
    "CM.Props.C30_jobs_and_directories"
   ],
   "note": "Complete; that --in-place excludes --jobs is taken from the declaration of the arguments (src/main.rs:205-214)."
  },
  {
   "property": "C31",
   "status": "partial",
   "theorems": [
    "CM.Props.C31_baseline_first",
    "CM.Props.C31_failed_baseline_exit_code",
    "CM.Props.C31_exit_code_partial",
    "CM.Props.C31_full_false"
   ],
   "note": "The part about the exit code is false when a failing baseline's log is not UTF-8: the program panics (C31_full_false). Proved otherwise; the other parts are complete."
  },
  {
   "property": "C32",
   "status": "proved",
   "theorems": [
    "CM.Props.C32_failure_is_reported",
    "CM.Props.C32_outcome_is_complete",
    "CM.Props.C32_no_error_without_cause"
   ],
   "note": "Complete for the model of the lab."
  },
  {
   "property": "C33",
   "status": "proved",
   "theorems": [
    "CM.Props.C33_bounded",
    "CM.Props.C33_no_infinite_run",
    "CM.Props.C33_progress"
   ],
   "note": "Complete, given that commands end."
  },
  {
   "property": "C34",
   "status": "proved",
   "theorems": [
    "CM.Props.C34_phases_in_order",
    "CM.Props.C34_in_run"
   ],
   "note": "Complete."
  },
  {
   "property": "C35",
   "status": "partial",
   "theorems": [
    "CM.Props.C35_default",
    "CM.Props.C35_workspace",
    "CM.Props.C35_named_false",
    "CM.Props.C35_named_partial",
    "CM.Props.C35_named_none",
    "CM.Props.C35_baseline_false",
    "CM.Props.C35_baseline_always",
    "CM.Props.C35_baseline_partial"
   ],
   "note": "False for mutants when a named test package does not exist (C35_named_false: no selector, so cargo chooses, C35_named_none) and for the baseline, which ignores the test package options (C35_baseline_false); proved otherwise. C35_baseline_always: the baseline always tests exactly the mutated packages."
  },
  {
   "property": "C36",
   "status": "proved",
   "theorems": [
    "CM.Props.C36_iterate_skips_exactly",
    "CM.Props.C36_lines",
    "CM.Props.C36_total"
   ],
   "note": "Complete."
  },
  {
   "property": "C37",
   "status": "partial",
   "theorems": [
    "CM.Props.C37_never_forgets_false",
    "CM.Props.C37_never_forgets_partial"
   ],
   "note": "Full statement is false: a crash after rotation and before previously_caught.txt is written loses the history (C37_never_forgets_false). Proved for histories that do not stop in that window, of mutants whose names fit on a line (see C13)."
  },
  {
   "property": "C38",
   "status": "proved",
   "theorems": [
    "CM.Props.C38_scalars",
    "CM.Props.C38_command_line_only",
    "CM.Props.C38_lists",
    "CM.Props.C38_filters",
    "CM.Props.C38_total"
   ],
   "note": "Complete for the modelled options (printing and jobserver options are not modelled)."
  },
  {
   "property": "C39",
   "status": "proved",
   "theorems": [
    "CM.Props.C39_files_by_meaning",
    "CM.Props.C39_tree_by_meaning",
    "CM.Props.C39_files",
    "CM.Props.C39_names",
    "CM.Props.C39_tree"
   ],
   "note": "Complete for globs as in C40 (C39_files_by_meaning, C39_tree_by_meaning); regular expressions are an arbitrary predicate. C39_tree: on a whole tree, the filters leave exactly those files and mutants, and mod statements in excluded files are still followed."
  },
  {
   "property": "C40",
   "status": "proved",
   "theorems": [
    "CM.Props.C40_alternatives",
    "CM.Props.C40_characters",
    "CM.Props.C40_ascii",
    "CM.Props.C40_question_mark_is_a_byte",
    "CM.Props.C40_class",
    "CM.Props.C40_groups",
    "CM.Props.C40_any_of_several",
    "CM.Props.C40_globs",
    "CM.Props.C40_star_stays",
    "CM.Props.C40_no_globs",
    "CM.Props.C40_empty_glob_matches_all"
   ],
   "note": "Complete for the globs in the quantifier. C40_groups: groups of alternatives and classes match exactly what the globs with one of the alternatives or characters in the place of each do (C40_alternatives and C40_class for a single one); negated classes are modelled, but not proved about. C40_any_of_several: a set of globs of any kind matches what one of them does. Globs are matched by bytes; C40_characters shows that this makes no difference without ?, C40_ascii none within ASCII, and C40_question_mark_is_a_byte where it does. The empty glob matches everything (C40_empty_glob_matches_all)."
  },
  {
   "property": "C41",
   "status": "proved",
   "theorems": [
    "CM.Props.C41_calls",
    "CM.Props.C41_names"
   ],
   "note": "Syntax trees with the parts the visitor looks at; parsing by syn is not modelled, and macro bodies are leaves. C41_calls compares the walk with and without the names; C41_names is about the options."
  },
  {
   "property": "C42",
   "status": "partial",
   "theorems": [
    "CM.Props.C42_subcommand",
    "CM.Props.C42_extra_arguments",
    "CM.Props.C42_build_matches_test",
    "CM.Props.C42_options",
    "CM.Props.C42_profile_false",
    "CM.Props.C42_profile_partial",
    "CM.Props.C42_order"
   ],
   "note": "False for the profile with nextest and --check (C42_profile_false); everything else proved for all options."
  },
  {
   "property": "C43",
   "status": "proved",
   "theorems": [
    "CM.Props.C43_rustflags",
    "CM.Props.C43_environment"
   ],
   "note": "Complete for values in which the separator 0x1f occurs only as separator."
  },
  {
   "property": "C44",
   "status": "proved",
   "theorems": [
    "CM.Props.C44_walk_stays_inside",
    "CM.Props.C44_outside_is_not_read",
    "CM.Props.C44_run_stays_inside",
    "CM.Props.C44_run_reads_inside",
    "CM.Props.C44_check_is_exact",
    "CM.Props.C44_load_stays_inside",
    "CM.Props.C44_outside_is_skipped"
   ],
   "note": "For a walk and a whole run: every file found or mutated is inside the tree, and files outside make no difference. Hypotheses: names of modules are identifiers (no slash) and targets have absolute paths, as cargo metadata gives them. Textually: symbolic links are in C68."
  },
  {
   "property": "C45",
   "status": "partial",
   "theorems": [
    "CM.Props.C45_files",
    "CM.Props.C45_mutants",
    "CM.Props.C45_contributes",
    "CM.Props.C45_errors",
    "CM.Props.C45_ends",
    "CM.Props.C45_once_partial",
    "CM.Props.C45_unique",
    "CM.Props.C45_twice_false",
    "CM.Props.C45_cycle_false",
    "CM.Props.C45_tree"
   ],
   "note": "Soundness and completeness against reachability through visible mod statements, for every graph of files. In full it is false: a file named twice is walked twice (C45_twice_false) and a cycle of path attributes never ends (C45_cycle_false); C45_ends says exactly when it ends and C45_once_partial when each file comes once. Files are named by their relative path, so a/../b.rs and b.rs are different. Interrupting the walk is C87."
  },
  {
   "property": "C46",
   "status": "partial",
   "theorems": [
    "CM.Props.C46_path_files_false",
    "CM.Props.C46_inline_path_false",
    "CM.Props.C46_resolves_partial",
    "CM.Props.C46_found_partial",
    "CM.Props.C46_crate_partial"
   ],
   "note": "Against the rules of rustc (rustc_expand::module). In full it is false: modules in a file named by a path attribute (C46_path_files_false), and path attributes on outermost inline modules outside mod.rs (C46_inline_path_false). Proved for whole crates without these (C46_crate_partial)."
  },
  {
   "property": "C47",
   "status": "partial",
   "theorems": [
    "CM.Props.C47_cfg_attr_false",
    "CM.Props.C47_const_false",
    "CM.Props.C47_skipped_partial",
    "CM.Props.C47_forms_partial"
   ],
   "note": "The full statement is false (C47_cfg_attr_false, C47_const_false): attributes with arguments other than plain names are not recognised, and attributes are not looked at on constants, statements, blocks and arms. C47_skipped_partial is for the recognised attributes and nodes."
  },
  {
   "property": "C48",
   "status": "proved",
   "theorems": [
    "CM.Props.C48_complete",
    "CM.Props.C48_exact",
    "CM.Props.C48_positions"
   ],
   "note": "Positions are the paths from a root to a node; the mutants are exactly those of the positions without a skipped node, in document order."
  },
  {
   "property": "C49",
   "status": "partial",
   "theorems": [
    "CM.Props.C49_documented_false",
    "CM.Props.C49_table_partial",
    "CM.Props.C49_different",
    "CM.Props.C49_kinds",
    "CM.Props.C49_unary"
   ],
   "note": "The full statement is false: < also gives <= and > also gives >=, which the book's table does not list. C49_table_partial names these two as the only differences."
  },
  {
   "property": "C50",
   "status": "partial",
   "theorems": [
    "CM.Props.C50_other_types_false",
    "CM.Props.C50_one_tuple_false",
    "CM.Props.C50_values_partial",
    "CM.Props.C50_unit",
    "CM.Props.C50_never",
    "CM.Props.C50_counts",
    "CM.Props.C50_distinct",
    "CM.Props.C50_error_values"
   ],
   "note": "The full statement, with the book's table to the letter, is false: unknown types with one type argument get new/from_iter/from instead of Default (C50_other_types_false), other impl traits get nothing, and one-element tuples are printed without the comma (C50_one_tuple_false). Proved: with those rows added, the printed values of every type are exactly the rows of the table in order (existence and uniqueness), the counts are the sums and products, and no value occurs twice."
  },
  {
   "property": "C51",
   "status": "proved",
   "theorems": [
    "CM.Props.C51_bodies",
    "CM.Props.C51_no_original"
   ],
   "note": "Comparison is of printed text, as in the code."
  },
  {
   "property": "C52",
   "status": "proved",
   "theorems": [
    "CM.Props.C52_deleted",
    "CM.Props.C52_all",
    "CM.Props.C52_covers_false",
    "CM.Props.C52_covers"
   ],
   "note": "Over all files, by position in the tree. A wildcard with a guard counts, so what is left need not match everything (C52_covers_false); without such wildcards it does (C52_covers)."
  },
  {
   "property": "C53",
   "status": "proved",
   "theorems": [
    "CM.Props.C53_no_panic",
    "CM.Props.C53_function",
    "CM.Props.C53_described"
   ],
   "note": "walkFile never panics; functions are described independently of the stacks."
  },
  {
   "property": "C54",
   "status": "proved",
   "theorems": [
    "CM.Props.C54_reads_back",
    "CM.Props.C54_identifies",
    "CM.Props.C54_has_name",
    "CM.Props.C54_change",
    "CM.Props.C54_wording",
    "CM.Props.C54_numbers",
    "CM.Props.C54_joined",
    "CM.Props.C54_spelled",
    "CM.Props.C54_cut"
   ],
   "note": "A reader that knows only the format recovers line, column, change and (for paths without a colon and of ordinary components) the file. A path with a colon makes two names equal; shown as an example."
  },
  {
   "property": "C55",
   "status": "partial",
   "theorems": [
    "CM.Props.C55_how_often",
    "CM.Props.C55_workspace",
    "CM.Props.C55_named",
    "CM.Props.C55_each_once_false",
    "CM.Props.C55_each_once_partial",
    "CM.Props.C55_comma_list_false",
    "CM.Props.C55_enclosing_package",
    "CM.Props.C55_default_members",
    "CM.Props.C55_elsewhere_refused"
   ],
   "note": "A package named twice is included twice (C55_each_once_false; C55_how_often: as often as it is named) and a comma list is not split (C55_comma_list_false); everything else proved."
  },
  {
   "property": "C56",
   "status": "proved",
   "theorems": [
    "CM.Props.C56_top_sources",
    "CM.Props.C56_others_are_not_roots"
   ],
   "note": "Complete."
  },
  {
   "property": "C57",
   "status": "proved",
   "theorems": [
    "CM.Props.C57_copy"
   ],
   "note": "Every tree, order of listing, ignore rule and option: a path is in the copy exactly if it is in the source and neither it nor a directory above it is left out. Sockets and the like are skipped. Errors, and a source that changes while copied (for example with the temporary directory inside it), are not modelled."
  },
  {
   "property": "C58",
   "status": "partial",
   "theorems": [
    "CM.Props.C58_leaving_paths",
    "CM.Props.C58_paths_partial",
    "CM.Props.C58_rest",
    "CM.Props.C58_dev_dependencies_false",
    "CM.Props.C58_into_tree_false",
    "CM.Props.C58_config_partial",
    "CM.Props.C58_build_dir",
    "CM.Props.C58_members_false",
    "CM.Props.C58_source_is_absolute"
   ],
   "note": "Full statement is false: dev-, build-, target and workspace dependencies are not looked at (C58_dev_dependencies_false), and a path that leads back into the tree, or an absolute one, means the source and not its copy (C58_into_tree_false). Manifests of members are not looked at either (C58_members_false), which the statement does not ask for. Proved for the three tables that are fixed and all other paths, in every file system for paths that leave the tree; all other content is unchanged; and for the files of a build directory."
  },
  {
   "property": "C59",
   "status": "proved",
   "theorems": [
    "CM.Props.C59_last_line",
    "CM.Props.C59_unique",
    "CM.Props.C59_never_again"
   ],
   "note": "Decoding and white space are parameters; every interleaving of whole writes and polls. Without whole writes, C59_never_again."
  },
  {
   "property": "C60",
   "status": "proved",
   "theorems": [
    "CM.Props.C60_console_never_fails"
   ],
   "note": "Complete for the lookups and calculations of the console model; nutmeg is not modelled."
  },
  {
   "property": "C61",
   "status": "proved",
   "theorems": [
    "CM.Props.C61_summary_line",
    "CM.Props.C61_each_once",
    "CM.Props.C61_words_cover"
   ],
   "note": "Complete; the verdict failure (test command killed by a signal) has no word in the line (C61_words_cover)."
  },
  {
   "property": "C62",
   "status": "proved",
   "theorems": [
    "CM.Props.C62_listed_are_tested",
    "CM.Props.C62_json",
    "CM.Props.C62_either",
    "CM.Props.C62_recorded"
   ],
   "note": "The whole of main after reading arguments, the walk, filters, shard, listing, output directory and (through C32 and C66) the lab: the lines listed are the names of the mutants tested. Colours are not modelled; the diff library and syn are parameters."
  },
  {
   "property": "C63",
   "status": "proved",
   "theorems": [
    "CM.Props.C63_packages",
    "CM.Props.C63_package_run",
    "CM.Props.C63_compose",
    "CM.Props.C63_shard_of_filtered",
    "CM.Props.C63_shards"
   ],
   "note": "The runs with only one kind of filter are assumed to succeed: --in-diff fails if the diff does not match the text of a file with remaining mutants, so other filters can hide a stale diff. Package filters are in C63_packages and C63_package_run, shards in C63_shards."
  },
  {
   "property": "C64",
   "status": "proved",
   "theorems": [
    "CM.Props.C64_round_trip",
    "CM.Props.C64_unambiguous",
    "CM.Props.C64_empty_argument_lost",
    "CM.Props.C64_one_line"
   ],
   "note": "Complete; an empty argument at the start is lost, which the theorems say (C64_empty_argument_lost)."
  },
  {
   "property": "C65",
   "status": "partial",
   "theorems": [
    "CM.Props.C65_invisible_groups_false",
    "CM.Props.C65_printed_partial",
    "CM.Props.C65_no_trailing_space_partial",
    "CM.Props.C65_reads_back_partial",
    "CM.Props.C65_after_comma",
    "CM.Props.C65_after_arrow"
   ],
   "note": "The full statement is false: an invisible (None-delimited) group next to a word glues the words together, and one after a comma leaves a trailing space (C65_invisible_groups_false). Proved for every token stream without invisible groups: the printed text has the words and punctuation of the stream in order, spaces only between them, never at the end, and reading the text back gives the words again for any class of word characters."
  },
  {
   "property": "C66",
   "status": "proved",
   "theorems": [
    "CM.Props.C66_shuffle_keeps_mutants",
    "CM.Props.C66_taken_in_order"
   ],
   "note": "Complete; fastrand's shuffle is modelled from its documentation as Fisher-Yates."
  },
  {
   "property": "C67",
   "status": "partial",
   "theorems": [
    "CM.Props.C67_override_false",
    "CM.Props.C67_override_partial",
    "CM.Props.C67_order"
   ],
   "note": "Full statement is false: with --test-workspace=false packages named in the config are still used (C67_override_false). Proved when --test-workspace=true or --test-package is given, with the complete order of precedence."
  },
  {
   "property": "C68",
   "status": "partial",
   "theorems": [
    "CM.Props.C68_source_untouched",
    "CM.Props.C68_what_is_written",
    "CM.Props.C68_links_partial",
    "CM.Props.C68_operations_partial",
    "CM.Props.C68_links_false"
   ],
   "note": "Proved for directories as separate maps of files (C68_source_untouched). With symbolic links the full statement is false: an absolute link to a file of the tree is copied as it is and written through (C68_links_false). The partial theorems need that following the paths that are written (mutated files, Cargo.toml, .cargo/config.toml) does not leave the source tree."
  },
  {
   "property": "C69",
   "status": "proved",
   "theorems": [
    "CM.Props.C69_message",
    "CM.Props.C69_only_recorded",
    "CM.Props.C69_printed"
   ],
   "note": "Complete for the model: text without colours, durations and logs as parameters."
  },
  {
   "property": "C70",
   "status": "proved",
   "theorems": [
    "CM.Props.C70_lines_agree"
   ],
   "note": "Complete for the model, without --times and --all-logs (which add text and arbitrary logs to the output), for mutants whose names have one line."
  },
  {
   "property": "C71",
   "status": "proved",
   "theorems": [
    "CM.Props.C71_of_its_command",
    "CM.Props.C71_results_are_of_processes",
    "CM.Props.C71_tested_packages",
    "CM.Props.C71_status_is_true",
    "CM.Props.C71_builds_do_not_time_out",
    "CM.Props.C71_timeout_is_slower_than_baseline"
   ],
   "note": "Complete for the model: limits are exact rational seconds, rounded to nanoseconds by any function (rounding up is assumed only for the comparison with the baseline). C71_of_its_command: the process is the one of a thread that was at the command for this scenario and phase."
  },
  {
   "property": "C72",
   "status": "proved",
   "theorems": [
    "CM.Props.C72_children_accounted",
    "CM.Props.C72_why_left",
    "CM.Props.C72_all_children_have_exited",
    "CM.Props.C72_processes_at_once"
   ],
   "note": "Complete for the model, for the children themselves; grandchildren that leave the process group are not modelled."
  },
  {
   "property": "C73",
   "status": "proved",
   "theorems": [
    "CM.Props.C73_is_run_of_threads",
    "CM.Props.C73_bounded_work",
    "CM.Props.C73_can_return",
    "CM.Props.C73_what_is_waited_for"
   ],
   "note": "Complete for the model: liveness is stated as the absence of deadlock together with bounds on the steps, not with fairness."
  },
  {
   "property": "C74",
   "status": "proved",
   "theorems": [
    "CM.Props.C74_written_is_read",
    "CM.Props.C74_mutants_json",
    "CM.Props.C74_list_json",
    "CM.Props.C74_list_files_json",
    "CM.Props.C74_entry_determines_edit",
    "CM.Props.C74_outcomes_json",
    "CM.Props.C74_counts_agree_with_entries",
    "CM.Props.C74_outcomes_json_of_run"
   ],
   "note": "The text is modelled character by character, with serde_json's pretty printer and escapes; the reader in Spec/Json.lean follows RFC 8259 and knows nothing of how the text was made. The text of a duration is a parameter that must be a JSON number."
  },
  {
   "property": "C75",
   "status": "proved",
   "theorems": [
    "CM.Props.C75_all_are_told",
    "CM.Props.C75_few_steps",
    "CM.Props.C75_one_sleep",
    "CM.Props.C75_sleep_is_short",
    "CM.Props.C75_few_children",
    "CM.Props.C75_results"
   ],
   "note": "Steps are those of the model: a step of a thread is one action between two points at which other threads, the clock or children can intervene. That the signal makes the child exit is up to the child; the wait for it is not bounded by the code."
  },
  {
   "property": "C76",
   "status": "proved",
   "theorems": [
    "CM.Props.C76_codes",
    "CM.Props.C76_zero_all_died",
    "CM.Props.C76_four_nothing_tested",
    "CM.Props.C76_other_codes",
    "CM.Props.C76_refused",
    "CM.Props.C76_errors_have_causes"
   ],
   "note": "Composes discovery and filters, the queue, threads, processes, time limits, outcomes and exit codes (C11, C23, C32, C71, C72). The two directions are proved with the history of a run: every recorded result comes from a process that ended in the run, and no ended process is lost from the outcome that is returned. Text of the arguments is parsed by clap and not modelled (C40 models the options)."
  },
  {
   "property": "C77",
   "status": "partial",
   "theorems": [
    "CM.Props.C77_shards_together_partial",
    "CM.Props.C77_shards_divide_partial",
    "CM.Props.C77_iterate_own_output_false"
   ],
   "note": "False with --iterate and a separate output directory for each shard: a mutant that survived can be in no shard while all shards end with code 0 (C77_iterate_own_output_false, with two shards that are run twice). Proved without --iterate for any output directories, and with it if all find the same one."
  },
  {
   "property": "C78",
   "status": "proved",
   "theorems": [
    "CM.Props.C78_listed_died",
    "CM.Props.C78_iterate_together",
    "CM.Props.C78_same_place",
    "CM.Props.C78_never_again"
   ],
   "note": "Excluded are runs that go on after a write to a list failed half way (two names could then share a line), and names with line feeds. Within one write call a run is not stopped."
  },
  {
   "property": "C79",
   "status": "proved",
   "theorems": [
    "CM.Props.C79_log_tells_outcome",
    "CM.Props.C79_log_text",
    "CM.Props.C79_only_appended",
    "CM.Props.C79_recorded_log_is_final",
    "CM.Props.C79_running_command_is_named",
    "CM.Props.C79_paths_in_outcomes_json"
   ],
   "note": "Each message and each output of a command is one element of the log, so they are told apart even if a command prints text that looks like a message. That something left behind by an earlier command of the same scenario prints between the parts of a message is not modelled."
  },
  {
   "property": "C80",
   "status": "proved",
   "theorems": [
    "CM.Props.C80_copy_keeps_sources",
    "CM.Props.C80_what_commands_see",
    "CM.Props.C80_zero"
   ],
   "note": "The copy of the model of C57 and C58 takes the place of the copy that C76 assumes; its assumption that files with mutants are copied unchanged is proved. Assumed: the printer of toml gives what its parser reads back, the program reads the files that are on the disk, and no file with mutants is Cargo.toml or .cargo/config.toml or named by a path with .., or a root. That commands themselves change files is not modelled."
  },
  {
   "property": "C81",
   "status": "proved",
   "theorems": [
    "CM.Props.C81_meaning",
    "CM.Props.C81_order",
    "CM.Props.C81_for_run",
    "CM.Props.C81_unknown",
    "CM.Props.C81_where"
   ],
   "note": "The parser of the toml library and the value of a number are parameters, so a text that is no TOML document is an error by assumption. nan, infinite numbers and choices written as tables are not modelled."
  },
  {
   "property": "C82",
   "status": "proved",
   "theorems": [
    "CM.Props.C82_only_own",
    "CM.Props.C82_all_own",
    "CM.Props.C82_number_is_of_child",
    "CM.Props.C82_own_group"
   ],
   "note": "The process table is a model of the kernel (fork, exit, wait, setpgid, killpg), as POSIX describes it: a new process never gets the number of an existing process or group. Sessions and permissions are not modelled. That the signalled processes end is not claimed, see C26."
  },
  {
   "property": "C83",
   "status": "proved",
   "theorems": [
    "CM.Props.C83_options",
    "CM.Props.C83_same_run"
   ],
   "note": "Which option stands for which key is in Spec/ConfigArgs (optionKeys); Gives says that arguments give what a file sets. The directory that results are written to is given with the run, so that the same directory is assumed to be used for the same value of output."
  },
  {
   "property": "C84",
   "status": "partial",
   "theorems": [
    "CM.Props.C84_output",
    "CM.Props.C84_same_package_partial",
    "CM.Props.C84_same_runs_partial",
    "CM.Props.C84_located",
    "CM.Props.C84_in_package",
    "CM.Props.C84_workspace",
    "CM.Props.C84_anywhere",
    "CM.Props.C84_manifest_path_false",
    "CM.Props.C84_relative_output_false"
   ],
   "note": "Partial: false for --manifest-path with a bare file name (C84_manifest_path_false) and, when the working directory changes, for a relative output directory in the configuration file (C84_relative_output_false); the two C84_same_..._partial theorems leave these out. cargo locate-project is assumed to do what its documentation says (Spec.CargoLocates); symbolic links among the directories of the path to the start are not modelled."
  },
  {
   "property": "C85",
   "status": "proved",
   "theorems": [
    "CM.Props.C85_nothing_left",
    "CM.Props.C85_all_removed",
    "CM.Props.C85_in_use",
    "CM.Props.C85_only_own",
    "CM.Props.C85_one_per_job",
    "CM.Props.C85_leaked",
    "CM.Props.C85_commands",
    "CM.Props.C85_adds_nothing"
   ],
   "note": "tempfile::TempDir is taken to make a new directory and to remove it when dropped, also when a thread unwinds; the removal is one step that succeeds or not. When the process is killed, nothing is claimed. The bound C85_only_own is for directories as numbers: that TempDir gives a name that was not there is assumed."
  },
  {
   "property": "C86",
   "status": "proved",
   "theorems": [
    "CM.Props.C86_counts",
    "CM.Props.C86_counts_at_end",
    "CM.Props.C86_line",
    "CM.Props.C86_remaining",
    "CM.Props.C86_rows",
    "CM.Props.C86_no_other_rows",
    "CM.Props.C86_row_text",
    "CM.Props.C86_adds_nothing"
   ],
   "note": "All clauses. A baseline that timed out is counted among the timeouts of the display, so the numbers are claimed only where the baseline passed: while mutants are tested, and at the end of a run whose baseline did not fail. Above five minutes the remaining time is rounded up by 30 to 90 seconds."
  },
  {
   "property": "C87",
   "status": "proved",
   "theorems": [
    "CM.Props.C87_same_or_error",
    "CM.Props.C87_uninterrupted",
    "CM.Props.C87_nothing_parsed",
    "CM.Props.C87_stops",
    "CM.Props.C87_error",
    "CM.Props.C87_lock",
    "CM.Props.C87_copy",
    "CM.Props.C87_testing"
   ],
   "note": "All clauses. Each step of the model is one turn of a loop or a stretch of code without a look at the flag; an operating system call within a step, such as cargo metadata, is not interrupted by the program (cargo gets the signal itself). A file outside the tree is skipped before the flag is looked at."
  },
  {
   "property": "C88",
   "status": "proved",
   "theorems": [
    "CM.Props.C88_first_failure",
    "CM.Props.C88_printed",
    "CM.Props.C88_endings",
    "CM.Props.C88_own_error",
    "CM.Props.C88_interrupted",
    "CM.Props.C88_only_interrupts",
    "CM.Props.C88_panics",
    "CM.Props.C88_adds_nothing"
   ],
   "note": "Threads that fail, in the system of Lab.lean extended by the error or panic that each holds. C88_first_failure, C88_printed: what join_threads makes of them. C88_endings, C88_own_error: what they hold. C88_only_interrupts and C88_panics: what the exit codes 1 and 101 mean."
  },
  {
   "property": "C89",
   "status": "proved",
   "theorems": [
    "CM.Props.C89_lost",
    "CM.Props.C89_count"
   ],
   "note": "C89_lost names the lost mutants; C89_count bounds their number by the number of failed threads."
  },
  {
   "property": "C90",
   "status": "partial",
   "theorems": [
    "CM.Props.C90_same_records",
    "CM.Props.C90_own_directories",
    "CM.Props.C90_commands_see",
    "CM.Props.C90_written_anew",
    "CM.Props.C90_first_use_partial",
    "CM.Props.C90_isolated_false"
   ],
   "note": "The whole statement is C90_full with the other theorems; its last sentence is false (C90_isolated_false): build directories are used again, so what commands for the baseline or other mutants wrote is still there. The rest is proved for all runs; the last sentence is proved for the first use of a directory. Configurations whose mutated files are not copied are excluded (there every mutant fails)."
  },
  {
   "property": "C91",
   "status": "partial",
   "theorems": [
    "CM.Props.C91_compiled_is_mutated",
    "CM.Props.C91_test_partial",
    "CM.Props.C91_file",
    "CM.Props.C91_all_false"
   ],
   "note": "Code that is compiled without test is mutated completely, whatever predicates stand on it or around it. cfg(test) leaves out everything it stands on (_partial); that all test-only code is left out is false: cfg(all(test, unix)) is not recognised (C91_all_false). syn is a parameter; how a predicate looks to parse_nested_meta is in Spec/Cfg.lean."
  },
  {
   "property": "C92",
   "status": "partial",
   "theorems": [
    "CM.Props.C92_search",
    "CM.Props.C92_search_only",
    "CM.Props.C92_mutants_partial",
    "CM.Props.C92_excluded_false",
    "CM.Props.C92_search_grows",
    "CM.Props.C92_search_text",
    "CM.Props.C92_adds_nothing",
    "CM.Props.C92_copy",
    "CM.Props.C92_copy_only",
    "CM.Props.C92_copy_found",
    "CM.Props.C92_copy_text",
    "CM.Props.C92_failed_line_false"
   ],
   "note": "Numbers shown during the search are those of the files loaded so far and never decrease; they are those of the mutants found if no files are chosen by name (_partial), otherwise files left out are counted too (C92_excluded_false). Each copy has exactly one line with its bytes, found without panicking; the line of a failed copy stays (C92_failed_line_false)."
  },
  {
   "property": "C93",
   "status": "proved",
   "theorems": [
    "CM.Props.C93_text",
    "CM.Props.C93_distinct",
    "CM.Props.C93_tested"
   ],
   "note": "Composes the visitor (C48), spans (C01, C02) and the threads (C29). That the tree is one of the text is a hypothesis (TreeOf), as syn is a parameter; shown for a sample. Texts without carriage returns."
  },
  {
   "property": "C94",
   "status": "partial",
   "theorems": [
    "CM.Props.C94_original",
    "CM.Props.C94_deleted",
    "CM.Props.C94_operator",
    "CM.Props.C94_tokens_partial",
    "CM.Props.C94_guard_false",
    "CM.Props.C94_all_genres_partial"
   ],
   "note": "For deleted operators and arms and for binary operators after an operand without further conditions; for others if white space, a bracket or a comment is before (_partial). In full it is false: a guard directly after if joins with it (C94_guard_false). The lexer in Spec/Lex.lean follows the Rust reference; characters beyond ASCII count as letters unless they are white space."
  },
  {
   "property": "C95",
   "status": "partial",
   "theorems": [
    "CM.Props.C95_reads_back_partial",
    "CM.Props.C95_parts_partial",
    "CM.Props.C95_values",
    "CM.Props.C95_in_file",
    "CM.Props.C95_joined_false",
    "CM.Props.C95_comment_false"
   ],
   "note": "Full statement refuted by C95_joined_false (`a & &b` is printed as `a &&b`) and C95_comment_false (`1 / *p` as `1 /*p`). Proved if punctuation needs no space, up to joining of marks if no / is before / or *, and for all function values."
  },
  {
   "property": "C96",
   "status": "proved",
   "theorems": [
    "CM.Props.C96_tokens_tested",
    "CM.Props.C96_zero",
    "CM.Props.C96_one_token"
   ],
   "note": "From the arguments to the directory that a command is run in. That constructs begin and end with tokens is assumed of the parser's trees; a guard directly after if is excluded, since C94 is false there."
  },
  {
   "property": "C97",
   "status": "proved",
   "theorems": [
    "CM.Props.C97_lines_are_true",
    "CM.Props.C97_all_listed",
    "CM.Props.C97_one_fate",
    "CM.Props.C97_no_other_fate",
    "CM.Props.C97_missed_program"
   ],
   "note": "Says what happened to processes for each list at any time of a run, that nothing is left out in the end, that a mutant has one fate, and which mutants are in no list; with C96, what a line of missed.txt says of tokens."
  },
  {
   "property": "C98",
   "status": "proved",
   "theorems": [
    "CM.Props.C98_results_are_expected",
    "CM.Props.C98_same_results",
    "CM.Props.C98_lines",
    "CM.Props.C98_code",
    "CM.Props.C98_jobs_and_shuffling"
   ],
   "note": "C98_results_are_expected, C98_lines and C98_code say what any run records, lists and ends with, from how its commands end; C98_same_results and C98_jobs_and_shuffling compare two runs."
  },
  {
   "property": "C99",
   "status": "proved",
   "theorems": [
    "CM.Props.C99_selection_options",
    "CM.Props.C99_runs"
   ],
   "note": "C99_selection_options is about what is selected, before shuffling, and C99_runs about runs."
  },
  {
   "property": "C100",
   "status": "proved",
   "theorems": [
    "CM.Props.C100_iterate_finds_the_same"
   ],
   "note": "Any two runs, the second with --iterate in the output directory left by the first, whose commands end alike; other jobs, shuffling, schedules and earlier output are arbitrary. Uses C98 for each of the runs."
  },
  {
   "property": "C101",
   "status": "proved",
   "theorems": [
    "CM.Props.C101_shards_are_the_whole"
   ],
   "note": "All shards, each with its own output directory, machine, jobs and schedule, against the unsharded run, with commands that end alike."
  },
  {
   "property": "C102",
   "status": "proved",
   "theorems": [
    "CM.Props.C102_listed",
    "CM.Props.C102_mutants_in_files",
    "CM.Props.C102_only_file_filters",
    "CM.Props.C102_either"
   ],
   "note": "text and JSON (C74_list_files_json); what is reachable is as in C45"
  },
  {
   "property": "C103",
   "status": "proved",
   "theorems": [
    "CM.Props.C103_same_fate",
    "CM.Props.C103_part",
    "CM.Props.C103_filters_leave_out",
    "CM.Props.C103_filtered_run"
   ],
   "note": "Command behaviour (Behaves) is assumed to depend only on scenario and phase in both runs; that the names fit on a line is assumed for reading the list files."
  },
  {
   "property": "C104",
   "status": "proved",
   "theorems": [
    "CM.Props.C104_same_order",
    "CM.Props.C104_shards",
    "CM.Props.C104_files",
    "CM.Props.C104_mutants",
    "CM.Props.C104_baseline"
   ],
   "note": "C104_files and C104_mutants give the order, with the order of a dictionary as an independent specification (dict_order shows it is an order of all texts); C104_same_order says that a run with any rearrangement of the description and of --package arguments does the same; C104_baseline is about the packages of the baseline. Distinct names of members are what cargo insists on. Only ordinary components of paths are ordered; std puts the root and .. before them."
  },
  {
   "property": "C105",
   "status": "proved",
   "theorems": [
    "CM.Props.C105_who_decides",
    "CM.Props.C105_recorded_names",
    "CM.Props.C105_shown_names",
    "CM.Props.C105_listing",
    "CM.Props.C105_results",
    "CM.Props.C105_progress",
    "CM.Props.C105_colored_results",
    "CM.Props.C105_colored_names",
    "CM.Props.C105_outcome_colors",
    "CM.Props.C105_replacement_color"
   ],
   "note": "Names, the list, results and the progress display; the escape codes are those of crate console; terminal detection is a parameter, and the colours of trace messages are not modelled."
  },
  {
   "property": "C106",
   "status": "proved",
   "theorems": [
    "CM.Props.C106_diff",
    "CM.Props.C106_read_in_one_way",
    "CM.Props.C106_recorded",
    "CM.Props.C106_tested",
    "CM.Props.C106_listed",
    "CM.Props.C106_lone_carriage_return"
   ],
   "note": "For every script that the diff library may find, and in runs (C106_tested): while a mutant is built or tested, any reading of its diff file patches the source into the file of the directory. What a script is (Script) is said with the model's accessors oldStart, newStart, oldLen and newLen, so a mistake in these may go unseen (seeded ZG04, not caught). Files with carriage returns are outside the quantifier (the library takes a lone one for a line end; C106_lone_carriage_return shows the unreadable diff)."
  }
 ]
}