# Design

Formal model of cargo-mutants (source in /repo, Rust, read as text) in Lean 4, under `lean/Verif`.

Layout: `Model/*` definitions citing the source lines they model; `Spec/*` small independent specifications; `Proofs/*` helper lemmas; `Props/*` the property theorems with a concrete case beside each. `properties.jsonl` has the properties, `MANIFEST.json` the theorems for each (made by `tools/manifest.py` from the names `Cxx_…` and `tools/notes.json`), `seeded/LOG.jsonl` the wrong programs tried (with `seeded/run.py`; `seeded/auto.py` makes edits by rules and reports those that no theorem notices).

Names: a theorem `Cxx_…_false` proves the negation of the full statement (`Cxx_full` or similar, a `Prop`) by a witness where the code does not do what the property says; `Cxx_…_partial` is what is proved instead, or where something is missing. All other theorems `Cxx_…` are unconditional parts of the property.

## Trusted base

- Lean 4.33.0: the kernel, and the elaborator for what the statements mean. No Mathlib module is imported; only Lean's core library. No `sorry`, `admit`, `axiom`, `native_decide`, `bv_decide`, `implemented_by` or `unsafe`. `decide +kernel` is used for concrete cases and witnesses; it is evaluated by the kernel.
- That the definitions in `Model` say what the Rust code does. This was done by reading; nothing was extracted or run. Each definition cites its lines. What is left out is listed below.
- That the statements in `Props`, with the definitions in `Spec`, say what `properties.jsonl` says in English.

### Axioms

Every theorem of the manifest depends only on axioms of Lean's core library (`propext`, `Classical.choice`, `Quot.sound`). In detail (written by `tools/axioms.py`):

<!-- axioms -->

- no axioms (1 theorems): C24_baseline_limits

- `propext` (11 theorems): C03_no_cr_left, C03_normalize_spec, C03_normalize_unique, C03_unchanged_without_crlf, C26_first_poll_partial, C26_returns_false, C48_positions, C54_joined, C64_round_trip, C64_unambiguous, C67_override_partial

- `Quot.sound`, `propext` (38 theorems): C03_other_characters_kept, C06_shard_members, C06_shards_partition, C07_shard_order, C09_exit_status, C09_verdict, C104_baseline, C10_counts, C10_recording_total, C10_total_is_sum, C11_exit_code, C11_exit_code_defined, C12_zero_exactly, C12_zero_means_caught_partial, C18_after_the_window_partial, C18_one_run_per_directory_partial, C18_runs_exclusive_false, C25_not_left_running, C25_results_are_true, C26_no_more_polls_partial, C26_over_when_child_exits_partial, C27_interrupted_command_fails, C34_phases_in_order, C54_cut, C55_each_once_partial, C55_elsewhere_refused, C55_enclosing_package, C55_workspace, C56_others_are_not_roots, C56_top_sources, C59_unique, C64_one_line, C66_shuffle_keeps_mutants, C67_order, C82_all_own, C82_number_is_of_child, C82_only_own, C82_own_group

- `Classical.choice`, `Quot.sound`, `propext` (427 theorems): C01_edits_exactly_region_false, C01_edits_exactly_region_lf_partial, C01_edits_exactly_region_partial, C01_exactly, C01_nothing_else, C02_exactly, C02_original_is_region_false, C02_original_is_region_partial, C02_put_back_partial, C03_not_idempotent, C03_selected, C04_full_false, C04_restored_partial, C04_restored_up_to_crlf_partial, C04_source_restored_partial, C04_source_restored_up_to_crlf_partial, C05_exactly, C05_marker_present_false, C05_marker_present_partial, C07_shards_balanced, C08_accepted_shard_selects, C08_shard_argument, C100_iterate_finds_the_same, C101_shards_are_the_whole, C102_either, C102_listed, C102_mutants_in_files, C102_only_file_filters, C103_filtered_run, C103_filters_leave_out, C103_part, C103_same_fate, C104_files, C104_mutants, C104_same_order, C104_shards, C105_colored_names, C105_colored_results, C105_listing, C105_outcome_colors, C105_progress, C105_recorded_names, C105_replacement_color, C105_results, C105_shown_names, C105_who_decides, C106_diff, C106_listed, C106_lone_carriage_return, C106_read_in_one_way, C106_recorded, C106_tested, C10_counts_in_run, C11_order_independent, C12_zero_means_caught_false, C13_lists_agree, C13_lists_agree_in_run, C13_lists_read_back_partial, C13_names_fit_on_a_line, C13_one_line_each_false, C13_one_list_each, C13_read_back_exactly, C13_recording_total, C14_at_most_one_line_missing_partial, C14_last_written_has_every_line_partial, C14_lists_never_claim_more_false, C14_lists_never_claim_more_partial, C14_outcomes_json_stays_readable_false, C15_diff_files_unique, C15_log_files_unique, C16_log_names_ordinary, C16_log_names_safe, C17_results_survive_crash, C17_rotation, C18_only_by_the_window_partial, C18_runs_exclusive_partial, C19_added_kept, C19_found, C19_keeps_overlapping_false, C19_keeps_overlapping_partial, C19_keeps_sublist, C20_affected_lines_false, C20_affected_lines_partial, C20_found, C21_agreeing_accepted, C21_refused_exactly, C21_stale_refused_false, C21_stale_refused_partial, C22_deleted_ignored, C22_dots_ignored, C22_empty_selects_nothing, C22_kept_are_named, C22_named_as_written, C22_repeated_refused, C22_what_is_parsed, C23_at_least_baseline, C23_auto_timeout, C23_explicit_timeout, C23_no_baseline, C23_total, C24_build_limit, C24_build_limit_no_baseline, C26_signal_in_time_partial, C27_command_starts, C27_error_unless_complete, C27_nothing_new_recorded, C27_signal_after_interrupt, C28_each_tested_once, C28_recorded_are_executed, C29_baseline_sees_original, C29_full_false, C29_one_mutation_partial, C29_one_mutation_up_to_crlf_partial, C30_jobs_and_directories, C31_baseline_first, C31_exit_code_partial, C31_failed_baseline_exit_code, C31_full_false, C32_failure_is_reported, C32_no_error_without_cause, C32_outcome_is_complete, C33_bounded, C33_no_infinite_run, C33_progress, C34_in_run, C35_baseline_always, C35_baseline_false, C35_baseline_partial, C35_default, C35_named_false, C35_named_none, C35_named_partial, C35_workspace, C36_iterate_skips_exactly, C36_lines, C36_total, C37_never_forgets_false, C37_never_forgets_partial, C38_command_line_only, C38_filters, C38_lists, C38_scalars, C38_total, C39_files, C39_files_by_meaning, C39_names, C39_tree, C39_tree_by_meaning, C40_alternatives, C40_any_of_several, C40_ascii, C40_characters, C40_class, C40_empty_glob_matches_all, C40_globs, C40_groups, C40_no_globs, C40_question_mark_is_a_byte, C40_star_stays, C41_calls, C41_names, C42_build_matches_test, C42_extra_arguments, C42_options, C42_order, C42_profile_false, C42_profile_partial, C42_subcommand, C43_environment, C43_rustflags, C44_check_is_exact, C44_load_stays_inside, C44_outside_is_not_read, C44_outside_is_skipped, C44_run_reads_inside, C44_run_stays_inside, C44_walk_stays_inside, C45_contributes, C45_cycle_false, C45_ends, C45_errors, C45_files, C45_mutants, C45_once_partial, C45_tree, C45_twice_false, C45_unique, C46_crate_partial, C46_found_partial, C46_inline_path_false, C46_path_files_false, C46_resolves_partial, C47_cfg_attr_false, C47_const_false, C47_forms_partial, C47_skipped_partial, C48_complete, C48_exact, C49_different, C49_documented_false, C49_kinds, C49_table_partial, C49_unary, C50_counts, C50_distinct, C50_error_values, C50_never, C50_one_tuple_false, C50_other_types_false, C50_unit, C50_values_partial, C51_bodies, C51_no_original, C52_all, C52_covers, C52_covers_false, C52_deleted, C53_described, C53_function, C53_no_panic, C54_change, C54_has_name, C54_identifies, C54_numbers, C54_reads_back, C54_spelled, C54_wording, C55_comma_list_false, C55_default_members, C55_each_once_false, C55_how_often, C55_named, C57_copy, C58_build_dir, C58_config_partial, C58_dev_dependencies_false, C58_into_tree_false, C58_leaving_paths, C58_members_false, C58_paths_partial, C58_rest, C58_source_is_absolute, C59_last_line, C59_never_again, C60_console_never_fails, C61_each_once, C61_summary_line, C61_words_cover, C62_either, C62_json, C62_listed_are_tested, C62_recorded, C63_compose, C63_package_run, C63_packages, C63_shard_of_filtered, C63_shards, C64_empty_argument_lost, C65_after_arrow, C65_after_comma, C65_invisible_groups_false, C65_no_trailing_space_partial, C65_printed_partial, C65_reads_back_partial, C66_taken_in_order, C67_override_false, C68_links_false, C68_links_partial, C68_operations_partial, C68_source_untouched, C68_what_is_written, C69_message, C69_only_recorded, C69_printed, C70_lines_agree, C71_builds_do_not_time_out, C71_of_its_command, C71_results_are_of_processes, C71_status_is_true, C71_tested_packages, C71_timeout_is_slower_than_baseline, C72_all_children_have_exited, C72_children_accounted, C72_processes_at_once, C72_why_left, C73_bounded_work, C73_can_return, C73_is_run_of_threads, C73_what_is_waited_for, C74_counts_agree_with_entries, C74_entry_determines_edit, C74_list_files_json, C74_list_json, C74_mutants_json, C74_outcomes_json, C74_outcomes_json_of_run, C74_written_is_read, C75_all_are_told, C75_few_children, C75_few_steps, C75_one_sleep, C75_results, C75_sleep_is_short, C76_codes, C76_errors_have_causes, C76_four_nothing_tested, C76_other_codes, C76_refused, C76_zero_all_died, C77_iterate_own_output_false, C77_shards_divide_partial, C77_shards_together_partial, C78_iterate_together, C78_listed_died, C78_never_again, C78_same_place, C79_log_tells_outcome, C79_log_text, C79_only_appended, C79_paths_in_outcomes_json, C79_recorded_log_is_final, C79_running_command_is_named, C80_copy_keeps_sources, C80_what_commands_see, C80_zero, C81_for_run, C81_meaning, C81_order, C81_unknown, C81_where, C83_options, C83_same_run, C84_anywhere, C84_in_package, C84_located, C84_manifest_path_false, C84_output, C84_relative_output_false, C84_same_package_partial, C84_same_runs_partial, C84_workspace, C85_adds_nothing, C85_all_removed, C85_commands, C85_in_use, C85_leaked, C85_nothing_left, C85_one_per_job, C85_only_own, C86_adds_nothing, C86_counts, C86_counts_at_end, C86_line, C86_no_other_rows, C86_remaining, C86_row_text, C86_rows, C87_copy, C87_error, C87_lock, C87_nothing_parsed, C87_same_or_error, C87_stops, C87_testing, C87_uninterrupted, C88_adds_nothing, C88_endings, C88_first_failure, C88_interrupted, C88_only_interrupts, C88_own_error, C88_panics, C88_printed, C89_count, C89_lost, C90_commands_see, C90_first_use_partial, C90_isolated_false, C90_own_directories, C90_same_records, C90_written_anew, C91_all_false, C91_compiled_is_mutated, C91_file, C91_test_partial, C92_adds_nothing, C92_copy, C92_copy_found, C92_copy_only, C92_copy_text, C92_excluded_false, C92_failed_line_false, C92_mutants_partial, C92_search, C92_search_grows, C92_search_only, C92_search_text, C93_distinct, C93_tested, C93_text, C94_all_genres_partial, C94_deleted, C94_guard_false, C94_operator, C94_original, C94_tokens_partial, C95_comment_false, C95_in_file, C95_joined_false, C95_parts_partial, C95_reads_back_partial, C95_values, C96_one_token, C96_tokens_tested, C96_zero, C97_all_listed, C97_lines_are_true, C97_missed_program, C97_no_other_fate, C97_one_fate, C98_code, C98_jobs_and_shuffling, C98_lines, C98_results_are_expected, C98_same_results, C99_runs, C99_selection_options

<!-- end axioms -->

## What is modelled

Conventions: text is `List Char`; a path is the list of its components; `Option` `none` is an error, a panic, or a step that cannot be taken; `usize` is `Nat`, so overflow is not modelled; seconds are exact rationals, so the rounding of `f64` is not modelled. Unix only.

| Source | Model | Not modelled |
|---|---|---|
| `span.rs`, `mutant.rs`, `source.rs`, `path.rs`, `scenario.rs` | `Span`, `Mutant`, `PathSafe` | `Debug`; names with colours are in `Colors`; the unified diff is in `Unified` |
| `shard.rs`, `outcome.rs`, `exit_code.rs`, `timeouts.rs` | `Shard`, `Outcome`, `Summary`, `Timeouts` | JSON text of outcomes (its fields only); printing of durations |
| `output.rs` | `Output`, `OutputDir`, `Lock` | `debug.log`; `lock.json`'s text; directories other than `mutants.out` and `mutants.out.old`; failures inside one `write` call |
| `lab.rs`, `console.rs`, `build_dir.rs`, `interrupt.rs` | `Lab` (transition system of main thread and workers), `Message` (what is printed) | the jobserver; drawing by `nutmeg`; trace messages; how durations are printed; a standard output that cannot be written; cargo commands change no files (they do in `Dirt`) |
| `lab.rs` with commands that write to their directory | `Dirt` (`Lab` with steps in which a command writes or removes a file of a directory in which one has been started) | directories and links that commands make; writes outside of the build directory; how what commands write changes the results of later commands (their results are arbitrary) |
| `process.rs`, `process/unix.rs` | `Process` (transition system of one child) | Windows; process groups beyond the child that is waited for |
| serializers in `mutant.rs`, `outcome.rs`, `span.rs`, `scenario.rs`, `process.rs`; JSON in `list.rs`, `output.rs` | `Json` (the text that is written) | the text of a duration (floating point); the paths of log and diff are parameters; the pretty printer and derived serializers of `serde_json` are modelled after their documentation |
| `lab.rs`, `cargo.rs`, `process.rs`, `timeouts.rs` together | `Run` (the system of `Lab` in which every cargo command is a process of `Process`, with one clock, one interrupt flag and the limits of `Timeouts`) | the time that steps outside of processes take; grandchildren |
| `ScenarioOutput` in `output.rs`, with what `process.rs` and `lab.rs` write to it | `Logs` (`Run` extended by the logs and diffs) | what a log holds when writing it fails (the scenario then fails); the diff is a parameter (`Unified` says what it is); a log whose title cannot be written is one that could not be created; `debug.log` |
| `copy_from` in `build_dir.rs` as what the whole program copies with | `BuildDir` (`Program` with `CopyTree` and `Manifest`) | changes that commands make to their directory |
| `config.rs` | `ConfigFile` | the parser of TOML and of numbers; infinite numbers and `nan`; choices written as tables |
| `process/unix.rs` with the process table | `Group` (`Process` extended) | sessions, permissions, threads of processes; the kernel gives out numbers as POSIX says |
| `main.rs` from the arguments to the exit code | `Program` (`Pipeline` and `Run` composed; `Ends` relates the command line and the code) | parsing of arguments; what the tree is while it is read and copied is one function of paths, so it does not change in between; how copying treats a file is a parameter |
| `cargo.rs` | `Cargo` | what cargo does with the command line |
| `in_diff.rs` | `InDiff` | the parser of diffs (crate `patch`) is a parameter |
| `options.rs`, arguments in `main.rs` | `Options` | parsing of arguments (clap); options for printing and the jobserver; regular expressions are an arbitrary predicate |
| `glob.rs` | `Glob`, with the part of `globset` used, which matches bytes (`Utf8`; `utf8Bytes_eq` says that they are those of the encoder of Lean's own strings); paths are matched as their components with slashes between them, so a `.` component inside a path is not seen; classes and alternatives are as in `globset` 0.4.10, where alternatives cannot be nested and empty ones are dropped | the refusal of a reversed range between two characters outside of ASCII in a class |
| `package.rs`, `workspace.rs` | `Workspace` | running `cargo metadata` and `cargo locate-project`: their result is a parameter |
| `main.rs` and `workspace.rs` up to the workspace (`locate_project`, `Workspace::open`) | `Start` | what cargo answers is a parameter, and for the theorems is as documented; symbolic links on the way to the start |
| `visit.rs` | `Visit` (one file), `Walk` (`mod` statements, packages) | parsing by `syn` is a parameter; the tree has the nodes and attributes that the visitor looks at |
| `fnvalue.rs`, `pretty.rs` | `FnValue`, `Tokens` | types by the variants that the code distinguishes; spans of tokens |
| `main.rs`, `list.rs` | `Pipeline` | `--completions` and `--version` (in `Program`, only their codes) |
| `copy_tree.rs`, `manifest.rs` | `CopyTree`, `Manifest` | reading of ignore files (crate `ignore`) is a parameter; parsing and printing of TOML are parameters; a source that changes during the copy |
| who owns which temporary directory: `BuildDir` in `build_dir.rs`, `TempDir` in `copy_tree.rs`, `--leak-dirs` | `Temp` (over `Lab`) | how the crate `tempfile` makes and removes a directory; removal is one step |
| what the console shows: `LabModel` and `ScenarioModel` in `console.rs` | `View` (over `Lab`) | drawing and the width of the terminal; how durations are printed; rational numbers for `f64` |
| `Mutant::diff` in `mutant.rs` | `Unified`: lines, hunks and their text as crate `similar` 2.1 makes them, from memory of its source and checked against the snapshot of `--list --diff` (`Conform/Diffs.lean`) | which lines the library finds to be equal: a parameter, of which the theorems assume that it is a script (`FindsScripts`) |
| colours: `Colors` in `options.rs`, `styled_parts`, `to_styled_string`, and the `style_…` functions of `console.rs` | `Colors`, beside the plain texts of `Mutant`, `Message`, `View`, `Progress` | how clap reads `--colors` and `CARGO_TERM_COLOR`; what crate `console` finds out about the terminal (a parameter); the colours of trace messages; the escape codes are those of crate `console` 0.15, from memory of its source |
| the same while the tree is searched and copied: `WalkModel` and `CopyModel` in `console.rs` | `Progress` (over `Interrupt`; the threads that copy at once) | the same; that `tempfile` gives a new name each time is assumed |
| where `interrupt.rs` is looked at before testing: `main.rs`, `workspace.rs`, `visit.rs`, `output.rs`, `copy_tree.rs` | `Interrupt` (over `Pipeline` and `CopyTree`) | that the handler sets the flag (crate `ctrlc`); ctrl-C before the handler is installed |
| `lab.rs` `join_threads` and the errors it collects | `Join` (over `Lab`) | the text of an error and its chain of causes: an error is "interrupted" or a number; that a panic does not poison a lock that another thread needs (the only panic in a thread that can happen, for an unreadable log, happens while no lock is held) |
| writing in `build_dir.rs` and `manifest.rs` with symbolic links | `Link` (files of the system by their absolute path; how the system follows a path) | links on the way to the temporary directory; permissions; hard links |
| `tail_file.rs` | `TailFile` | decoding of UTF-8 and the test for white space are parameters |
| `interrupt.rs` `install_handler`, `process/windows.rs`, `copy_tree/windows.rs` | none | all |

`tools/coverage.py` lists the functions that no definition cites.

### How the model was compared with the code

The code cannot be run here, so besides reading, the model is compared with what the code's own tests say. `lean/Verif/Conform` transcribes the unit tests in `/repo/src`, and part of the snapshots in `/repo/tests/snapshots` (lists of mutants, JSON, names of logs, console output): each is an `example` that computes the model's answer for the test's input and compares it with the answer the test expects. These are tests of the model, not proofs, and no claim in `MANIFEST.json` rests on them. Left out are the tests of parts that are not modelled: `Debug` texts, the jobserver, `clap`'s conflicts, Windows, and attributes as `syn` parses them. Trees, types, tables and diffs are written by hand where the test has text, since their parsers are not modelled.

Of the combinations of arguments that `clap` refuses, the model has `--in-place` with `--jobs` only. The others (`--in-place` with the options for copying, a timeout with its multiplier, `--dir` with `--manifest-path`) are accepted by the model, so that the theorems cover more command lines than the program does.

## Where the code and the properties disagree

For each there is a witness in Lean: a theorem `…_false`, or an example where noted.

- **Lone carriage returns** (C01, C02, C05): the parser counts a CR that is not before a LF as a column, the scanner of `Span::replace` does not, so the edit is at the wrong place or absent.
- **CRLF** (C04, C29): source files are read with CRLF replaced, and reverting writes that text back, so a file with CRLF is not what it was. Normalising is not idempotent on CR CR LF (C03).
- **Killed commands** (C12): a mutant whose test command is killed by a signal is neither caught nor missed, and the exit code can be 0. Its verdict has no word in the last line (C61).
- **outcomes.json** is unreadable while it is rewritten (C14).
- **Names with a line feed** (C13, C14): names are written to the lists as they are, so a mutant in a directory called `a⏎src` makes two lines, of which the second can be the name of a mutant that was never tested. `--iterate` reads the lists line by line (C37, C78 assume names that fit on a line).
- **Files that commands leave** (C90): a build directory is used again for the next mutant, as it is but for the mutant's file. What the tests of the baseline or of another mutant wrote there is seen by the commands for the next one.
- **`cfg(all(test, …))`** (C91): `attr_is_cfg_test` looks only at the names directly in the parentheses, though its comment says "or has test anywhere in it". So code under `#[cfg(all(test, unix))]` is mutated, though it is compiled only for tests.
- **A guard directly after `if`** (C94): `m if(m > 0) => …` becomes `m iftrue /* … */ => …`, since nothing separates the replacement from what is before it. The mutant does not compile, so it counts as unviable.
- **Marks that join** (C95): the printer decides by the character alone whether a space follows, so `a & &b` is printed as `a &&b`, another operator, and `1 / *p` as `1 /*p`, which opens a comment. The values that the program makes itself are not affected; an error value given by `--error`, or the length of an array, can be.
- **Numbers shown during the search** (C92): files that `--file` or `--exclude` leave out, and their mutants, are counted too. A copy that fails leaves its line in the display.
- **Shards with `--iterate`** (C77): what was caught is left out before the rest is divided into shards, so with an output directory for each shard the lists that are divided differ. A mutant that survived can then be in no shard, while all shards end with code 0.
- **Lone carriage returns in diffs** (C106, which leaves them out): crate `similar` takes a carriage return alone for the end of a line and prints it as it is, so the hunk has fewer lines than its header says (`C106_lone_carriage_return`).
- **Lock** (C18): the lock file is created, written and locked in steps, and the directory is moved in between, so two runs can both proceed (`Props/LockWindow.lean` says how wide the race is). Rotation rewrites the lock file of the old results (C17).
- **Diffs without context** (C19, C20): for a hunk that only deletes lines, `git diff -U0` numbers the line before it, and the code takes the wrong neighbours. An empty line beyond the end of the file counts as agreeing (C21). With `--no-prefix`, a directory called `b` is taken as the prefix (C22, example).
- **Time limits** (C26): only SIGTERM is sent, and then the program waits without limit. If signalling or `try_wait` fails it returns without waiting (C25, in the statement).
- **Baseline** (C31): a failing baseline whose log is not UTF-8 makes the program panic instead of ending with exit code 4.
- **Test packages** (C35): a name in `--test-package` that no package has leaves no selector at all; the baseline ignores `--test-workspace` and `--test-package`. `--test-workspace=false` does not override the packages named in the config (C67).
- **Iterating** (C37): a crash between rotation and writing `previously_caught.txt` loses the history.
- **Globs** (C40): the empty glob matches everything. `?` stands for one byte, so `f?.rs` does not match `fé.rs` (`C40_question_mark_is_a_byte`); the quantifier of C40 says so. A negated class such as `[!a]` matches a separator, unlike `?` and `*`.
- **Cargo command line** (C42): with nextest and `--check`, the profile is passed as `--cargo-profile` to `cargo check`.
- **Walk** (C45): a file named by two `mod` statements is walked twice, and a cycle of `#[path]` never ends.
- **Module files** (C46): `mod` statements in files that are named by `#[path]`, and `#[path]` on an outermost inline module outside `mod.rs`, are resolved differently from rustc.
- **Skipping** (C47): `cfg_attr(…, mutants::skip)` with other forms than the plain one is not recognised, and attributes on constants, statements and other nodes are ignored.
- **Tables of the book** (C49, C50): `<` also gives `<=` and `>` also `>=`; unknown types with one argument get `new`, `from_iter` and `from`; other `impl Trait` get nothing; 1-tuples are printed without a comma. The book says that all arms of a match with a wildcard are deleted, but arms with a guard are not (C52). A wildcard with a guard (`_ if g`) counts as a wildcard, so what is left of the match need not cover every value (`C52_covers_false`).
- **Packages** (C55): `-p a -p a` gives duplicates, and `--package a,b` is not split.
- **Start** (C84): `--manifest-path Cargo.toml` is refused, since the parent of a bare file name is the empty path, which is no directory. A relative `output` in the configuration file is relative to the working directory, not to the workspace.
- **Manifests** (C58): dev-, build-, target and workspace dependencies are not fixed, nor any in the manifests of members; paths that lead back into the tree, and absolute ones, mean the source and not its copy.
- **Symbolic links** (C68): links are copied as they are, and writing follows them. So mutating a file that is an absolute symbolic link into the tree changes the source, and so does fixing a `Cargo.toml` that is one (example).
- **Names** (C54, examples): a colon in a file name makes two names equal.
- **Logged arguments** (C64): empty arguments at the start are lost.
- **Printed code** (C65): groups without delimiters glue words together and can leave a trailing space; `a & &b` is printed `a &&b` (example).
- **Stale diffs** (C63, in the note): whether a diff is refused depends on which mutants other filters leave.

## Plan for each property

- **C01 A mutation edits exactly its own region.** Model `Span::replace` as the same character scanner (state line, column). Spec: a text split `pre ++ mid ++ post` whose end-of-prefix positions are the span's ends. Prove by induction on `pre`, `mid`, `post`. A bare CR at the start column makes the code insert the replacement twice: prove the negation of the unrestricted claim, keep a `_partial` with the side condition.
- **C02 The reported original text is the region that gets replaced.** Model `Span::extract` the same way; theorem `replace (extract) = id` and extract = mid of the split.
- **C03 Reading a source file normalises line endings and nothing else.** Model Rust `str::replace("\r\n","\n")` as a left-to-right scan; relational spec of erasing CRs before LF; count of LF preserved; negation of idempotence.
- **C04 After a mutant is tested the build directory is what it was before.** Model file system of a build dir as path -> Option Text, `run_one_scenario` as a function over an oracle of phase results; induction over histories. CRLF files: negation witness; `_partial` for files with no CRLF.
- **C05 Every mutated file carries the searchable marker.** From the C01 lemmas: marker is an infix of the result.
- **C06 Shards partition the mutants.** Model `Shard::select` with index filter; prove permutation / count statement for all lists and n>0.
- **C07 Shards are balanced and keep order.** Sublist + closed form for the length by induction; difference at most 1.
- **C08 A shard argument is accepted exactly when it is k/n with k<n.** Model split_once and usize parsing; iff theorem against a small grammar spec.
- **C09 Each mutant's verdict is determined by its cargo results.** Model summary() over phase result lists; executions from the phase loop; iff per verdict.
- **C10 The summary counts are the true counts.** Invariant by induction over `add`.
- **C11 The exit code states the worst result.** Decision theorem and permutation invariance.
- **C12 Exit code zero means that every viable mutant was caught.** Negation with a witness (signal), `_partial` when no outcome is Signalled/Other.
- **C13 The text lists agree with the recorded outcomes.** Model the four list files as append-only texts; invariant by induction; lines round trip.
- **C14 A killed run leaves lists that never claim more than outcomes.json.** Small-step model of the file writes; invariant at every prefix of steps.
- **C15 No two scenarios share a log or diff file.** Model used_log_names map and base names; prove distinctness for every sequence, via injectivity of decimal printing and the `_col_<digits>` suffix.
- **C16 Log and diff file names stay inside their directory.** Model clean_filename; theorem over all characters.
- **C17 Starting a run keeps the previous results in mutants.out.old.** Model the parent directory as a finite map name -> dir; theorem for every prior state.
- **C18 Two runs never write the same mutants.out at once.** Transition system with inodes and locks, any number of processes; find interleaving that violates it (negation), prove the part that holds (`_partial`: exclusive lock per directory, serial starts).
- **C19 --in-diff keeps exactly the mutants that overlap a changed line.** Model diff_filter with binary search; equivalence with set-overlap given sortedness (from C20).
- **C20 The affected lines are the added lines and the neighbours of deletions.** Model affected_lines; spec defined by positions; invariant for the scanner. Zero-context hunks: negation, `_partial`.
- **C21 A diff that does not describe the tree is refused.** Model partial_new_file and check; iff theorem.
- **C22 Diff paths are matched to source files by name.** Model path stripping and the outer loop; theorem and negation for un-prefixed diffs in a directory `b`.
- **C23 The test timeout follows the documented rule.** Model with rational seconds (Nat numerators) instead of f64; theorem for all values.
- **C24 Builds have no time limit unless one is asked for.** Same model.
- **C25 A cargo command is never left running.** Transition system of one child with clock, interrupt, exit; invariant on return.
- **C26 A time limit ends a command within one polling interval.** Same model; theorem over all poll sequences.
- **C27 An interrupt stops the run.** Worker transition system with an interrupt flag; invariant.
- **C28 Every mutant is tested exactly once.** Worker transition system (queue, N workers, program counters); invariants by induction over executions.
- **C29 Each cargo command sees the original tree plus exactly one mutation.** Same system, build dir contents in the state; invariant at each command.
- **C30 No build directory is shared, and no more jobs run than asked for.** Same system.
- **C31 No mutant is tested unless the baseline passes.** Function model of test_mutants; theorem.
- **C32 A run that could not test everything does not report success.** Same system with error results.
- **C33 Testing terminates.** Measure that strictly decreases on each step; progress theorem.
- **C34 Phases run in order and stop at the first failure.** Phase loop model; prefix theorem.
- **C35 The tests run for a mutant are those that the options name.** Model option resolution and argv; negation for the baseline, `_partial` for mutants.
- **C36 --iterate skips exactly the mutants already caught or unviable.** Model of text files, `lines()`, and removal; iff theorem with names free of newlines, negation otherwise.
- **C37 Iterated runs never forget a caught mutant.** Transition system over runs; invariant by induction; negation for the crash window.
- **C38 The command line overrides the config file as documented.** Model Options::new fields; decision theorems.
- **C39 File and name filters keep exactly the allowed mutants.** Model with predicates for globs and regexes; iff theorem.
- **C40 A glob without a slash matches names at any depth.** Model glob matcher on component lists; theorem relating `**/g`,`**/g/**` to component match.
- **C41 Calls to skipped functions are not mutated.** Abstract syntax tree model and visitor; theorem over all trees.
- **C42 The cargo command line says what the options say.** Model cargo_argv; shape theorem.
- **C43 User rustflags are kept when lints are capped.** Model encoded_rustflags; round trip with split on \x1f.
- **C44 No source file outside the tree is read or mutated.** Model ascent; spec = walk of a directory stack; iff.
- **C45 Every module reachable from a target's top file is walked.** Model BFS with fuel-free relation; soundness and completeness against reachability; negation of `once`.
- **C46 mod statements resolve to the file rustc would use.** Model find_mod_source; spec = rustc rules.
- **C47 Code marked as test or skipped is never mutated.** Visitor model; negations for attribute forms that are not recognised; `_partial`.
- **C48 Unskipped code is mutated completely.** Visitor model; completeness theorem.
- **C49 Operator mutants follow the documented table and never repeat the original.** Full table by cases.
- **C50 Function values follow the documented table for every type.** Model type grammar and replacements; structural theorems.
- **C51 No function mutant equals the original body.** Visitor model.
- **C52 Match arms are deleted only when a wildcard remains.** Visitor model.
- **C53 Mutants are named after the innermost enclosing function.** Visitor model with the stacks; balance invariant.
- **C54 A mutant's name identifies its position and change.** Model name(); injectivity by parsing from the left.
- **C55 Package selection matches the request.** Model filter functions.
- **C56 Only library, binary and proc-macro targets are mutated.** Model.
- **C57 A copied tree equals the source tree except for the documented exclusions.** Tree model and copy; path-wise iff.
- **C58 Relative dependencies of a copied manifest still mean the same thing.** Model TOML as a tree; resolution semantics; negation for `../proj/sub`; `_partial`.
- **C59 The progress line shows the last non-blank log line.** Model of appended text and offsets; theorem over interleavings.
- **C60 Progress reporting cannot fail.** Transition system with console model; invariant.
- **C61 The final summary line is consistent.** Model summary_string; decision theorem.
- **C62 Listing shows what testing would test.** Pipeline model; equality.
- **C63 Filters compose.** Pipeline model.
- **C64 Logged command lines are unambiguous.** Unquote function as spec; round trip; negation for empty arguments.
- **C65 Generated code is printed without losing tokens.** Token model; erasing spaces theorem; word separation.
- **C66 Shuffling changes only the order.** Permutation theorem with the worker system.
- **C67 Test package options.** Case analysis of the option model, stated as a table of precedence.
- **C68 Source tree untouched.** Invariant of the worker system: no thread has directory 0 unless in place. With symbolic links: a model of how paths are followed; negation for absolute links, and a `_partial` for trees in which no written file is reached by leaving the tree; every step of the worker system is one of the operations of that model.
- **C69 Reports on standard output.** Messages as an explicit list in the state of the worker system; invariant: what is printed, about to be printed or lost by a failed thread is a permutation of what is recorded.
- **C70 Printed lines agree with the lists.** From C69 and C13, by splitting standard output into lines.
- **C71 Results are of real commands.** Product of the worker system and the process system; invariant: every result in a thread's hands or recorded belongs to a past process with the right command line and limit; a separate definition of the documented limit.
- **C72 No process outlives the run.** Counting children by events; invariant of the product.
- **C73 No spinning, no deadlock.** Projection to the worker system; potential function for the steps in a process; induction on the weight of the worker system for the way to return.
- **C74 JSON.** The text that is written, and an independent reader of JSON with fuel; one induction on the fuel for values, elements and members; then reading by key of every type that is written.
- **C75 Interrupts.** One inversion lemma for what a step after an interrupt means to a given thread; four potential functions (steps, sleeps, looks at the child, children to start), each with a step lemma; results by projection to the worker system.
- **C76 Exit code of the program.** A history of the run: which processes ended, for which scenario, on which tree. Two invariants: every result held or recorded is witnessed by an ended process, and the status of every ended process is in the outcome that is returned; then C11. Errors: a run in which nothing goes wrong projects to a run of the worker system in which nothing goes wrong (C32).
- **C77 Shards together.** From C06, C63 and C76. With `--iterate` and separate output directories there is a counterexample of two shards that are run twice.
- **C78 Iterated runs.** Runs as a relation between output directories; induction on the sequence: every line that `--iterate` reads is the name of a mutant with a failed process (C14 for runs that are killed while recording, C76 for the processes); the other direction for runs that come to testing (C13).
- **C79 Logs.** The run with processes extended by the files of scenarios, each log as the list of what was appended, where commands may write at any time once they have a log. One invariant: for each point of the code that a thread can be at, what its log holds; no two threads with a scenario have the same log, and none has that of a recorded outcome.
- **C80 Build directories.** From C57 and C58 for the copy, and the invariant of the worker system for what each thread has in its directory (C29, C76); `BuildDir` puts the first in place of the copy that the second has as a parameter.
- **C81 Configuration file.** Each field reads one form and leaves the other fields alone (a lemma for each of the 19); induction on the entries for the loop. A configuration is determined by the values of the keys.
- **C82 Process groups.** `Process::run` together with a table of all processes. Invariant: while the child has not been waited for, its number and group are not reused, so whoever is in the group descends from the child or has joined; and a signal is sent only then.
- **C83 File and options.** The values of the keys and of the options for them agree (C81); then `Options::new` field by field, with the choice of test packages and of calls to skip by cases. Lifted to whole runs, which use the configuration only there.
- **C84 Start.** `Spec/Start.lean` says which directory the arguments name, following paths component by component, and what `cargo locate-project` is documented to do. The model's resolution of paths is proved equal to following; all else depends on the answer of cargo, which depends on the nearest manifest only.
- **C85 Temporary directories.** The system of C30, and beside it who owns which `BuildDir` or `TempDir`. Invariant: what each thread holds is a function of where it is; every directory that was made is removed, stuck, or held by exactly one owner. A second invariant counts the directories against the threads that may still make one.
- **C86 Display.** The system of C30 with what the console counts and shows. Invariant: the numbers are those of the outcomes that threads reported; these are the recorded ones less those of threads between recording and reporting, and of failed threads; the lines are aligned with the list of scenarios of C60.
- **C87 Ctrl-C before testing.** `main` up to testing as a transition system with the flag, one step for each source file. Invariant: what has been found so far is what a run without ctrl-C finds. That nothing is parsed any more is stated as independence of the parser. Copying is the loop of C57 with the check; the start of testing is C27.
- **C88 How a failing run ends.** `Lab` with the error or panic that each thread holds. Invariant: a thread holds an error or panic exactly if it is failing or has failed, and then that of a step of its own. `join_threads` is compared with "the first that panicked, else the first that failed".
- **C89 What a failing worker costs.** A function from threads to lost mutants, as ghost state: what is recorded, in the queue, in hand and lost is always a permutation of the mutants.
- **C90 What commands write.** A simulation: to each run with writes there is one without, whose directories agree on all files that a command did not write last. Removing a mutant's file acts as a write that fails. The last sentence has a counterexample; it holds for a directory's first use.
- **C91 Conditional compilation.** `Spec/Cfg.lean` has the predicates and their meaning from the Rust reference. By C48 a change is made wherever nothing is skipped; a `cfg` attribute makes something skipped only if its predicate is the name `test`, which is false for code that is compiled without it.
- **C92 Display of search and copies.** The system of C87 with `walk_tree`; invariant: the numbers are those of the files loaded so far. For copies a system of threads; invariant: the lines are distinct and belong to the threads that copy or failed.
- **C93 What a mutant changes.** `Spec/Edit.lean` says when a tree is one of a text: each operator's span is that of its symbol in the text, the statements of a block follow one another. With C48, C01 and C02 this gives the edit for each genre, and with C29 what commands see.
- **C94 Tokens of the mutated text.** `Spec/Lex.lean` reads tokens as the Rust reference says (comments, literals, numbers, longest punctuation), as a machine. A text is read as two others are if a token ends between them; a space ends every token, and the marker is read as nothing.
- **C95 Printed code.** The lexer of C94 reads what the printer of C65 writes. The layout is words and marks with gaps; a gap is empty only beside a mark (C65), so words never join, and what two marks do is a hypothesis on the source (`SpaceFree`), or, up to joining of marks, only that no `/` is before `/` or `*` (`PlainPieces`). For function values this follows by induction over the table of C50 from the names and array lengths of the return type and the error values, as `proc_macro2` gives them.
- **C96 What is tested, in tokens.** C80 (what is in the directory), C45 (which file and tree a selected mutant is from), C50 (the table of values), C94 and C95 (tokens) together. The parser is a parameter; that its trees are trees of the text, with constructs that begin and end where tokens do, is the hypothesis `TreeOfTokens`, which a sample text with constructs of all kinds meets.
- **C97 What the lists say.** The fates are said with the processes of a run of the whole program (`EndedIn`, as in C76) and how their children exited, not with recorded results. The lists are those that the writes so far have made, so a run may be killed between two writes; a failed write may only be the last thing that happens (`Undisturbed`, as in C78). A command ended by a signal puts its mutant in no list, which C12 has as a disagreement.
- **C98 The same results.** That commands end alike is a hypothesis about the run (`Behaves`): each process that ended (`EndedIn`, as in C76) did so with what a function of scenario and phase says. For timeouts this is an assumption that a machine under more load may break. What is expected is a small function of that function, the choice of checks and baseline, and the selected mutants (`expectedResults`); the outcomes of any run are a permutation of it. Times and command lines are left out of the comparison.
- **C99 What decides the selection.** Said for the relation `Selects` of a whole run before shuffling. An option may still make a run fail before, for example a negative time limit; so that the second command line is accepted is a hypothesis.
- **C100 Iterating.** The second run is in the world whose output directory is what the first one left (`Program.leaves`), as for C78. That different mutants have different names is a hypothesis, since names are what is compared (C54 says when it holds, C37 what happens otherwise); that names in the lists have one line is one as well, since the lists are read by lines (C13). A failed baseline leaves nothing in the lists, and then all is tested again.
- **C101 Shards.** Said for an output directory per shard. Without the hypothesis that they are the same at the start when iterating, C77's counterexample applies. The order of exit codes is that of numbers: 4 for a failed baseline is the greatest, then 3 for timeouts, 2 for missed mutants, and 0.
- **C102 Listing files.** `Props/ListFiles.lean`: from C45 for the tree, and from the filters being applied after the walk (C63). With `--json` the same files are printed as objects (C74). A file that is reached twice is listed twice (C45).
- **C103 Leaving out.** Filters only leave mutants out of the list that is found without them, in the same order; with C98 the mutants that remain end the same way.
- **C104 Order of packages.** `Workspace` sorts by name, and sorting gives the same for every rearrangement of its input if no two names are the same.
- **C105 Colours.** The styled texts are modelled beside the plain ones; `Spec/Terminal.lean` has a reader that removes escape sequences, and one that says which colour each character has.
- **C106 The diff of a mutant.** `Spec/Unified.lean` reads a unified diff as the documentation of GNU diff says, and says what it makes of the lines of a file; each hunk has to be at the line that it names, in both files. Invariant of grouping: hunks and the lines between them make up the script. Reading is unique (`C106_read_in_one_way`). With C79 this is about the file and the log that a run writes, with C74 about `--list --json --diff`. The hypothesis that the path has no line feed is needed: it is written as it is.
