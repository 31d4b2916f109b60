{
"C01": {"note": "Full statement is false: a lone carriage return is a column for the parser but not for the scanner (C01_edits_exactly_region_false). Proved when no lone carriage return precedes the end of the region on its lines, and for all files without carriage returns; C01_exactly says exactly what is edited in every other case."},
"C02": {"note": "Full statement is false for the same reason as C01 (C02_original_is_region_false); proved when the region's lines are free of carriage returns; C02_exactly says what the original text is otherwise."},
"C03": {"note": "Complete; normalisation is not idempotent on CR CR LF (C03_not_idempotent)."},
"C04": {"note": "Full statement is false with CRLF line ends: reverting writes the normalised text (C04_full_false). Proved exactly for files without CRLF, and up to CRLF in general, for every schedule, interrupt and failure other than of writing a source file."},
"C05": {"note": "False where lone carriage returns make the scanner miss the region (C05_marker_present_false); C05_exactly says when the marker is there, for every text and span."},
"C06": {"note": "Complete, for every list and shard count."},
"C07": {"note": "Complete."},
"C08": {"note": "Complete; Rust also accepts a leading plus sign in each number, which the specification says."},
"C09": {"note": "Complete: exit status classification and verdict as a function of phase results."},
"C10": {"note": "Complete: for every sequence of outcomes, and in every reachable state of a run both for the counters in memory and for outcomes.json, also when a thread failed while recording."},
"C100": {"note": "Any two runs, the second with --iterate in the output directory left by the first, whose commands end alike; other jobs, shuffling, schedules and earlier output are arbitrary. Uses C98 for each of the runs."},
"C101": {"note": "All shards, each with its own output directory, machine, jobs and schedule, against the unsharded run, with commands that end alike."},
"C102": {"note": "text and JSON (C74_list_files_json); what is reachable is as in C45"},
"C103": {"note": "Command behaviour (Behaves) is assumed to depend only on scenario and phase in both runs; that the names fit on a line is assumed for reading the list files."},
"C104": {"note": "C104_files and C104_mutants give the order, with the order of a dictionary as an independent specification (dict_order shows it is an order of all texts); C104_same_order says that a run with any rearrangement of the description and of --package arguments does the same; C104_baseline is about the packages of the baseline. Distinct names of members are what cargo insists on. Only ordinary components of paths are ordered; std puts the root and .. before them."},
"C105": {"note": "Names, the list, results and the progress display; the escape codes are those of crate console; terminal detection is a parameter, and the colours of trace messages are not modelled."},
"C106": {"note": "For every script that the diff library may find, and in runs (C106_tested): while a mutant is built or tested, any reading of its diff file patches the source into the file of the directory. What a script is (Script) is said with the model's accessors oldStart, newStart, oldLen and newLen, so a mistake in these may go unseen (seeded ZG04, not caught). Files with carriage returns are outside the quantifier (the library takes a lone one for a line end; C106_lone_carriage_return shows the unreadable diff)."},
"C11": {"note": "Complete, independent of the order of completion."},
"C12": {"note": "Full statement is false: a cargo command killed by a signal makes the mutant neither caught nor missed, and the exit code is 0 (C12_zero_means_caught_false). Proved when every command exits with a status or times out; C12_zero_exactly says when the code is 0 without that assumption."},
"C13": {"note": "The contents of the lists are proved for all names. One line each is false for names with a line feed (C13_one_line_each_false); C13_read_back_exactly: the lists read back as they were written if and only if each name fits on a line, and C13_names_fit_on_a_line says when they do."},
"C14": {"note": "At the granularity of single write calls, including while outcomes.json is rewritten (C14_last_written_has_every_line_partial). In full it is false for names with a line feed (C14_lists_never_claim_more_false), so names are assumed to fit on a line. That outcomes.json is unreadable while it is rewritten is C14_outcomes_json_stays_readable_false."},
"C15": {"note": "Complete."},
"C16": {"note": "Complete."},
"C17": {"note": "Complete: what the earlier mutants.out held is in mutants.out.old, apart from the lock file that rotation itself rewrites; at every crash point the earlier results are in one of the two."},
"C18": {"note": "Full statement is false: the lock file is opened, created and locked in steps that let two runs both hold a lock on different files after rotation (C18_runs_exclusive_false). Proved: at most one live run per directory instance, exclusion when no other run starts during the window, and how wide the window is: once a run has begun and nobody else is in the course of starting, its directory stays mutants.out and nobody else begins until it ends (C18_after_the_window_partial, C18_only_by_the_window_partial)."},
"C19": {"note": "False for diffs without context, because C20 is (C19_keeps_overlapping_false). Proved for diffs whose hunks have context; for diffs without context C19_found says exactly what is kept, and C19_added_kept that no mutant with an added line is left out; that the result is a sublist holds for every diff."},
"C20": {"note": "False for pure deletions in diffs without context (git diff -U0), whose hunk header counts differently (C20_affected_lines_false). Proved otherwise; C20_found says exactly which lines are found in diffs without context."},
"C21": {"note": "False for an empty line beyond the end of the file, which counts as agreeing (C21_stale_refused_false). C21_refused_exactly says for every diff and file exactly when it is refused."},
"C22": {"note": "Complete. The parser (crate patch) is a parameter. C22_named_as_written: which names stand for a file, in terms of the text of the path; C22_dots_ignored: with dots and repeated slashes in it. C22_what_is_parsed: what the parser is given, in terms of the lines of the diff."},
"C23": {"note": "Complete over exact rational seconds (f64 rounding not modelled)."},
"C24": {"note": "Complete over exact rational seconds."},
"C25": {"note": "Complete for the normal and timeout returns; when killing the process group itself fails or try_wait fails, the code returns without waiting, and the theorem says so."},
"C26": {"note": "Full statement is false: only SIGTERM is sent and then the code waits without limit (C26_returns_false). Proved: the limit is noticed at the first poll after it, the signal is sent within one polling interval, and the call returns as soon as the child exits."},
"C27": {"note": "Complete for the model of the lab (schedules, interrupt times and failures are arbitrary) and for the model of one running command: once the interrupt flag is set, the next poll signals the process group and the command fails."},
"C28": {"note": "Complete for the model of the lab."},
"C29": {"note": "Full statement is false with CRLF line ends, see C04 (C29_full_false). Proved exactly for the baseline and for files without CRLF, and up to CRLF in general. Cargo commands are assumed not to change source files."},
"C30": {"note": "Complete; that --in-place excludes --jobs is taken from the declaration of the arguments (src/main.rs:205-214)."},
"C31": {"note": "The part about the exit code is false when a failing baseline's log is not UTF-8: the program panics (C31_full_false). Proved otherwise; the other parts are complete."},
"C32": {"note": "Complete for the model of the lab."},
"C33": {"note": "Complete, given that commands end."},
"C34": {"note": "Complete."},
"C35": {"note": "False for mutants when a named test package does not exist (C35_named_false: no selector, so cargo chooses, C35_named_none) and for the baseline, which ignores the test package options (C35_baseline_false); proved otherwise. C35_baseline_always: the baseline always tests exactly the mutated packages."},
"C36": {"note": "Complete."},
"C37": {"note": "Full statement is false: a crash after rotation and before previously_caught.txt is written loses the history (C37_never_forgets_false). Proved for histories that do not stop in that window, of mutants whose names fit on a line (see C13)."},
"C38": {"note": "Complete for the modelled options (printing and jobserver options are not modelled)."},
"C39": {"note": "Complete for globs as in C40 (C39_files_by_meaning, C39_tree_by_meaning); regular expressions are an arbitrary predicate. C39_tree: on a whole tree, the filters leave exactly those files and mutants, and mod statements in excluded files are still followed."},
"C40": {"note": "Complete for the globs in the quantifier. C40_groups: groups of alternatives and classes match exactly what the globs with one of the alternatives or characters in the place of each do (C40_alternatives and C40_class for a single one); negated classes are modelled, but not proved about. C40_any_of_several: a set of globs of any kind matches what one of them does. Globs are matched by bytes; C40_characters shows that this makes no difference without ?, C40_ascii none within ASCII, and C40_question_mark_is_a_byte where it does. The empty glob matches everything (C40_empty_glob_matches_all)."},
"C41": {"note": "Syntax trees with the parts the visitor looks at; parsing by syn is not modelled, and macro bodies are leaves. C41_calls compares the walk with and without the names; C41_names is about the options."},
"C42": {"note": "False for the profile with nextest and --check (C42_profile_false); everything else proved for all options."},
"C43": {"note": "Complete for values in which the separator 0x1f occurs only as separator."},
"C44": {"note": "For a walk and a whole run: every file found or mutated is inside the tree, and files outside make no difference. Hypotheses: names of modules are identifiers (no slash) and targets have absolute paths, as cargo metadata gives them. Textually: symbolic links are in C68."},
"C45": {"note": "Soundness and completeness against reachability through visible mod statements, for every graph of files. In full it is false: a file named twice is walked twice (C45_twice_false) and a cycle of path attributes never ends (C45_cycle_false); C45_ends says exactly when it ends and C45_once_partial when each file comes once. Files are named by their relative path, so a/../b.rs and b.rs are different. Interrupting the walk is C87."},
"C46": {"note": "Against the rules of rustc (rustc_expand::module). In full it is false: modules in a file named by a path attribute (C46_path_files_false), and path attributes on outermost inline modules outside mod.rs (C46_inline_path_false). Proved for whole crates without these (C46_crate_partial)."},
"C47": {"note": "The full statement is false (C47_cfg_attr_false, C47_const_false): attributes with arguments other than plain names are not recognised, and attributes are not looked at on constants, statements, blocks and arms. C47_skipped_partial is for the recognised attributes and nodes."},
"C48": {"note": "Positions are the paths from a root to a node; the mutants are exactly those of the positions without a skipped node, in document order."},
"C49": {"note": "The full statement is false: < also gives <= and > also gives >=, which the book's table does not list. C49_table_partial names these two as the only differences."},
"C50": {"note": "The full statement, with the book's table to the letter, is false: unknown types with one type argument get new/from_iter/from instead of Default (C50_other_types_false), other impl traits get nothing, and one-element tuples are printed without the comma (C50_one_tuple_false). Proved: with those rows added, the printed values of every type are exactly the rows of the table in order (existence and uniqueness), the counts are the sums and products, and no value occurs twice."},
"C51": {"note": "Comparison is of printed text, as in the code."},
"C52": {"note": "Over all files, by position in the tree. A wildcard with a guard counts, so what is left need not match everything (C52_covers_false); without such wildcards it does (C52_covers)."},
"C53": {"note": "walkFile never panics; functions are described independently of the stacks."},
"C54": {"note": "A reader that knows only the format recovers line, column, change and (for paths without a colon and of ordinary components) the file. A path with a colon makes two names equal; shown as an example."},
"C55": {"note": "A package named twice is included twice (C55_each_once_false; C55_how_often: as often as it is named) and a comma list is not split (C55_comma_list_false); everything else proved."},
"C56": {"note": "Complete."},
"C57": {"note": "Every tree, order of listing, ignore rule and option: a path is in the copy exactly if it is in the source and neither it nor a directory above it is left out. Sockets and the like are skipped. Errors, and a source that changes while copied (for example with the temporary directory inside it), are not modelled."},
"C58": {"note": "Full statement is false: dev-, build-, target and workspace dependencies are not looked at (C58_dev_dependencies_false), and a path that leads back into the tree, or an absolute one, means the source and not its copy (C58_into_tree_false). Manifests of members are not looked at either (C58_members_false), which the statement does not ask for. Proved for the three tables that are fixed and all other paths, in every file system for paths that leave the tree; all other content is unchanged; and for the files of a build directory."},
"C59": {"note": "Decoding and white space are parameters; every interleaving of whole writes and polls. Without whole writes, C59_never_again."},
"C60": {"note": "Complete for the lookups and calculations of the console model; nutmeg is not modelled."},
"C61": {"note": "Complete; the verdict failure (test command killed by a signal) has no word in the line (C61_words_cover)."},
"C62": {"note": "The whole of main after reading arguments, the walk, filters, shard, listing, output directory and (through C32 and C66) the lab: the lines listed are the names of the mutants tested. Colours are not modelled; the diff library and syn are parameters."},
"C63": {"note": "The runs with only one kind of filter are assumed to succeed: --in-diff fails if the diff does not match the text of a file with remaining mutants, so other filters can hide a stale diff. Package filters are in C63_packages and C63_package_run, shards in C63_shards."},
"C64": {"note": "Complete; an empty argument at the start is lost, which the theorems say (C64_empty_argument_lost)."},
"C65": {"note": "The full statement is false: an invisible (None-delimited) group next to a word glues the words together, and one after a comma leaves a trailing space (C65_invisible_groups_false). Proved for every token stream without invisible groups: the printed text has the words and punctuation of the stream in order, spaces only between them, never at the end, and reading the text back gives the words again for any class of word characters."},
"C66": {"note": "Complete; fastrand's shuffle is modelled from its documentation as Fisher-Yates."},
"C67": {"note": "Full statement is false: with --test-workspace=false packages named in the config are still used (C67_override_false). Proved when --test-workspace=true or --test-package is given, with the complete order of precedence."},
"C68": {"note": "Proved for directories as separate maps of files (C68_source_untouched). With symbolic links the full statement is false: an absolute link to a file of the tree is copied as it is and written through (C68_links_false). The partial theorems need that following the paths that are written (mutated files, Cargo.toml, .cargo/config.toml) does not leave the source tree."},
"C69": {"note": "Complete for the model: text without colours, durations and logs as parameters."},
"C70": {"note": "Complete for the model, without --times and --all-logs (which add text and arbitrary logs to the output), for mutants whose names have one line."},
"C71": {"note": "Complete for the model: limits are exact rational seconds, rounded to nanoseconds by any function (rounding up is assumed only for the comparison with the baseline). C71_of_its_command: the process is the one of a thread that was at the command for this scenario and phase."},
"C72": {"note": "Complete for the model, for the children themselves; grandchildren that leave the process group are not modelled."},
"C73": {"note": "Complete for the model: liveness is stated as the absence of deadlock together with bounds on the steps, not with fairness."},
"C74": {"note": "The text is modelled character by character, with serde_json's pretty printer and escapes; the reader in Spec/Json.lean follows RFC 8259 and knows nothing of how the text was made. The text of a duration is a parameter that must be a JSON number."},
"C75": {"note": "Steps are those of the model: a step of a thread is one action between two points at which other threads, the clock or children can intervene. That the signal makes the child exit is up to the child; the wait for it is not bounded by the code."},
"C76": {"note": "Composes discovery and filters, the queue, threads, processes, time limits, outcomes and exit codes (C11, C23, C32, C71, C72). The two directions are proved with the history of a run: every recorded result comes from a process that ended in the run, and no ended process is lost from the outcome that is returned. Text of the arguments is parsed by clap and not modelled (C40 models the options)."},
"C77": {"note": "False with --iterate and a separate output directory for each shard: a mutant that survived can be in no shard while all shards end with code 0 (C77_iterate_own_output_false, with two shards that are run twice). Proved without --iterate for any output directories, and with it if all find the same one."},
"C78": {"note": "Excluded are runs that go on after a write to a list failed half way (two names could then share a line), and names with line feeds. Within one write call a run is not stopped."},
"C79": {"note": "Each message and each output of a command is one element of the log, so they are told apart even if a command prints text that looks like a message. That something left behind by an earlier command of the same scenario prints between the parts of a message is not modelled."},
"C80": {"note": "The copy of the model of C57 and C58 takes the place of the copy that C76 assumes; its assumption that files with mutants are copied unchanged is proved. Assumed: the printer of toml gives what its parser reads back, the program reads the files that are on the disk, and no file with mutants is Cargo.toml or .cargo/config.toml or named by a path with .., or a root. That commands themselves change files is not modelled."},
"C81": {"note": "The parser of the toml library and the value of a number are parameters, so a text that is no TOML document is an error by assumption. nan, infinite numbers and choices written as tables are not modelled."},
"C82": {"note": "The process table is a model of the kernel (fork, exit, wait, setpgid, killpg), as POSIX describes it: a new process never gets the number of an existing process or group. Sessions and permissions are not modelled. That the signalled processes end is not claimed, see C26."},
"C83": {"note": "Which option stands for which key is in Spec/ConfigArgs (optionKeys); Gives says that arguments give what a file sets. The directory that results are written to is given with the run, so that the same directory is assumed to be used for the same value of output."},
"C84": {"note": "Partial: false for --manifest-path with a bare file name (C84_manifest_path_false) and, when the working directory changes, for a relative output directory in the configuration file (C84_relative_output_false); the two C84_same_..._partial theorems leave these out. cargo locate-project is assumed to do what its documentation says (Spec.CargoLocates); symbolic links among the directories of the path to the start are not modelled."},
"C85": {"note": "tempfile::TempDir is taken to make a new directory and to remove it when dropped, also when a thread unwinds; the removal is one step that succeeds or not. When the process is killed, nothing is claimed. The bound C85_only_own is for directories as numbers: that TempDir gives a name that was not there is assumed."},
"C86": {"note": "All clauses. A baseline that timed out is counted among the timeouts of the display, so the numbers are claimed only where the baseline passed: while mutants are tested, and at the end of a run whose baseline did not fail. Above five minutes the remaining time is rounded up by 30 to 90 seconds."},
"C87": {"note": "All clauses. Each step of the model is one turn of a loop or a stretch of code without a look at the flag; an operating system call within a step, such as cargo metadata, is not interrupted by the program (cargo gets the signal itself). A file outside the tree is skipped before the flag is looked at."},
"C88": {"note": "Threads that fail, in the system of Lab.lean extended by the error or panic that each holds. C88_first_failure, C88_printed: what join_threads makes of them. C88_endings, C88_own_error: what they hold. C88_only_interrupts and C88_panics: what the exit codes 1 and 101 mean."},
"C89": {"note": "C89_lost names the lost mutants; C89_count bounds their number by the number of failed threads."},
"C90": {"note": "The whole statement is C90_full with the other theorems; its last sentence is false (C90_isolated_false): build directories are used again, so what commands for the baseline or other mutants wrote is still there. The rest is proved for all runs; the last sentence is proved for the first use of a directory. Configurations whose mutated files are not copied are excluded (there every mutant fails)."},
"C91": {"note": "Code that is compiled without test is mutated completely, whatever predicates stand on it or around it. cfg(test) leaves out everything it stands on (_partial); that all test-only code is left out is false: cfg(all(test, unix)) is not recognised (C91_all_false). syn is a parameter; how a predicate looks to parse_nested_meta is in Spec/Cfg.lean."},
"C92": {"note": "Numbers shown during the search are those of the files loaded so far and never decrease; they are those of the mutants found if no files are chosen by name (_partial), otherwise files left out are counted too (C92_excluded_false). Each copy has exactly one line with its bytes, found without panicking; the line of a failed copy stays (C92_failed_line_false)."},
"C93": {"note": "Composes the visitor (C48), spans (C01, C02) and the threads (C29). That the tree is one of the text is a hypothesis (TreeOf), as syn is a parameter; shown for a sample. Texts without carriage returns."},
"C94": {"note": "For deleted operators and arms and for binary operators after an operand without further conditions; for others if white space, a bracket or a comment is before (_partial). In full it is false: a guard directly after if joins with it (C94_guard_false). The lexer in Spec/Lex.lean follows the Rust reference; characters beyond ASCII count as letters unless they are white space."},
"C95": {"note": "Full statement refuted by C95_joined_false (`a & &b` is printed as `a &&b`) and C95_comment_false (`1 / *p` as `1 /*p`). Proved if punctuation needs no space, up to joining of marks if no / is before / or *, and for all function values."},
"C96": {"note": "From the arguments to the directory that a command is run in. That constructs begin and end with tokens is assumed of the parser's trees; a guard directly after if is excluded, since C94 is false there."},
"C97": {"note": "Says what happened to processes for each list at any time of a run, that nothing is left out in the end, that a mutant has one fate, and which mutants are in no list; with C96, what a line of missed.txt says of tokens."},
"C98": {"note": "C98_results_are_expected, C98_lines and C98_code say what any run records, lists and ends with, from how its commands end; C98_same_results and C98_jobs_and_shuffling compare two runs."},
"C99": {"note": "C99_selection_options is about what is selected, before shuffling, and C99_runs about runs."}
}
