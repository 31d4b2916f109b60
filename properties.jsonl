{"id": "C01", "title": "A mutation edits exactly its own region", "statement": "Applying a mutant to a source file yields the file's text before the mutated region, then the replacement text followed by a space and the marker comment, then the file's text after the region: nothing else in the file changes, and the edit appears exactly once.", "quantifier": "every file text, every region whose start does not come after its end and lies in the text, every replacement text", "why_tests_cant": "the edit is found by counting lines and columns over arbitrary text; unit tests try a handful of spans, while a wrong count at any line/column combination silently corrupts a file", "anchors": ["src/span.rs: Span::replace", "src/mutant.rs: Mutant::mutated_code"]}
{"id": "C02", "title": "The reported original text is the region that gets replaced", "statement": "The text shown as the original of a mutant is exactly the run of characters that applying the mutant deletes, so putting that text back in place of the region reproduces the file unchanged.", "quantifier": "every file text and every region of it", "why_tests_cant": "extraction and replacement are two separate hand-written scanners; only a statement over all texts shows they agree on every boundary", "anchors": ["src/span.rs: Span::extract, Span::replace", "src/mutant.rs: Mutant::original_text"]}
{"id": "C03", "title": "Reading a source file normalises line endings and nothing else", "statement": "A loaded source text is the file's text with the carriage return dropped from every CR LF pair and every other character kept in order; line structure is unchanged and no CR LF pair remains in a file whose carriage returns all belong to CR LF pairs.", "quantifier": "every file text", "why_tests_cant": "a statement about every possible mixture of CR and LF; a test shows one file", "anchors": ["src/source.rs: SourceFile::load"]}
{"id": "C04", "title": "After a mutant is tested the build directory is what it was before", "statement": "Whatever the outcome of building and testing a mutant (success, failure, timeout, internal error while running cargo), when the worker goes on or stops, every file of the build directory has the content it had before that mutant was applied.", "quantifier": "every tree, every mutant of it, every sequence of mutants tested in the same directory, every result of every cargo command", "why_tests_cant": "must hold along every path out of the scenario including error paths, and for arbitrarily long histories of mutants in one directory", "anchors": ["src/lab.rs: Worker::run_one_scenario", "src/mutant.rs: Mutant::apply, Mutant::revert", "src/build_dir.rs: BuildDir::overwrite_file"]}
{"id": "C05", "title": "Every mutated file carries the searchable marker", "statement": "While a mutant is applied, the mutated file contains the text `/* ~ changed by cargo-mutants ~ */`, so a leftover mutation can be found by searching for it.", "quantifier": "every file text, every region starting at a position of the file, every replacement", "why_tests_cant": "needs all texts and regions, including empty files, empty regions, and regions at end of file", "anchors": ["src/span.rs: Span::replace", "src/mutant.rs: Mutant::mutated_code", "src/main.rs: MUTATION_MARKER_COMMENT"]}
{"id": "C06", "title": "Shards partition the mutants", "statement": "For every n>0 each mutant of the list is selected by exactly one of the shards 0/n .. (n-1)/n, as often as it occurs in the list, so running all shards tests every mutant once and none twice.", "quantifier": "every list of mutants and every shard count", "why_tests_cant": "a partition claim over all lists and all n; a test checks one list and one n", "anchors": ["src/shard.rs: Shard::select"]}
{"id": "C07", "title": "Shards are balanced and keep order", "statement": "A shard's mutants appear in the same relative order as in the full list, and any two shards of the same n differ in size by at most one.", "quantifier": "every list, every n, every pair of shards", "why_tests_cant": "size balance is an arithmetic fact about all lengths and divisors", "anchors": ["src/shard.rs: Shard::select", "book/src/shards.md"]}
{"id": "C08", "title": "A shard argument is accepted exactly when it is k/n with k<n", "statement": "The text given to --shard is accepted if and only if it is a decimal number k, a slash and a decimal number n with k<n, both in machine range and each optionally with a leading plus sign, and is then read as that k and n; in particular n is never zero, so selecting never divides by zero.", "quantifier": "every argument text", "why_tests_cant": "the set of argument texts is infinite; acceptance and rejection must both be exact", "anchors": ["src/shard.rs: Shard::from_str, Shard::select"]}
{"id": "C09", "title": "Each mutant's verdict is determined by its cargo results", "statement": "A mutant is reported unviable when check or build exits with a failure, timed out when a command exceeded its time limit, caught when the test command fails, missed when the test command succeeds, and success when only checking was requested and it passed; these cases exclude one another.", "quantifier": "every sequence of results of the cargo commands that a run can produce", "why_tests_cant": "must cover every combination of phase and exit status, not the few that test trees produce", "anchors": ["src/outcome.rs: ScenarioOutcome::summary", "src/process.rs: Exit", "src/process/unix.rs: From<ExitStatus>", "src/options.rs: Options::phases"]}
{"id": "C10", "title": "The summary counts are the true counts", "statement": "At every moment of a run the number of mutants tested, missed, caught, timed out, unviable and succeeded shown in outcomes.json equals the number of recorded mutant outcomes with that verdict, and the total is their sum plus unclassified failures.", "quantifier": "every sequence of outcomes recorded in a run", "why_tests_cant": "an invariant over arbitrarily long histories of recorded outcomes", "anchors": ["src/outcome.rs: LabOutcome::add", "src/output.rs: OutputDir::add_scenario_outcome"]}
{"id": "C11", "title": "The exit code states the worst result", "statement": "The program exits 4 if the baseline did not pass; otherwise 3 if some mutant timed out; otherwise 2 if some mutant was missed; otherwise 0.", "quantifier": "every multiset of outcomes, in every order of completion", "why_tests_cant": "the decision must be independent of the order in which parallel jobs finish", "anchors": ["src/outcome.rs: LabOutcome::exit_code", "src/exit_code.rs", "src/main.rs: main"]}
{"id": "C12", "title": "Exit code zero means that every viable mutant was caught", "statement": "If a run of tests ends with exit code 0 then every mutant tested was either caught or unviable.", "quantifier": "every run, every exit status that a cargo command can have, including being killed by a signal", "why_tests_cant": "depends on every possible exit status of the child, some of which are hard to provoke in a test", "anchors": ["src/outcome.rs: LabOutcome::exit_code, ScenarioOutcome::summary", "book/src/exit-codes.md"]}
{"id": "C13", "title": "The text lists agree with the recorded outcomes", "statement": "caught.txt, missed.txt, timeout.txt and unviable.txt list, in completion order, exactly the names of the mutants recorded with that verdict, one line each, and a mutant's line appears in only one of them.", "quantifier": "every sequence of recorded outcomes", "why_tests_cant": "an invariant over all histories and interleavings of completions", "anchors": ["src/output.rs: OutputDir::add_scenario_outcome"]}
{"id": "C14", "title": "A killed run leaves lists that never claim more than outcomes.json", "statement": "If the program is stopped at any point, every mutant named in caught.txt, missed.txt, timeout.txt or unviable.txt has an outcome with that verdict in the last completely written outcomes.json, and at most one recorded mutant lacks its line.", "quantifier": "every sequence of outcomes and every crash point between two file writes", "why_tests_cant": "crash points cannot be enumerated by tests", "anchors": ["src/output.rs: OutputDir::add_scenario_outcome, OutputDir::write_lab_outcome"]}
{"id": "C15", "title": "No two scenarios share a log or diff file", "statement": "The log file names allotted during a run are pairwise different, whatever mutants are tested and however often positions coincide, so creating a log file never collides with an earlier one.", "quantifier": "every sequence of scenarios (baseline and mutants) started in one run", "why_tests_cant": "collisions depend on adversarial file names such as ones that already end in a position or counter suffix", "anchors": ["src/output.rs: OutputDir::start_scenario, ScenarioOutput::new", "src/mutant.rs: Mutant::log_file_name_base"]}
{"id": "C16", "title": "Log and diff file names stay inside their directory", "statement": "The base name used for a log or diff file contains no path separator and none of the punctuation characters that Windows forbids in file names, whatever the path of the mutated source file.", "quantifier": "every source path and position", "why_tests_cant": "ranges over all path texts", "anchors": ["src/output.rs: clean_filename", "src/mutant.rs: Mutant::log_file_name_base"]}
{"id": "C17", "title": "Starting a run keeps the previous results in mutants.out.old", "statement": "After creating the output directory, mutants.out is fresh and empty of results, and mutants.out.old holds exactly what mutants.out held before, apart from the lock file, if it existed; otherwise an existing mutants.out.old is untouched.", "quantifier": "every prior state of the output parent directory", "why_tests_cant": "must hold for every prior directory content and every history of runs", "anchors": ["src/output.rs: OutputDir::new"]}
{"id": "C18", "title": "Two runs never write the same mutants.out at once", "statement": "At no time do two runs of cargo-mutants that share an output parent both hold the lock of the directory currently called mutants.out, and a run's directory is not moved away while that run is writing to it.", "quantifier": "every interleaving of any number of processes starting, running and ending", "why_tests_cant": "races between processes are schedule dependent", "anchors": ["src/output.rs: LockFile::acquire_lock, OutputDir::new"]}
{"id": "C19", "title": "--in-diff keeps exactly the mutants that overlap a changed line", "statement": "When the diff is accepted, the mutants kept are exactly those whose file is in the diff and whose line range includes a line affected by the diff for that file, in their original order and multiplicity.", "quantifier": "every list of mutants and every accepted diff", "why_tests_cant": "the implementation probes with binary search, so correctness depends on sortedness for every diff", "anchors": ["src/in_diff.rs: diff_filter"]}
{"id": "C20", "title": "The affected lines are the added lines and the neighbours of deletions", "statement": "For every hunk of a diff, the lines considered affected are exactly the added lines, the line just before each run of deletions, and the line just after it, numbered in the new file, in increasing order without repeats.", "quantifier": "every sequence of context, added and removed lines in every ordered sequence of hunks", "why_tests_cant": "the scanner carries state across lines; unit tests can only try a few edit shapes", "anchors": ["src/in_diff.rs: affected_lines"]}
{"id": "C21", "title": "A diff that does not describe the tree is refused", "statement": "If some context or added line of the diff differs from the line at that number of a file that has mutants, --in-diff fails with an error and selects nothing; if all of them agree it does not fail for this reason.", "quantifier": "every diff and every tree", "why_tests_cant": "ranges over all diffs and trees", "anchors": ["src/in_diff.rs: check_diff_new_text_matches, partial_new_file"]}
{"id": "C22", "title": "Diff paths are matched to source files by name", "statement": "A file section of the diff applies to the source file whose tree path equals the diff's new path with one leading b/ component removed; deleted files are ignored; a diff naming the same file twice is refused; an empty diff selects nothing.", "quantifier": "every diff and list of mutants", "why_tests_cant": "ranges over all diffs, including files in a directory that itself is called b", "anchors": ["src/in_diff.rs: diff_filter, strip_patch_path"]}
{"id": "C23", "title": "The test timeout follows the documented rule", "statement": "An explicit --timeout is used as it is; otherwise the limit is the larger of the minimum test timeout and the baseline test time times the multiplier (5 by default) rounded up to a whole second; with no baseline it is 300 seconds; so a mutant always gets at least the baseline time when the multiplier is at least one.", "quantifier": "every option setting and every baseline duration", "why_tests_cant": "arithmetic over all durations and multipliers", "anchors": ["src/timeouts.rs: test_timeout, Timeouts::from_baseline, Timeouts::without_baseline", "src/options.rs: Options::new"]}
{"id": "C24", "title": "Builds have no time limit unless one is asked for", "statement": "A build or check command of a mutant has a limit only if --build-timeout is given, or a build multiplier is given and a baseline build was measured; the baseline build never has one; the baseline test has exactly the explicit --timeout if any.", "quantifier": "every option setting and baseline result", "why_tests_cant": "ranges over all combinations of options", "anchors": ["src/timeouts.rs: build_timeout, Timeouts::for_baseline"]}
{"id": "C25", "title": "A cargo command is never left running", "statement": "When running a cargo command returns, with a result or with an error from the time limit or an interrupt, the child has exited or has been sent a termination signal through its process group and waited for; a timeout is reported only after the limit has passed, and a result of success only if the child exited with status 0.", "quantifier": "every timing of child exit, clock, interrupt and limit", "why_tests_cant": "races among exit, timeout and interrupt are timing dependent", "anchors": ["src/process.rs: Process::run, Process::poll, Process::terminate", "src/process/unix.rs: terminate_child"]}
{"id": "C26", "title": "A time limit ends a command within one polling interval", "statement": "If the clock keeps advancing, a command with a time limit returns at the first poll after the limit at the latest, whatever the child does.", "quantifier": "every child behaviour and every clock sequence", "why_tests_cant": "liveness over unbounded executions", "anchors": ["src/process.rs: Process::run, Process::poll"]}
{"id": "C27", "title": "An interrupt stops the run", "statement": "After ctrl-c, no further cargo command is started to completion: each worker returns an error from its current or next command, no outcome is recorded for a mutant whose command ran after the interrupt, and the run ends with an error unless all commands had already completed.", "quantifier": "every moment at which the interrupt arrives and every schedule of the workers", "why_tests_cant": "interrupt timing and schedules cannot be enumerated", "anchors": ["src/interrupt.rs: check_interrupted", "src/cargo.rs: run_cargo", "src/process.rs: Process::poll", "src/lab.rs: Worker::run_one_scenario"]}
{"id": "C28", "title": "Every mutant is tested exactly once", "statement": "In a run in which no worker fails, when all workers have finished each selected mutant has exactly one recorded outcome and no other outcome is recorded, whatever the number of jobs and however the workers are scheduled.", "quantifier": "every list of mutants, every number of jobs, every interleaving of workers, every result of every command", "why_tests_cant": "schedules of concurrent workers cannot be enumerated", "anchors": ["src/lab.rs: test_mutants, Worker::run_queue, Worker::run_one_scenario"]}
{"id": "C29", "title": "Each cargo command sees the original tree plus exactly one mutation", "statement": "Whenever a cargo command runs for a mutant, the directory that it runs in holds the unmutated tree with that mutant's file changed as its diff shows and no other change by cargo-mutants; for the baseline, no change at all.", "quantifier": "every list of mutants, number of jobs, schedule and result of commands", "why_tests_cant": "interference between workers or leftovers of earlier mutants depend on the schedule and the history", "anchors": ["src/lab.rs: test_mutants, Worker::run_one_scenario", "src/build_dir.rs: BuildDir", "src/mutant.rs: Mutant::apply"]}
{"id": "C30", "title": "No build directory is shared, and no more jobs run than asked for", "statement": "At every moment at most max(1, jobs) scenarios are being tested, no two of them in the same directory, and with --in-place only one, in the source directory.", "quantifier": "every schedule and number of jobs", "why_tests_cant": "concurrency bound over all schedules", "anchors": ["src/lab.rs: test_mutants", "src/main.rs: Args (in_place conflicts_with jobs)", "src/build_dir.rs: BuildDir::for_baseline"]}
{"id": "C31", "title": "No mutant is tested unless the baseline passes", "statement": "Unless the baseline is skipped, the first scenario is the baseline; if it does not succeed, no mutant is tested, no mutant outcome is recorded, and the exit code is 4.", "quantifier": "every tree, list of mutants, option setting and result of commands", "why_tests_cant": "must hold for every way in which the baseline can go wrong", "anchors": ["src/lab.rs: test_mutants, Lab::run_baseline", "src/outcome.rs: LabOutcome::exit_code"]}
{"id": "C32", "title": "A run that could not test everything does not report success", "statement": "If any worker stops because of an error, the program does not exit with the code of a completed run: the error is returned; and a run that returns an outcome without baseline failure has recorded an outcome for every mutant.", "quantifier": "every failure of any worker at any point in any schedule", "why_tests_cant": "failure points and schedules cannot be enumerated", "anchors": ["src/lab.rs: test_mutants, join_threads", "src/main.rs: main"]}
{"id": "C33", "title": "Testing terminates", "statement": "Every schedule of the workers is finite provided each cargo command ends: no execution runs for ever, and as long as some worker has not finished some worker can take a step.", "quantifier": "every list of mutants, number of jobs and schedule", "why_tests_cant": "termination and absence of deadlock over all schedules", "anchors": ["src/lab.rs: test_mutants, Worker::run_queue"]}
{"id": "C34", "title": "Phases run in order and stop at the first failure", "statement": "With --check only the check command is run; otherwise build then test; the commands run for a scenario are a non-empty prefix of that list, all but the last succeeded, and the list is cut short exactly when the last one did not succeed.", "quantifier": "every result of every command", "why_tests_cant": "ranges over all result sequences", "anchors": ["src/options.rs: Options::phases", "src/lab.rs: Worker::run_one_scenario"]}
{"id": "C35", "title": "The tests run for a mutant are those that the options name", "statement": "By default a mutant is tested with the tests of its own package only; with --test-workspace=true with all tests of the workspace; with --test-package with exactly the named packages; and the baseline runs the same tests that the mutants will.", "quantifier": "every option setting, workspace and list of mutants", "why_tests_cant": "ranges over all workspaces and option combinations", "anchors": ["src/lab.rs: Lab::run_baseline, Worker::run_queue, TestsForMutant::new", "src/cargo.rs: cargo_argv", "src/options.rs: Options::new", "book/src/workspaces.md"]}
{"id": "C36", "title": "--iterate skips exactly the mutants already caught or unviable", "statement": "With --iterate a mutant is left out if and only if its name (path, line, column, description) is a line of caught.txt, unviable.txt or previously_caught.txt of the last run; the others are tested in their order.", "quantifier": "every previous output directory and list of mutants", "why_tests_cant": "ranges over all names and file contents; names are written and read back through line-based text files", "anchors": ["src/output.rs: load_previously_caught, OutputDir::write_previously_caught", "src/visit.rs: Discovered::remove_previously_caught", "src/main.rs: main"]}
{"id": "C37", "title": "Iterated runs never forget a caught mutant", "statement": "Over any sequence of --iterate runs on the same output directory, a mutant that was caught or unviable in some run is excluded from all later ones.", "quantifier": "every finite history of runs with arbitrary mutants and verdicts, including runs that are stopped part way", "why_tests_cant": "an invariant over unbounded histories and crash points", "anchors": ["src/output.rs: OutputDir::new, load_previously_caught, OutputDir::write_previously_caught", "src/main.rs: main", "book/src/iterate.md"]}
{"id": "C38", "title": "The command line overrides the config file as documented", "statement": "For every setting that both can give: filters by file and by name use the command line list if it is not empty and otherwise the config list; scalar settings use the command line value if present, then the config value, then the default; error values, skip_calls and extra cargo arguments are the concatenation, command line first.", "quantifier": "every combination of command line and config values", "why_tests_cant": "the merge has dozens of independent fields and combinations", "anchors": ["src/options.rs: Options::new, or_slices, join_slices", "src/config.rs: Config"]}
{"id": "C39", "title": "File and name filters keep exactly the allowed mutants", "statement": "A mutant is generated only from files matching some --file glob (if any are given) and no --exclude glob, and is kept only if its full name matches some --re (if any) and no --exclude-re; mod statements in excluded files are still followed.", "quantifier": "every set of globs, regular expressions, files and mutants", "why_tests_cant": "ranges over all filters and trees; regular expressions are arbitrary predicates", "anchors": ["src/options.rs: Options::allows_source_file_path, Options::allows_mutant", "src/visit.rs: walk_package"]}
{"id": "C40", "title": "A glob without a slash matches names at any depth", "statement": "A glob without a path separator matches a path exactly when it matches one of the path's components (a file name or a directory containing it); a glob with a separator is matched against the whole path from the tree root; * never crosses a separator.", "quantifier": "every glob built from literals, ? (one byte of UTF-8), * and ** that is not empty and does not end in a separator, or that has beside these groups of alternatives {…} made of literals, ? and single *, or classes […] of characters and ranges in ASCII that are not negated, where these are not next to stars and what is chosen in them does not decide whether there is a separator, and every path, with characters outside of ASCII as well", "why_tests_cant": "matching ranges over all paths and patterns", "anchors": ["src/glob.rs: build_glob_set"]}
{"id": "C41", "title": "Calls to skipped functions are not mutated", "statement": "No mutant lies inside a call (function or method, arguments included) whose last path component is one of the skip_calls names, which include with_capacity unless the defaults are turned off, and mutants outside such calls are unaffected.", "quantifier": "every syntax tree and every list of names", "why_tests_cant": "ranges over all syntax trees", "anchors": ["src/visit.rs: DiscoveryVisitor::visit_expr_call, visit_expr_method_call", "src/options.rs: Options::new"]}
{"id": "C42", "title": "The cargo command line says what the options say", "statement": "The command for a phase starts with cargo and that phase's subcommand, selects the profile, then the packages, then features, then the additional cargo arguments; the additional test arguments come last and only in the test phase, so everything after -- reaches the tests unchanged.", "quantifier": "every option setting and package selection", "why_tests_cant": "ranges over all option combinations", "anchors": ["src/cargo.rs: cargo_argv"]}
{"id": "C43", "title": "User rustflags are kept when lints are capped", "statement": "With cap_lints the encoded rustflags passed to cargo are the user's flags (from CARGO_ENCODED_RUSTFLAGS, else RUSTFLAGS split on spaces), in order and without empty flags from repeated spaces, followed by --cap-lints=warn; without cap_lints the environment is not changed.", "quantifier": "every value of the environment variables in which the separator 0x1f occurs only as the separator", "why_tests_cant": "ranges over all flag texts", "anchors": ["src/cargo.rs: encoded_rustflags, run_cargo"]}
{"id": "C44", "title": "No source file outside the tree is read or mutated", "statement": "Source files are only loaded from paths that, followed component by component from the tree root, never leave the root; so a mutant never writes outside its build directory.", "quantifier": "every path of a target or mod statement, with any mix of parent and current-directory components", "why_tests_cant": "ranges over all paths; a counter that goes wrong for one mix of .. lets a mutation escape", "anchors": ["src/path.rs: ascent", "src/source.rs: SourceFile::load", "src/visit.rs: find_path_attribute, find_mod_source", "src/build_dir.rs: BuildDir::overwrite_file"]}
{"id": "C45", "title": "Every module reachable from a target's top file is walked", "statement": "The files visited for a package are exactly the ones reachable from the top source files of its targets through mod statements that resolve to existing files inside the tree; each such file contributes its mutants once.", "quantifier": "every graph of files and mod statements", "why_tests_cant": "reachability over arbitrary module graphs", "anchors": ["src/visit.rs: walk_package, walk_file"]}
{"id": "C46", "title": "mod statements resolve to the file rustc would use", "statement": "A mod statement resolves to name.rs or else name/mod.rs in the directory given by the language rules: next to a top file or mod.rs, in the directory named after the file otherwise, extended by enclosing inline modules, with path attributes applied relative to the right directory.", "quantifier": "every nesting of inline modules, path attribute and parent file", "why_tests_cant": "ranges over all nestings", "anchors": ["src/visit.rs: find_mod_source, DiscoveryVisitor::visit_item_mod, ModNamespace::get_filesystem_name"]}
{"id": "C47", "title": "Code marked as test or skipped is never mutated", "statement": "No mutant lies inside a file, module, function, impl, trait, or expression that carries #[test], #[cfg(test)], #[mutants::skip] or an attribute containing mutants::skip; nor in unsafe functions, functions called new in impls and traits, or impls of Default.", "quantifier": "every syntax tree and every attribute", "why_tests_cant": "ranges over all syntax trees and attribute forms", "anchors": ["src/visit.rs: DiscoveryVisitor, attrs_excluded, attr_is_cfg_test, attr_is_test, attr_is_mutants_skip, fn_sig_excluded", "book/src/attrs.md"]}
{"id": "C48", "title": "Unskipped code is mutated completely", "statement": "For every function with a non-empty body, binary or unary operator, match arm and guard that is not inside a skipped node, each of the documented replacements appears as a mutant, with the position of that construct, in source order of the walk.", "quantifier": "every syntax tree", "why_tests_cant": "completeness of a traversal over all syntax trees", "anchors": ["src/visit.rs: DiscoveryVisitor"]}
{"id": "C49", "title": "Operator mutants follow the documented table and never repeat the original", "statement": "Each binary operator is replaced by the operators of the documented table, never by itself and never twice by the same one; comparison and arithmetic assignments correspond; unary - and ! are deleted; other operators produce nothing.", "quantifier": "every operator", "why_tests_cant": "the table has many rows, each of which can be wrong independently", "anchors": ["src/visit.rs: DiscoveryVisitor::visit_expr_binary, visit_expr_unary", "book/src/mutants.md"]}
{"id": "C50", "title": "Function values follow the documented table for every type", "statement": "The replacement values for a return type are given by structural recursion on the type as documented (Option, Vec, Box, maps, tuples as products, references, slices, impl Iterator, Result with configured errors); the never type gives none; the number of values is the corresponding sum or product.", "quantifier": "every return type of any depth and every list of error values", "why_tests_cant": "types nest to any depth; a test tries a few", "anchors": ["src/fnvalue.rs: return_type_replacements, type_replacements, known_container, known_collection, known_map"]}
{"id": "C51", "title": "No function mutant equals the original body", "statement": "A function-body mutant whose replacement is printed the same as the original body is not generated, and every other replacement of the return type is generated exactly once, in order.", "quantifier": "every function and its replacements", "why_tests_cant": "ranges over all bodies and types", "anchors": ["src/visit.rs: DiscoveryVisitor::collect_fn_mutants"]}
{"id": "C52", "title": "Match arms are deleted only when a wildcard remains", "statement": "An arm is deleted only in a match that has an arm with the wildcard pattern, never the wildcard arm itself and never an arm with a guard; every guard is replaced by true and by false.", "quantifier": "every list of arms", "why_tests_cant": "ranges over all match expressions", "anchors": ["src/visit.rs: DiscoveryVisitor::visit_expr_match"]}
{"id": "C53", "title": "Mutants are named after the innermost enclosing function", "statement": "The function named in a mutant is the innermost function around it, qualified by the names of all enclosing modules, impls, traits and functions from the outside in; the walker's stacks are balanced, so its internal assertions never fail.", "quantifier": "every nesting of items", "why_tests_cant": "an invariant over all traversals", "anchors": ["src/visit.rs: DiscoveryVisitor::enter_function, leave_function, in_namespace, collect_mutant"]}
{"id": "C54", "title": "A mutant's name identifies its position and change", "statement": "A mutant's name is its slash-separated path, line, column and description; two mutants with the same name have the same line, column and description, and, as file paths contain no colon, the same file.", "quantifier": "every pair of mutants", "why_tests_cant": "injectivity over all pairs", "anchors": ["src/mutant.rs: Mutant::name, Mutant::styled_parts", "src/path.rs: to_slash_path"]}
{"id": "C55", "title": "Package selection matches the request", "statement": "With --package the mutated packages are exactly the workspace packages with those names; with --workspace all of them; otherwise the package enclosing the start directory, or the workspace default members; unknown names are dropped.", "quantifier": "every workspace, filter and start directory", "why_tests_cant": "ranges over all workspaces", "anchors": ["src/workspace.rs: filter_packages, packages_by_name, default_packages, expand_selection", "src/main.rs: main"]}
{"id": "C56", "title": "Only library, binary and proc-macro targets are mutated", "statement": "The top source files of a package are the sources, inside the workspace, of its targets of kind lib, rlib, dylib, cdylib, staticlib, bin or proc-macro; sources of only tests, examples, benches or build scripts are not roots; each root is listed once.", "quantifier": "every list of targets", "why_tests_cant": "ranges over all manifests", "anchors": ["src/package.rs: package_top_sources, should_mutate_target"]}
{"id": "C57", "title": "A copied tree equals the source tree except for the documented exclusions", "statement": "Every file, directory and symlink of the source tree is in the copy with the same content or target, except entries called mutants.out or mutants.out.old, version control directories unless --copy-vcs, ignored entries if gitignore is on, and everything below such entries; nothing else is in the copy.", "quantifier": "every tree and option setting", "why_tests_cant": "ranges over all trees", "anchors": ["src/copy_tree.rs: copy_tree"]}
{"id": "C58", "title": "Relative dependencies of a copied manifest still mean the same thing", "statement": "After copying, every path dependency, replacement or patch in the top manifest, and every path in the cargo config, resolves to the directory that it denoted in the source tree, or to that directory's copy if it is inside the tree; all other manifest content is unchanged.", "quantifier": "every manifest, source directory and scratch directory", "why_tests_cant": "ranges over all manifests and relative paths", "anchors": ["src/manifest.rs: fix_manifest_toml, fix_dependency_table, fix_path, fix_cargo_config_toml"]}
{"id": "C59", "title": "The progress line shows the last non-blank log line", "statement": "Polling the log yields the last line containing a non-blank character among everything written so far, if each write consists of whole lines, no matter how writes and polls interleave; earlier content is never shown again once a newer line was seen.", "quantifier": "every sequence of writes and polls", "why_tests_cant": "interleavings cannot be enumerated", "anchors": ["src/tail_file.rs: TailFile::last_line"]}
{"id": "C60", "title": "Progress reporting cannot fail", "statement": "In every run the console's lookups by build directory succeed, the number of mutants done never exceeds the number of mutants, and the start time is known when the remaining time is estimated, so drawing progress never panics.", "quantifier": "every schedule of workers", "why_tests_cant": "panics depend on the interleaving of workers", "anchors": ["src/console.rs: Console, LabModel"]}
{"id": "C61", "title": "The final summary line is consistent", "statement": "The last line shows the total number of mutants tested and every non-zero count once, with the counts that outcomes.json has; zero counts are not shown.", "quantifier": "every run", "why_tests_cant": "ranges over all outcome sequences", "anchors": ["src/outcome.rs: LabOutcome::summary_string", "src/console.rs: plural"]}
{"id": "C62", "title": "Listing shows what testing would test", "statement": "With the same arguments and tree, --list prints exactly the names of the mutants that a test run writes to mutants.json and tests, in the same order up to shuffling.", "quantifier": "every tree, filter, diff, shard and iterate history", "why_tests_cant": "compares two behaviours over all inputs", "anchors": ["src/main.rs: main", "src/list.rs: list_mutants", "src/lab.rs: test_mutants"]}
{"id": "C63", "title": "Filters compose", "statement": "Package, file, name, iterate and diff filters can be understood one at a time: the mutants kept by all of them are those kept by each, and sharding is applied to the result, so all shards of a filtered run together are the filtered run.", "quantifier": "every combination of filters and every list of mutants", "why_tests_cant": "ranges over all combinations", "anchors": ["src/main.rs: main", "src/visit.rs: walk_package, remove_previously_caught", "src/in_diff.rs: diff_filter", "src/shard.rs: Shard::select"]}
{"id": "C64", "title": "Logged command lines are unambiguous", "statement": "The command line written to a log can be split back into the original arguments when no argument is empty.", "quantifier": "every argument vector", "why_tests_cant": "injectivity over all argument vectors", "anchors": ["src/process.rs: quote_argv"]}
{"id": "C65", "title": "Generated code is printed without losing tokens", "statement": "Printing a token sequence keeps every token's text in order, adding only spaces and delimiters, never a trailing space, and always separates adjacent words, so the text reads back as the same words.", "quantifier": "every token tree", "why_tests_cant": "ranges over all token trees", "anchors": ["src/pretty.rs: ToPrettyString"]}
{"id": "C66", "title": "Shuffling changes only the order", "statement": "Shuffling mutants before testing changes neither which mutants are tested nor how often; with --no-shuffle the workers take the mutants in discovery order.", "quantifier": "every list, every outcome of the random choices and every schedule", "why_tests_cant": "ranges over random choices and schedules", "anchors": ["src/lab.rs: test_mutants", "src/options.rs: Options::new"]}
{"id": "C67", "title": "Test package options on the command line override the config file", "statement": "If --test-workspace or --test-package is given, the test_workspace and test_package settings of the config file have no effect; --test-workspace=true comes before --test-package; without either the config's test_workspace comes before its test_package; with nothing set only the mutated package is tested.", "quantifier": "every combination of arguments and config values", "why_tests_cant": "interaction of four settings each with unboundedly many values", "anchors": ["src/options.rs: Options::new"]}
{"id": "C68", "title": "Without --in-place the source tree is never changed", "statement": "When mutants are tested in copies, the files of the source tree are at every moment of the run, and whatever fails or however it ends, exactly what they were when the run started.", "quantifier": "every list of mutants, number of jobs, schedule, failure of any operation and moment of an interrupt", "why_tests_cant": "ranges over all schedules and failures; a test sees the tree only at the end of a few runs", "anchors": ["src/lab.rs: Worker::run_one_scenario", "src/build_dir.rs: BuildDir::copy_from, BuildDir::overwrite_file", "src/mutant.rs: Mutant::apply, Mutant::revert"]}
{"id": "C69", "title": "Each result is reported once on standard output, as asked for", "statement": "When a scenario is finished, one message is printed: its verdict word in a column of eight, its name with line and column, the times of its commands if --times was given, and the log if the baseline failed or --all-logs was given. Nothing is printed about caught mutants without --caught and about unviable ones without --unviable, and everything else is always reported. A run that ends without error prints the number of mutants found, then the report of each recorded outcome exactly once, then the summary line (unless the baseline failed); and at no moment is anything reported that was not recorded.", "quantifier": "every list of mutants, options, number of jobs, schedule, failures and interrupts", "why_tests_cant": "tests compare the output of a few runs with one job; the order in which threads record and print, and failures in between, are not exercised", "anchors": ["src/console.rs: Console::scenario_finished, discovered_mutants, lab_finished, style_outcome, style_scenario", "src/lab.rs: test_mutants, Worker::run_one_scenario"]}
{"id": "C70", "title": "The printed results agree with the list files", "statement": "After a run that ended without error and whose baseline passed, the lines of standard output that begin with MISSED (or TIMEOUT; caught or unviable where asked for) name exactly the mutants listed in missed.txt (timeout.txt, caught.txt, unviable.txt), each as often as there, up to order.", "quantifier": "every list of mutants with one-line names, every number of jobs and every schedule", "why_tests_cant": "output and files are written at different moments by concurrent threads; a test checks one schedule", "anchors": ["src/console.rs: Console::scenario_finished", "src/output.rs: OutputDir::add_scenario_outcome", "src/lab.rs: Worker::run_one_scenario"]}
{"id": "C71", "title": "Recorded results are those of real commands with the documented limits", "statement": "Every phase result in a recorded outcome is that of a process that this run started for that scenario and phase, with cargo's documented command line and the documented time limit, where the limits of mutants come from the recorded outcome of the baseline (or from the defaults when none was run). Success is recorded only if the child exited with 0, a failure only with the code it exited with, a timeout only if the command had a limit and took longer. Builds are recorded as timed out only if a build limit was asked for, never for the baseline; with the automatic limit and a multiplier of at least 1, the tests of a mutant are recorded as timed out only if they took longer than those of the baseline.", "quantifier": "every list of mutants, options, number of jobs, schedule of threads, behaviour of children, passage of time, failure and interrupt", "why_tests_cant": "limits, polling, exit statuses and threads interact; a test runs a few commands whose durations it cannot control", "anchors": ["src/lab.rs: Worker::run_one_scenario, test_mutants", "src/cargo.rs: run_cargo", "src/process.rs: Process::run", "src/timeouts.rs"]}
{"id": "C72", "title": "No cargo process outlives the run", "statement": "At any time the children that a thread has started are those that have exited, the one it is waiting for, and those that it had to leave because the operating system refused to signal them or to wait for them. So when the program returns, normally, with an error or after an interrupt, and nothing of that kind happened, every child it started has exited. There are never more than max(1, jobs) processes at once, each in another build directory.", "quantifier": "every list of mutants, options, number of jobs, schedule, behaviour of children, failure and moment of an interrupt", "why_tests_cant": "leaked processes depend on the moment of interrupts, timeouts and failures in several threads at once", "anchors": ["src/lab.rs: test_mutants, Worker", "src/process.rs: Process::run, poll, terminate", "src/process/unix.rs: terminate_child", "src/interrupt.rs"]}
{"id": "C73", "title": "A run with its commands neither spins nor gets stuck", "statement": "A run with processes is a run of the threads, so all that is proved of those holds. The steps outside of commands have a bound that depends only on the number of mutants and threads; inside commands each thread takes at most four steps in each polling interval of elapsed time, and six more for each command. From every state the run can still return without further interrupts or failures; a thread in a command waits for nothing but the end of its sleep or the exit of a child to which it has sent the signal.", "quantifier": "every state that can be reached by any schedule of threads, children, clock, failures and interrupts", "why_tests_cant": "deadlocks and busy loops depend on rare interleavings, and a test that passes says nothing about other schedules", "anchors": ["src/lab.rs: test_mutants, Worker", "src/process.rs: Process::run, WAIT_POLL_INTERVAL"]}
{"id": "C74", "title": "The JSON files say what was found and recorded", "statement": "What is written to mutants.json, outcomes.json and by --list --json and --list-files --json is JSON, whatever characters occur in paths, types and replacements. Read by a reader of JSON that looks members up by key: mutants.json has one entry for each queued mutant, in the order of the queue, with its package, file, function, span, replacement and genre; --list --json has the same entries, and the diffs if asked for; outcomes.json has an entry for each recorded outcome, in order, with its scenario, verdict, paths and the phase, status and command line of each command, and its counts are the numbers of its own entries with the respective verdict. An entry determines the edited text and the name of the mutant.", "quantifier": "every list of mutants, files and outcomes, with any characters in their texts", "why_tests_cant": "the project's snapshots compare a few files with ordinary characters; other characters, numbers and verdicts are not seen", "anchors": ["src/mutant.rs: Serialize for Mutant", "src/outcome.rs: Serialize for ScenarioOutcome, PhaseResult, LabOutcome", "src/output.rs: write_mutants_list, write_lab_outcome", "src/list.rs: list_mutants, list_files"]}
{"id": "C75", "title": "An interrupt ends a run soon, with its commands", "statement": "An interrupt reaches all commands, those that run and those that start later. After it each thread sleeps beside its child at most once more, for at most 50 milliseconds, looks at most once more whether the child has exited, starts at most one child more (none if it has one), and takes at most 51 steps (17 while mutants are tested); the main thread takes at most 4; all of them together at most 51 for each thread and 4, however many mutants are left and however long their commands would run. No result of a command that was not complete is recorded, and the run returns an error if a command was running.", "quantifier": "every configuration, every reachable state in which there has been an interrupt and every execution from it, with any interleaving of threads, clock, children and failures", "why_tests_cant": "the project's test of ctrl-C interrupts one command at one moment; the moments in between, several threads and failures after the interrupt are not tried", "anchors": ["src/interrupt.rs", "src/process.rs: Process::run, poll", "src/lab.rs: test_mutants, Worker::run_queue, run_one_scenario"]}
{"id": "C76", "title": "The exit code of the program means what the book says", "statement": "From the arguments to the exit code: 4 exactly if a command on the unmutated tree ended without success or took longer than its documented limit, and then the baseline was asked for and no mutant was tested; 3 exactly if that is not so and a command on the tree with just one selected mutant was stopped since it took longer than its documented limit; 2 exactly if none of these is so and the tests of a tree with just one selected mutant exited with 0; 0 otherwise, and then, unless only checks were asked for, each selected mutant had a command, on the tree with just this mutant, that ended without success. No other codes but 1 and 101 are returned by a run; these only if the arguments, the configuration or the sources led to an error or a panic before testing, if an interrupt or a failure of the operating system came before testing, or if testing returned an error, which does not happen if nothing goes wrong in the operating system and nobody interrupts, however the commands end.", "quantifier": "every source tree, workspace, arguments and configuration, every schedule of threads, behaviour of children, passage of time, failure and interrupt", "why_tests_cant": "the code depends on all parts at once; the project's tests look at the code for a few trees, one schedule each", "anchors": ["src/main.rs: main", "src/exit_code.rs", "src/lab.rs: test_mutants", "src/outcome.rs: LabOutcome::exit_code", "book/src/exit-codes.md"]}
{"id": "C77", "title": "All shards together are one run", "statement": "If all n shards of a run are run with the same arguments, each on its own machine, in its own order and with its own output directory, then together they test each mutant that a run without sharding would test, exactly as often; and if all of them end with code 0, unless only checks were asked for, each of those mutants had a command in one of the runs, on the tree with just this mutant, that ended without success.", "quantifier": "every source tree, workspace, arguments and number of shards, every schedule and behaviour of children in each of the runs", "why_tests_cant": "the project's tests compare listings of shards for one tree; no test runs all shards of a tree to their exit codes", "anchors": ["src/shard.rs", "src/main.rs: main", "src/lab.rs: test_mutants", "book/src/shards.md"]}
{"id": "C78", "title": "Runs with --iterate add up", "statement": "Take any sequence of runs of which each finds the output directory that the one before left, the first without lists; they may have different arguments and sources, may be killed at any operation, fail or be interrupted. A name in the lists that --iterate reads is that of a mutant for which in one of these runs a command, on the tree with just this mutant, ended without success. So if a last run ends with code 0, then of each mutant found in the tree one of that name, which is at the same place and has the same description, was caught in one of the runs. And a mutant recorded as caught or unviable in a run with --iterate is not tested again in the runs with --iterate after it.", "quantifier": "every sequence of runs of any length, every source tree and arguments of each, every schedule, behaviour of children, failure, interrupt and point at which a run is killed; names without line feeds", "why_tests_cant": "the project's test makes a few complete runs on one tree; runs that are killed, fail or change in between are not tried", "anchors": ["src/main.rs: main", "src/output.rs: OutputDir::new, add_scenario_outcome, write_previously_caught, load_previously_caught", "src/visit.rs: remove_previously_caught", "book/src/iterate.md"]}
{"id": "C79", "title": "A scenario's log tells what was recorded", "statement": "Every recorded outcome has its own log file. Its messages are, in this order: what is tested (for a mutant its name and its diff), then for each recorded phase the command line and how the command ended, and nothing else; output of commands comes only after the first command line. The diff file of a mutant holds its diff. While a command runs, the log already names it, the command writes to this log, and no other thread uses it. What is in a log stays in it; after the outcome is recorded, only output of what the commands left behind can be appended. The paths in outcomes.json are those of the files that tell the outcome at that place.", "quantifier": "every set of mutants and options, every schedule of any number of threads, behaviour and output of children (also after they have been given up), timing, failure and interrupt, at every moment of the run", "why_tests_cant": "the project's tests look for a few texts in logs of small complete runs with one job; interleavings of threads, children that write late, and the moments in between are not tried", "anchors": ["src/output.rs: ScenarioOutput::new, write_diff, message, open_log_append, start_scenario", "src/process.rs: Process::run, Process::start", "src/lab.rs: run_one_scenario", "src/scenario.rs: Display for Scenario", "src/outcome.rs: ScenarioOutcome::new, Serialize for ScenarioOutcome"]}
{"id": "C80", "title": "What commands are run on is the copied tree with one mutant", "statement": "Unless --in-place is given, every command for a mutant is run in a directory that holds the files of the source tree that are not excluded (version control, ignored files, mutants.out) and no others. In the file of the mutant the text is changed as the mutant says; every other file has the text of the source, where in files that have selected mutants CRLF may have become LF; Cargo.toml and .cargo/config.toml are those of the source with their paths adapted. Commands for the baseline are run on such a directory without any mutant. So exit code 0 without --check means that for each selected mutant a command failed in such a directory.", "quantifier": "every source tree without symlinks in the files with mutants, ignore rules, options without --in-place, sets of mutants, numbers of threads, schedules and behaviour of commands", "why_tests_cant": "the project's tests look at the results of small trees; they do not compare all the files that a command sees with the source, and not while other threads write", "anchors": ["src/build_dir.rs: BuildDir::copy_from", "src/copy_tree.rs: copy_tree", "src/manifest.rs: fix_manifest, fix_cargo_config", "src/lab.rs: test_mutants, run_one_scenario", "src/mutant.rs: Mutant::apply"]}
{"id": "C81", "title": "The configuration file means what it says", "statement": "A configuration is read from .cargo/mutants.toml if and only if the file is a table in which every key is known, none comes twice, and each has a value of its form (flag, text, list of texts, number, test tool). Then every key that is given sets exactly its own option to the value that is written, every other option has its default, and the order of the keys does not matter. An unknown key is an error and not ignored. Without a file, or with --no-config, nothing is set.", "quantifier": "every document, every parser of documents and numbers, every order of entries", "why_tests_cant": "tests read a few files with one or two keys; they cannot show that no key sets another option or that no misspelt key is accepted", "anchors": ["src/config.rs: Config, read_file, read_tree_config, from_str", "src/options.rs: TestTool", "src/main.rs: main"]}
{"id": "C82", "title": "A termination signal reaches the processes of its command and no others", "statement": "When a command is terminated after its time limit or an interrupt, the signal goes to every running process that descends from the command and has not changed its process group. It never goes to another process: not to cargo-mutants, not to commands of other threads, and not to a process that was given the number of a command that has ended; unless such a process has itself entered the group of another process. What a command starts is not in the group of cargo-mutants, so ctrl-C in the terminal does not reach it directly.", "quantifier": "every process table, every way in which processes start others, exit, are waited for and change groups, every reuse of numbers, every timing of the program", "why_tests_cant": "reuse of process numbers and races between exit, waiting and signalling hardly ever happen in tests, and tests cannot look at all processes of the system", "anchors": ["src/process/unix.rs: terminate_child, configure_command", "src/process.rs: Process::run, Process::poll, Process::terminate"]}
{"id": "C83", "title": "A setting in the configuration file does what the option does", "statement": "Settings can be moved between .cargo/mutants.toml and the command line: a run with a configuration file whose settings are not also given as options, and a run without the file in which each setting is given by the option that stands for its key, have the same options, list the same mutants or files, test the same mutants in the same way and may end with the same exit codes. Names of packages and functions are taken to have no commas in them, as an option can hold several names.", "quantifier": "every configuration file, arguments, workspace, source tree and schedule", "why_tests_cant": "there are 19 keys with many combinations; tests compare a few of them for one tree each", "anchors": ["src/options.rs: Options::new", "src/config.rs: Config", "src/main.rs: Args, main"]}
{"id": "C84", "title": "Where in a package a run is started makes no difference", "statement": "The starting directory (that of --manifest-path, that of --dir, or the working directory) matters only through the manifest nearest to it: started anywhere in a package, and however the directory is given, a run has the same workspace, configuration, output directory and packages, and does the same. Without --workspace and --package it finds what it finds with --package and the name of the package around the start. With --workspace or --package it does the same wherever in the workspace it is started.", "quantifier": "every workspace, file system, working directory, starting directory and arguments", "why_tests_cant": "tests start in a few directories of a few sample trees, and give absolute paths", "anchors": ["src/main.rs: main", "src/workspace.rs: Workspace::open, filter_packages, locate_project", "src/config.rs: read_tree_config"]}
{"id": "C85", "title": "Temporary build directories are removed when a run ends, and not before", "statement": "When a run ends, with a result, an error, a failed baseline or an interrupt, every temporary directory that it made has been removed, unless removing it failed or --leak-dirs was given. While a thread works in a build directory, or a command that it started there exists, the directory is on the disk. A run removes only directories that it made, each at most once, and never the source tree. It makes at most one directory for each job, and exactly one when all jobs have one; with --in-place it makes none. With --leak-dirs the directory of every thread is kept, but not one where copying failed.", "quantifier": "every list of mutants, number of jobs, setting of --in-place and --leak-dirs, interleaving of threads, and every place where an operation fails, a thread panics or an interrupt arrives", "why_tests_cant": "the tests look at the temporary directory after a few successful runs; which directory is dropped when depends on the interleaving and on where errors happen", "anchors": ["src/build_dir.rs: BuildDir, for_baseline, copy_from, in_place", "src/copy_tree.rs: copy_tree", "src/lab.rs: test_mutants"]}
{"id": "C86", "title": "The progress display tells the truth", "statement": "While mutants are tested, the numbers of missed, caught, unviable and timed out mutants in the progress line, and of mutants tested, are those in outcomes.json, less only those that a thread has recorded and is just about to report (and, after a thread failed, those that it did not come to report); at the end of a run without error whose baseline passed they are equal. The line names every verdict whose number is not zero and no other. The time that remains is the mean time for a mutant times the mutants left, rounded up. There is one line for each thread that is testing a scenario, with that scenario and the phase of the command that is running, and no other line except for threads that failed.", "quantifier": "every list of mutants, number of jobs, interleaving of threads, results of commands, and every place where an operation fails or an interrupt arrives", "why_tests_cant": "the display is only drawn on a terminal; tests see at most the text at the end of a run", "anchors": ["src/console.rs: LabModel::render, scenario_started, scenario_finished, ScenarioModel", "src/lab.rs: test_mutants, run_queue, run_one_scenario"]}
{"id": "C87", "title": "Ctrl-C before testing stops the run, and never leaves out files or mutants", "statement": "Whenever ctrl-C is pressed before testing starts, a run that still comes to testing or listing does so with exactly the files and mutants of an uninterrupted run. After ctrl-C no further source file is parsed and no further entry of the tree is copied, and only a bounded number of steps follow, even where the walk would otherwise never end. If a source file of the tree is still to be looked at, the run fails and neither tests nor lists. Waiting for the lock of the output directory ends. A copy that is used is complete. If testing does begin after ctrl-C, it records no outcome and fails unless there are no mutants.", "quantifier": "every workspace, source tree, arguments and moment of ctrl-C, and every behaviour of other holders of the lock", "why_tests_cant": "no test sends a signal at a chosen moment of discovery or copying", "anchors": ["src/interrupt.rs: check_interrupted", "src/main.rs: main", "src/workspace.rs: Workspace::open", "src/visit.rs: walk_package", "src/output.rs: LockFile::acquire_lock", "src/copy_tree.rs: copy_tree"]}
{"id": "C88", "title": "A failing run ends with the panic or error of its first failing worker", "statement": "When worker threads fail, test_mutants waits for all of them, and then panics with the panic of the first thread (in the order in which they were started) that panicked; if none panicked it returns the error of the first thread that failed; and only if all of them returned Ok does it return an outcome. Without a panic each error other than interruption is printed exactly once, and interruption is never printed per thread. A thread's error is the error of the operation that failed: a command's error is replaced only by that of the failing revert after it. \"interrupted\" is reported only if ctrl-C was pressed, and if nothing else fails then an interrupted run that fails reports \"interrupted\" and exits with 1. The exit code is 101 exactly if the run ends with a panic, and 1 if it ends with an error; a panic happens only if a log could not be read as text or the time limits could not be computed.", "quantifier": "every configuration, number of threads, schedule, result of commands, failing operation and moment of ctrl-C", "why_tests_cant": "the order in which threads fail is not under a test's control, and join_threads is marked as hard to observe", "anchors": ["src/lab.rs: join_threads", "src/lab.rs: test_mutants", "src/lab.rs: Worker::run_one_scenario", "src/interrupt.rs: check_interrupted"]}
{"id": "C89", "title": "A failing worker costs at most the mutant it was testing", "statement": "If some worker threads fail with an error or panic while at least one finishes, then at the end of the run the queue is empty and every mutant has a recorded outcome except for at most one for each failed thread. A thread that fails while it copies the tree, or because a log cannot be read as text, costs none. Which mutants are missing are mutants that a failed thread had taken.", "quantifier": "every configuration, number of threads, schedule, result of commands and failing operations", "why_tests_cant": "tests do not make single operations of one thread fail while others go on", "anchors": ["src/lab.rs: test_mutants", "src/lab.rs: Worker::run_queue", "src/lab.rs: Worker::run_one_scenario", "src/lab.rs: join_threads"]}
{"id": "C90", "title": "What commands write stays in their directory and does not spoil the mutants", "statement": "Cargo commands, and what they leave behind, may write or remove any files of the build directory they were started in, at any time from then on. Whatever they write: without --in-place the source tree stays as it was, and no thread's directory is changed by commands of another thread. Applying a mutant and reverting it write its file anew, so from applying until reverting the file holds the mutated text, and afterwards the original text, unless a command has written that file since then; every other file of the directory is as it would be if commands wrote nothing, or holds what a command wrote there. Outcomes, lists, messages and the exit code are those of some run in which commands write nothing. When the first command for a mutant starts, its directory holds nothing that commands for the baseline or for other mutants wrote.", "quantifier": "every configuration whose mutated files are copied, number of threads, schedule, and sequence of files that commands write or remove", "why_tests_cant": "test trees have tests that write nothing into the source tree, and no test interleaves writes of leftover processes with the steps of several threads", "anchors": ["src/lab.rs: Worker::run_one_scenario", "src/build_dir.rs: BuildDir::overwrite_file", "src/mutant.rs: Mutant::apply", "src/mutant.rs: Mutant::revert", "src/cargo.rs: run_cargo", "src/process.rs: Process::start"]}
{"id": "C91", "title": "Conditional compilation: exactly what is compiled only for tests is left out because of cfg", "statement": "If code is compiled when the option test is not set, then cfg attributes never keep it from being mutated: every change that the rules name is made there, unless the code is skipped for a reason other than cfg. Code that is compiled only when test is set, according to the cfg attributes of the file and of everything around it, is not mutated. A file that starts with #![cfg(test)] gives no mutants, and any other condition at its start has no effect.", "quantifier": "every syntax tree, every predicate of conditional compilation on the file and on each node, every set of options", "why_tests_cant": "predicates nest without bound, and tests have only cfg(test) and a few others", "anchors": ["src/visit.rs: attrs_excluded", "src/visit.rs: attr_is_cfg_test", "src/visit.rs: walk_file"]}
{"id": "C92", "title": "The display while the tree is searched and copied", "statement": "While source files are searched the display shows the number of files and mutants found so far, these numbers never decrease, and before and after the search nothing is shown. While threads copy the tree there is exactly one line for each copy that is going on, with the number of whole megabytes of the files copied so far, and no other line; looking for the line of a copy never panics, however many threads copy at once and in whatever order they finish. What is displayed does not change what is done.", "quantifier": "every source tree, options, number of threads, order of their steps, time of ctrl-C and failure", "why_tests_cant": "the display is not drawn in tests, and copies at the same time finish in an order that tests cannot choose", "anchors": ["src/console.rs: WalkModel::render", "src/console.rs: Console::start_copy", "src/console.rs: Console::finish_copy", "src/console.rs: Console::copy_progress", "src/visit.rs: walk_package", "src/copy_tree.rs: copy_tree"]}
{"id": "C93", "title": "A mutant changes exactly the construct that it names", "statement": "If the syntax tree is one of the file's text, then for each mutant found the text that is tested is the file's text with one piece replaced: for an operator mutant the piece is exactly the operator's symbol and the replacement another operator of its row; for a deleted unary operator it is ! or -; for a guard, an arm or a function body it is the text of the guard, of the arm, or from the first to the last statement. The text shown as the original is that piece. The file in the build directory holds this text whenever a command for the mutant runs, and two replacements of one piece give different texts.", "quantifier": "every text without lone carriage returns, every syntax tree of it, configuration, number of threads and schedule", "why_tests_cant": "ranges over all source texts and trees; the visitor, the arithmetic of spans and the threads are tested separately", "anchors": ["src/visit.rs: DiscoveryVisitor", "src/visit.rs: function_body_span", "src/span.rs: Span::replace", "src/mutant.rs: Mutant::mutated_code", "src/mutant.rs: Mutant::apply"]}
{"id": "C94", "title": "The tokens of a mutated file are those of the original with the replaced ones exchanged", "statement": "If tokens end at both ends of what a mutant replaces, then reading the mutated text gives the tokens before it, the tokens of the replacement, and the tokens after it: the marker comment and the replacement never join with what is next to them, so that the mutant is the intended program. A replaced binary operator is one token.", "quantifier": "every source text, place and replacement", "why_tests_cant": "ranges over all texts before and after the place; formatted test trees always have spaces around", "anchors": ["src/mutant.rs: Mutant::mutated_code", "src/main.rs: MUTATION_MARKER_COMMENT", "src/visit.rs: DiscoveryVisitor::visit_expr_match"]}
{"id": "C95", "title": "Replacement code is read as the tokens it was made of", "statement": "Code that is printed from tokens (function values, error values, types in names) reads as the same tokens when it is compiled: leaving out or adding spaces never joins two tokens into another one, splits one, or opens a comment or a literal. So the body of a function is replaced by exactly the tokens of a value for its return type, and all other tokens of the file stay.", "quantifier": "every token stream, return type, list of error values and source file", "why_tests_cant": "ranges over all sequences of tokens; the tests print a few dozen types and values", "anchors": ["src/pretty.rs: ToPrettyString for TokenStream", "src/fnvalue.rs: type_replacements", "src/fnvalue.rs: return_type_replacements", "src/mutant.rs: Mutant::mutated_code"]}
{"id": "C96", "title": "What is tested is the source program with one construct's tokens exchanged", "statement": "Unless --in-place is given, every cargo command for a mutant is run on the copied source tree, in which the tokens of the mutant's file are those of the source file except that those of one construct of its syntax tree are exchanged: one operator for another one of its row, nothing for ! or - or a match arm, true or false for a guard, the tokens of a value from the table for the statements of a function body. So exit code 0 without --check means that for each selected mutant a command failed on such a program.", "quantifier": "every source tree whose files with mutants have no lone carriage returns and a space, bracket or comment before guards, parser that gives trees of the text, options without --in-place, schedule and behaviour of commands", "why_tests_cant": "Tests look at single mutants of sample trees, and never at the tokens of what is compiled; that no combination of text, mutant, copying, earlier mutants and schedule lets a command see anything else needs a proof through all layers.", "anchors": ["src/main.rs:main", "src/visit.rs:walk_tree", "src/mutant.rs:Mutant::mutated_code", "src/lab.rs:test_mutants", "src/build_dir.rs:BuildDir::overwrite_file"]}
{"id": "C97", "title": "The list files say what happened to the commands", "statement": "At any time in a run, also if it is killed then, a line in missed.txt is the name of a selected mutant whose tests exited with 0 on the tree with just this mutant; in caught.txt one whose tests exited with another code; in unviable.txt one whose check or build exited with another code; in timeout.txt one with a command that was stopped after more than the documented limit. After a run without error, every mutant that this happened to is in its list, and in no other if it was selected once. If the baseline did not fail, the only selected mutants in no list are those whose check passed where only checks were asked for, and those with a command that was ended by a signal.", "quantifier": "every source tree, arguments, schedule of threads, behaviour of children, passage of time, failure and interrupt, and every time to stop; names without line ends", "why_tests_cant": "ranges over all schedules and ways for commands to end; tests look at the lists of a few finished runs", "anchors": ["src/output.rs: OutputDir::add_scenario_outcome", "src/outcome.rs: ScenarioOutcome::summary", "src/process.rs: Process::run", "src/lab.rs: test_mutants"]}
{"id": "C98", "title": "Jobs, shuffling and scheduling do not change the results", "statement": "If how a command ends depends only on the scenario and the phase, then a run without error records, in some order, exactly: the baseline, if it is to be run and there are mutants, with its check or its build and, if that succeeds, tests; and unless the baseline failed, each selected mutant as often as it was selected, with its commands in the same way. The lines of the list files are then the names of the mutants for which the tests passed, failed, and so on, and the exit code is the documented one for these results. So two such runs of the same mutants with the same choice of checks and baseline give the same outcomes, numbers, lines of the list files and exit code, with any numbers of jobs, shuffled or not, and with any schedules.", "quantifier": "every source tree, arguments, number of jobs, random numbers, schedule of threads and passage of time, and every way for commands to end that depends on the scenario and phase", "why_tests_cant": "ranges over all pairs of schedules; tests compare no two schedules and run few with more than one job", "anchors": ["src/lab.rs: test_mutants", "src/lab.rs: Worker::run_queue", "src/outcome.rs: LabOutcome::add", "src/outcome.rs: LabOutcome::exit_code"]}
{"id": "C99", "title": "Only the options for it decide which mutants are selected", "statement": "Two command lines that agree on --error, --file, --exclude, --re, --exclude-re, --skip-calls, --skip-calls-defaults, the packages, --iterate, --in-diff and --shard select the same mutants in the same order with the same configuration file and tree, whatever the other options are, as long as they are accepted.", "quantifier": "every source tree, configuration and pair of command lines", "why_tests_cant": "ranges over all values of all other options; tests use a few combinations", "anchors": ["src/options.rs: Options::new", "src/visit.rs: walk_tree", "src/visit.rs: walk_package", "src/main.rs: main"]}
{"id": "C100", "title": "A run with --iterate after a run finds the same", "statement": "A run without --shard ends without error, and then a run with --iterate and otherwise the same arguments is made in the output directory that it left, perhaps with other jobs and in another order. If how a command ends depends only on the scenario and the phase, and different selected mutants have different names of one line, then missed.txt and timeout.txt of the second run have the same lines as before, caught.txt and unviable.txt are empty, the exit code is the same, and unless the baseline failed no mutant that was caught or unviable is tested again.", "quantifier": "every source tree, arguments, previous output directory, pair of schedules and numbers of jobs, and every way for commands to end that depends on the scenario and phase", "why_tests_cant": "ranges over all pairs of runs; tests iterate over one small tree with one job", "anchors": ["src/main.rs: main", "src/output.rs: load_previously_caught", "src/output.rs: OutputDir::write_previously_caught", "src/outcome.rs: LabOutcome::exit_code"]}
{"id": "C101", "title": "The shards together are the whole run", "statement": "If how a command ends depends only on the scenario and the phase, then the list files of the runs of all shards, taken together, have exactly the lines of those of one run without --shard, and the exit code of that run is the greatest of the exit codes of the shards. With --iterate all runs start from the same output directory.", "quantifier": "every source tree, arguments, number of shards, machines, schedules, numbers of jobs, and every way for commands to end that depends on the scenario and phase", "why_tests_cant": "ranges over all numbers of shards and all schedules of each; tests list shards, and run hardly any", "anchors": ["src/shard.rs: Shard::select", "src/main.rs: main", "src/lab.rs: test_mutants", "src/outcome.rs: LabOutcome::exit_code"]}
{"id": "C102", "title": "--list-files names the files that are searched", "statement": "--list-files prints, one on each line with slashes, exactly the files of the selected packages that are reached through mod statements, lie inside the tree and are not excluded by a glob. Every mutant that a run with the same arguments lists or tests is in one of these files, and the mutants come in the order of the files. The list is the same with and without --re, --exclude-re, --iterate, --in-diff and --shard, and it is printed whenever the tree can be searched.", "quantifier": "every tree, workspace, configuration and arguments", "why_tests_cant": "the tests have a few fixed trees; what files are searched depends on the mod statements and globs of any tree", "anchors": ["src/list.rs: list_files", "src/main.rs: main", "src/visit.rs: walk_package, walk_tree", "src/path.rs: Utf8PathSlashes::to_slash_path"]}
{"id": "C103", "title": "Leaving mutants out does not change the results of the others", "statement": "If how a command ends depends only on the scenario and the phase, then a mutant that is selected in two runs with the same choice of checks and baseline is in the same list files after both, whatever other mutants they test. A run with any of --file, --exclude, --re, --exclude-re, the same settings in the configuration file, --iterate, --in-diff and --shard selects some of the mutants that a run without all of these selects, in the same order; its list files have only lines that those of the other run have, none more often, and its exit code is not greater.", "quantifier": "every source tree, pair of command lines, machines, schedules, numbers of jobs, and every way for commands to end that depends on the scenario and phase", "why_tests_cant": "it compares all pairs of runs with different filters", "anchors": ["src/main.rs: run", "src/lab.rs: test_mutants", "src/options.rs: Options::allows_mutant, Options::allows_source_file_path", "src/visit.rs: walk_tree", "src/outcome.rs: LabOutcome::exit_code"]}
{"id": "C104", "title": "Mutants are found in alphabetical order of packages, whatever order cargo lists them in", "statement": "Files and mutants are found package by package in the alphabetical order of the packages' names; within a package the files of its targets come first, in the order of their paths and each once. What is listed, written and tested, and in which order, is the same for any order in which cargo metadata lists the members, their targets and the default members, and any order of --package arguments; so all machines that test shards of a tree divide the same list. The packages of the baseline do not depend on shuffling.", "quantifier": "every workspace, every rearrangement of its description, every tree and arguments", "why_tests_cant": "a test sees the one order in which its cargo lists packages; the claim is about all orders", "anchors": ["src/package.rs: packages_from_metadata, package_top_sources", "src/workspace.rs: Workspace::packages_by_name, Workspace::default_packages, Workspace::filter_packages", "src/visit.rs: walk_tree, walk_package", "src/lab.rs: Lab::run_baseline", "src/main.rs: main"]}
{"id": "C105", "title": "Colours add nothing but escape sequences, and never reach names in files or matching", "statement": "Whether output is coloured is decided once: not if NO_COLOR is set (except to 0), else yes if CLICOLOR_FORCE is set (except to 0), else as --colors says, and with auto as the terminal is. With colours off, the list of mutants, the lines about results and the progress display have no escape sequences added. With colours on, removing the escape sequences from them leaves exactly the text printed without colours, and every result line and every listed name (except 'delete match arm') has some: missed mutants, failures and timeouts red, caught mutants and successes green, unviable ones blue, replacements yellow. The names written to files and matched with --re, and descriptions of changes, never have escape sequences added, whatever the setting.", "quantifier": "for all settings of the environment variables and --colors, both answers of terminal detection, all mutants of every genre, all outcomes and phases, all lists of mutants, all states of the progress display", "why_tests_cant": "tests/colors.rs looks for one escape sequence in the list of one tree and for none in another; it cannot show that every part of every line keeps its words, that no name in a file is coloured, or that a style is closed for every genre and outcome.", "anchors": ["src/options.rs: Colors::forced_value", "src/options.rs: Colors::active_stdout", "src/mutant.rs: Mutant::styled_parts", "src/mutant.rs: Mutant::name", "src/mutant.rs: Mutant::describe_change", "src/mutant.rs: Mutant::to_styled_string", "src/console.rs: enable_console_colors", "src/console.rs: style_outcome", "src/console.rs: Console::scenario_finished", "src/list.rs: list_mutants"]}
{"id": "C106", "title": "The diff of a mutant turns the source file into the file that is tested", "statement": "The diff that --list --diff, the log and the diff file of a mutant show is a unified diff from the path of the mutant's file to the description of the change. Applied to the source file, with every hunk exactly at the lines that it names, it gives the mutated file, which is what the commands of that mutant are run on; a line without line feed at the end is marked as such. It can be read in only one way. It is empty only if the mutated file is the source file.", "quantifier": "for all mutants of all genres in files without lone carriage returns and with paths without line feeds, all positions and lengths of the replaced region, whatever lines the diff library finds to be equal", "why_tests_cant": "the snapshot shows five diffs of one file, none with several hunks, at the end of a file without line feed, or of empty ranges; that each applies cleanly and gives exactly the tested text for every file is not tested at all.", "anchors": ["src/mutant.rs: Mutant::diff", "src/mutant.rs: Mutant::mutated_code", "src/output.rs: ScenarioOutput::write_diff", "src/list.rs: list_mutants", "src/lab.rs: Worker::run_one_scenario"]}
