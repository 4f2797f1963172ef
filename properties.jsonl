{"id": "C01", "title": "Passing ordered checks have in-order, non-overlapping matches", "statement": "If a run of CHECK / CHECK-NEXT / CHECK-SAME / CHECK-EMPTY directives passes, then every directive has a match, every match lies inside the current block of the input, and each match starts at or after the end of the previous one.", "quantifier": "every sequence of ordered directives, every pattern matcher whose matches lie in the range it was asked to search, every input buffer and every block of it", "why_tests_cant": "Tests fix a handful of check files and inputs; the guarantee is about every combination of directives and every text.", "anchors": ["filecheck/src/check/mod.rs: check_group", "filecheck/src/rules/plain.rs", "filecheck/src/rules/next.rs", "filecheck/src/rules/same.rs", "filecheck/src/rules/empty.rs", "filecheck/src/cursor.rs"]}
{"id": "C02", "title": "Plain literal CHECKs are complete (greedy search loses nothing)", "statement": "If literal strings s1..sn occur in the input in that order without overlapping, then the check file `CHECK: s1 .. CHECK: sn` passes on that input; and conversely, if it passes they do. So choosing the leftmost occurrence each time never makes a satisfiable sequence of plain CHECKs fail.", "quantifier": "every list of non-empty literal patterns and every input", "why_tests_cant": "Completeness of a greedy search is a statement about all ways in which the literals might occur; tests show particular placements.", "anchors": ["filecheck/src/rules/plain.rs: CheckPlain::apply", "filecheck/src/pattern/matcher/matchers/substring.rs: SubstringMatcher::try_match", "filecheck/src/check/mod.rs: check_group"]}
{"id": "C03", "title": "CHECK-NEXT matches on exactly the next line", "statement": "When CHECK-NEXT passes there is exactly one line feed between the position the search stood at and the start of its match, and the match does not leave that line.", "quantifier": "every input, cursor position, and pattern matcher respecting the searched range", "why_tests_cant": "Line boundary conditions (end of input, empty lines, CRLF, block ends) are unbounded in number.", "anchors": ["filecheck/src/rules/next.rs: CheckNext::apply", "filecheck/src/cursor.rs: start_of_next_line, next_newline_from"]}
{"id": "C04", "title": "CHECK-SAME matches on the same line", "statement": "When CHECK-SAME passes there is no line feed between the end of the previous match and the end of its match.", "quantifier": "every input, cursor position, and pattern matcher respecting the searched range", "why_tests_cant": "The cursor's cached end-of-line is updated incrementally; only an invariant over all cursor histories shows it is never stale.", "anchors": ["filecheck/src/rules/same.rs: CheckSame::apply", "filecheck/src/cursor.rs: set_start, search_line"]}
{"id": "C05", "title": "CHECK-EMPTY accepts exactly an empty next line", "statement": "CHECK-EMPTY passes iff the search stands at a line end and the line after it is empty (contains no bytes before its newline); after it passes the search stands at the end of that empty line.", "quantifier": "every input and cursor position", "why_tests_cant": "An iff over all inputs and positions cannot be sampled.", "anchors": ["filecheck/src/rules/empty.rs: CheckEmpty::apply", "filecheck/src/cursor.rs"]}
{"id": "C06", "title": "CHECK-NOT excludes every occurrence in its region", "statement": "If a test with a CHECK-NOT passes, the forbidden pattern has no match in the region between the preceding positive match (or block start) and the following positive match (or block end).", "quantifier": "every group/tree shape the compiler can emit, every input and block, every complete matcher", "why_tests_cant": "A universally quantified absence claim (no occurrence anywhere in the region) for every shape of surrounding checks.", "anchors": ["filecheck/src/check/mod.rs: check_not, check_tree, check_group"]}
{"id": "C07", "title": "CHECK-COUNT-N needs N successive non-overlapping matches", "statement": "If CHECK-COUNT-N passes then there are exactly N matches, all in the block, each starting at or after the end of the one before; if fewer than N can be found the check fails.", "quantifier": "every N, pattern, input and block", "why_tests_cant": "N and the input are unbounded.", "anchors": ["filecheck/src/check/mod.rs: check_group (Repeated)", "filecheck/src/parse/parser.rs: InvalidCheckCount"]}
{"id": "C08", "title": "A passing CHECK-DAG group matched every pattern, without overlaps", "statement": "If a group of CHECK-DAG directives passes then each directive of the group has its own match inside the block, no two matches overlap, and the checks that follow the group search only after all of them.", "quantifier": "every list of DAG patterns and every input", "why_tests_cant": "All permutations and overlaps of matches cannot be enumerated by tests.", "anchors": ["filecheck/src/rules/dag.rs", "filecheck/src/pattern/visitors/static.rs", "filecheck/src/pattern/visitors/dynamic.rs", "filecheck/src/pattern/matcher/matchers/all.rs: MatchAll::compile"]}
{"id": "C09", "title": "CHECK-LABEL splits the input into ordered disjoint blocks", "statement": "When all labels are found, the blocks assigned to them are in order, pairwise disjoint, start on or after the end of their label's line, and end no later than the line before the next label; checks of one block never match text of another.", "quantifier": "every check file with labels, every input, every matcher respecting the searched range", "why_tests_cant": "Needs an induction over an arbitrary number of labels.", "anchors": ["filecheck/src/check/mod.rs: discover_blocks, BlockInfo", "filecheck/src/cursor.rs: set_bounds"]}
{"id": "C10", "title": "A missing label fails the test", "statement": "If some CHECK-LABEL has no match after the previous label, the test fails, whatever the other checks do.", "quantifier": "every program and input", "why_tests_cant": "Failure propagation has to hold for all programs.", "anchors": ["filecheck/src/check/mod.rs: discover_blocks, check_input"]}
{"id": "C11", "title": "No failed check is lost", "statement": "The test passes iff every check that was evaluated passed: the reported result is a failure as soon as any group of any block reports a failed match, and the number of errors reported is the number of failed matches.", "quantifier": "every sequence of match results produced while checking", "why_tests_cant": "Accumulator correctness must hold for every sequence of results.", "anchors": ["filecheck/src/test/result.rs: TestResult", "filecheck/src/check/mod.rs: check_blocks", "filecheck/src/pattern/matches.rs"]}
{"id": "C12", "title": "Empty input is rejected unless allowed", "statement": "Checking an empty input file fails iff --allow-empty was not given (independently of the checks in the former case).", "quantifier": "every program and configuration", "why_tests_cant": "Quantifies over every check program.", "anchors": ["filecheck/src/check/mod.rs: check_input"]}
{"id": "C13", "title": "Checking never aborts", "statement": "Running any accepted check file on any input terminates with a pass or a fail verdict; it never panics.", "quantifier": "every check file accepted by the parser and every input", "why_tests_cant": "Absence of panics over all inputs.", "anchors": ["filecheck/src/check/mod.rs", "filecheck/src/rules/next.rs", "filecheck/src/pattern/matcher/matchers/all.rs", "filecheck/src/pattern/search/pattern_set.rs"]}
{"id": "C14", "title": "Variables bound by a failed match do not leak", "statement": "A variable binding made inside a speculative scope is visible afterwards iff the scope was committed; committing makes exactly the scope's bindings override the parent's; dropping leaves the parent's bindings unchanged.", "quantifier": "every sequence of bindings and nested scopes", "why_tests_cant": "All histories of nested scopes.", "anchors": ["filecheck/src/env.rs: Env, ScopeGuard, Bindings::merge", "filecheck/src/context.rs: ContextGuard"]}
{"id": "C15", "title": "--enable-var-scope clears exactly the local variables at block entry", "statement": "On entry to a block, with --enable-var-scope, no locally bound variable is visible and every global ($) and command-line variable still has its value; without the option nothing changes.", "quantifier": "every environment history", "why_tests_cant": "All histories of bindings and block entries.", "anchors": ["filecheck/src/env.rs: Bindings::clear, ScopeGuard::clear", "filecheck/src/context.rs: enter_block"]}
{"id": "C16", "title": "Compilation keeps every check, in order", "statement": "The compiled program contains exactly the checks of the check file, each once and in file order (labels delimiting blocks), regardless of how they were grouped.", "quantifier": "every check file that compiles", "why_tests_cant": "The grouping pass is a multi-case state machine over unbounded input.", "anchors": ["filecheck/src/check/program.rs: compile_lines, compile_blocks"]}
{"id": "C17", "title": "Relative checks are never first", "statement": "A check file in which a CHECK-NEXT, CHECK-SAME or CHECK-EMPTY is not preceded in its block by a positive check or label is rejected at compile time, and any other check file is not rejected for that reason.", "quantifier": "every check file", "why_tests_cant": "All check files.", "anchors": ["filecheck/src/check/program.rs: compile_lines, can_insert_dependent_positive_check"]}
{"id": "C18", "title": "--implicit-check-not guards every gap", "statement": "With --implicit-check-not P, the compiled program has a CHECK-NOT P before the first positive check, between any two positive checks, and after the last one.", "quantifier": "every check file and set of implicit patterns", "why_tests_cant": "All check files, including labelled blocks of any length.", "anchors": ["filecheck/src/check/program.rs: compile_lines"]}
{"id": "C19", "title": "Literal search finds the leftmost occurrence and only true occurrences", "statement": "The literal matcher reports a match iff the literal occurs in the searched range, and then reports the leftmost one (ASCII case folded when --ignore-case).", "quantifier": "every literal, buffer and range", "why_tests_cant": "All texts.", "anchors": ["filecheck/src/pattern/matcher/matchers/substring.rs"]}
{"id": "C20", "title": "Horizontal whitespace canonicalisation", "statement": "Canonicalisation leaves the text unchanged under --strict-whitespace; otherwise it is idempotent, keeps the number of characters, changes only horizontal whitespace characters, and two texts become equal iff they differ only in which horizontal whitespace character stands at each position.", "quantifier": "every text", "why_tests_cant": "All Unicode texts.", "anchors": ["core/src/text/mod.rs: canonicalize_horizontal_whitespace"]}
{"id": "C21", "title": "Numbers survive being printed and re-read in their format", "statement": "A number printed in a numeric format (%u, %d, %x, %X, optional 0x prefix, precision) is accepted by that format and reads back as the same number.", "quantifier": "every 128-bit number in the format's range and every format", "why_tests_cant": "2^128 numbers times 256 precisions.", "anchors": ["filecheck/src/expr/num.rs: Display for Number, Number::parse_with_format"]}
{"id": "C22", "title": "Implicit format of an expression does not depend on operand order", "statement": "The format inferred for an expression is the same for `a op b` and `b op a`, and is the most precise information available from the operands.", "quantifier": "every pair of formats", "why_tests_cant": "All pairs of formats and precisions.", "anchors": ["filecheck/src/expr/num.rs: Number::infer_expression_format"]}
{"id": "C23", "title": "@LINE is the 1-based line of the offset", "statement": "The pseudo-variable line of an offset is one plus the number of line feeds before it; it is monotone in the offset.", "quantifier": "every text and offset", "why_tests_cant": "All texts.", "anchors": ["filecheck/src/context.rs: pseudo_line_for_offset"]}
{"id": "C24", "title": "Check and comment prefixes are disjoint once validated", "statement": "Option validation succeeds iff no check prefix is also a comment prefix.", "quantifier": "every pair of prefix lists", "why_tests_cant": "All prefix lists.", "anchors": ["filecheck/src/lib.rs: Options::validate"]}
{"id": "C25", "title": "Every check prefix is used unless allowed", "statement": "Parsing succeeds only if every configured check prefix occurred, or --allow-unused-prefixes is given; the prefixes reported as unused are exactly those never seen.", "quantifier": "every prefix list and sequence of recognised directives", "why_tests_cant": "All histories of lexed directives.", "anchors": ["filecheck/src/parse/lexer/mod.rs: unused_prefixes", "filecheck/src/parse/parser.rs: parse"]}
{"id": "C26", "title": "Line table stays consistent under edits", "statement": "After loading a file and applying any sequence of valid edits, the line table equals the one computed from scratch for the current text.", "quantifier": "every initial text and every finite sequence of edits", "why_tests_cant": "Edit histories are unbounded; incremental maintenance errors show up only for particular positions.", "anchors": ["core/src/diagnostics/source_file.rs: SourceContent::update, compute_line_starts"]}
{"id": "C27", "title": "Offset to line/column mapping is exact and invertible", "statement": "For every offset of a file the reported line is the one containing it (1 + number of line feeds before), and converting the line and byte column back yields the same offset.", "quantifier": "every text and offset", "why_tests_cant": "All texts and offsets.", "anchors": ["core/src/diagnostics/source_file.rs: line_index, line_range, line_column_to_offset, location"]}
{"id": "C28", "title": "Lines of a file partition it", "statement": "The line ranges reported for a file are consecutive, disjoint and cover it; each line but the last ends with a line feed and contains no other one.", "quantifier": "every text", "why_tests_cant": "All texts.", "anchors": ["core/src/diagnostics/source_file.rs: line_range, compute_line_starts"]}
{"id": "C29", "title": "Source ids are stable and unambiguous", "statement": "Loading any sequence of files never changes what an earlier id or span denotes; loading the same name and content again returns the same id; lookup by name returns the latest loaded file.", "quantifier": "every sequence of loads", "why_tests_cant": "All load histories.", "anchors": ["core/src/diagnostics/source_manager.rs: DefaultSourceManagerImpl::insert, get, find"]}
{"id": "C30", "title": "Interned symbols denote their strings forever", "statement": "Interning then reading back yields the same string; two symbols are equal iff their strings are; later interning never changes an earlier symbol.", "quantifier": "every sequence of intern operations", "why_tests_cant": "All histories.", "anchors": ["core/src/symbol/mod.rs: Interner"]}
{"id": "C31", "title": "NAME=VALUE parsing", "statement": "A definition string is accepted iff it contains '=' and the text before the first '=' is a valid identifier; the value is everything after the first '='.", "quantifier": "every string", "why_tests_cant": "All strings.", "anchors": ["core/src/variables/mod.rs: Variable::try_parse, is_valid_variable_name"]}
{"id": "C32", "title": "Path tree is a faithful map from paths to values", "statement": "After any sequence of successful insertions, looking up a path returns the last value inserted at the canonicalised path and nothing else; inserted paths are found and never lost by later insertions.", "quantifier": "every sequence of insertions and every queried path", "why_tests_cant": "The tree splits and merges prefixes; all histories matter.", "anchors": ["core/src/fs/path_tree.rs: PathTree::insert, get, contains"]}
{"id": "C33", "title": "Path tree nearest ancestor", "statement": "nearest_ancestor returns a registered directory that is a prefix of the query, and no registered directory between them exists.", "quantifier": "every tree built by insertions and every query", "why_tests_cant": "All histories and queries.", "anchors": ["core/src/fs/path_tree.rs: nearest_ancestor"]}
{"id": "C34", "title": "Path canonicalisation", "statement": "Canonicalising a path removes every `.` and every `..` that follows a normal component, is idempotent, and denotes the same location.", "quantifier": "every component sequence", "why_tests_cant": "All paths.", "anchors": ["core/src/fs/path_tree.rs: PathPrefix / canonicalize"]}
{"id": "C35", "title": "Boolean expressions survive printing and re-parsing", "statement": "Printing any pattern-free feature expression whose names are legal identifiers (other than true and false) and parsing the text yields the same expression; in particular every pattern-free expression that parsing produces survives printing and re-parsing.", "quantifier": "every expression", "why_tests_cant": "All expression trees.", "anchors": ["lit/src/config/expr/boolean.rs: Display, Parser"]}
{"id": "C36", "title": "Boolean expression grammar and meaning", "statement": "Parsing accepts exactly the documented grammar (`!` binds tighter than `&&`, which binds tighter than `||`, parentheses group) and evaluation is the usual boolean meaning over the set of defined features.", "quantifier": "every token sequence and feature set", "why_tests_cant": "All expressions.", "anchors": ["lit/src/config/expr/boolean.rs: Parser, evaluate"]}
{"id": "C37", "title": "REQUIRES / UNSUPPORTED decide exactly", "statement": "A test is reported unsupported because of missing features iff some REQUIRES expression is false, and the listed ones are exactly those; dually for UNSUPPORTED expressions that are true.", "quantifier": "every set of features and list of expressions", "why_tests_cant": "All feature sets.", "anchors": ["lit/src/config/features.rs: missing_features, unsupported_features"]}
{"id": "C38", "title": "Test verdict follows the documented precedence", "statement": "For any test script and feature set the verdict is: unresolved if the script is invalid; else unsupported if a required feature is missing or an unsupported one present; else pass under --no-execute; else the run's result with XFAIL inverting exactly pass and fail.", "quantifier": "every script, feature set, option setting and command outcome", "why_tests_cant": "All combinations of script and outcome.", "anchors": ["lit/src/formats/sh/mod.rs: execute", "lit/src/test/status.rs"]}
{"id": "C39", "title": "Retries are bounded and sound", "statement": "A test is run at least once and at most 1 + ALLOW_RETRIES times; it is rerun only after failures; it is reported flaky-pass iff it failed at least once and finally passed.", "quantifier": "every retry budget and every sequence of run outcomes", "why_tests_cant": "All outcome sequences.", "anchors": ["lit/src/formats/sh/engine.rs: run_test"]}
{"id": "C40", "title": "Substitution lookup and overriding", "statement": "A test-local substitution overrides the suite's one with the same key and nothing else; DEFINE succeeds iff the key is new; REDEFINE iff it already exists unambiguously.", "quantifier": "every scope chain and every sequence of directives", "why_tests_cant": "All histories of directives.", "anchors": ["lit/src/config/substitutions.rs: ScopedSubstitutionSet", "lit/src/formats/sh/script/directives.rs: Substitution::apply"]}
{"id": "C41", "title": "%% escapes are literal", "statement": "After substitution a `%%` in a command is a single `%` and is never treated as part of a substitution key.", "quantifier": "every command text and substitution set", "why_tests_cant": "All texts.", "anchors": ["lit/src/config/substitutions.rs: apply"]}
{"id": "C42", "title": "Configuration inheritance", "statement": "A nested configuration sees its own environment and substitutions over its parent's, its own features plus its parent's, and inherits format, patterns and excludes only if it does not set them; inheritance is associative over a chain of directories.", "quantifier": "every chain of configurations", "why_tests_cant": "All chains.", "anchors": ["lit/src/test/config.rs: inherit"]}
{"id": "C43", "title": "Test selection by filters", "statement": "A test is selected iff its name matches --filter (or none is given) and does not match --filter-out.", "quantifier": "every name and pair of filters", "why_tests_cant": "All names and filters.", "anchors": ["lit/src/config/mod.rs: is_selected"]}
{"id": "C44", "title": "Test script parsing reports every problem and keeps every command", "statement": "Script parsing succeeds iff no directive is malformed and at least one RUN exists; RUN commands are kept in order with `\\` continuations joined; nothing after END. is interpreted.", "quantifier": "every script text", "why_tests_cant": "All texts.", "anchors": ["lit/src/formats/sh/script/parser.rs", "lit/src/formats/sh/script/directives.rs"]}
{"id": "C45", "title": "Test list is a faithful deque", "statement": "Any sequence of push/pop/append/split/drain operations on the test list behaves like the same operations on a plain sequence; its length is exact; iteration visits every element once in order.", "quantifier": "every operation sequence", "why_tests_cant": "All operation sequences, incl. parallel splitting.", "anchors": ["lit/src/test/list.rs"]}
{"id": "C46", "title": "Suite registration", "statement": "A suite set never holds two suites with the same key; registering a duplicate is reported and leaves the set unchanged; the number of tests equals the number yielded by iterating.", "quantifier": "every sequence of registrations", "why_tests_cant": "All histories.", "anchors": ["lit/src/suite/set.rs", "lit/src/suite/registry/default.rs", "lit/src/test/registry/default.rs"]}
{"id": "C47", "title": "Nearest suite", "statement": "The suite chosen for a directory is registered at the closest ancestor of that directory, not above the working directory.", "quantifier": "every directory and set of suites", "why_tests_cant": "All directory trees.", "anchors": ["lit/src/suite/registry/default.rs: find_nearest_suite"]}
{"id": "C48", "title": "Every selected test is run exactly once whatever the schedule", "statement": "With any number of workers and any interleaving, every selected test yields exactly one result unless the run is aborted, and the reported counts do not depend on the interleaving.", "quantifier": "every worker count and schedule", "why_tests_cant": "Interleavings are unbounded.", "anchors": ["litcheck/src/commands/lit.rs: run, execute tests", "lit/src/test/list.rs: Drain"]}
{"id": "C49", "title": "Exit code of lit", "statement": "Having found a suite, the lit command exits successfully iff the run was not aborted, at least one test was selected, and no test result is a failure (unresolved, timeout, fail, unexpected pass); with no suite it exits with 100.", "quantifier": "every multiset of results", "why_tests_cant": "All result sets.", "anchors": ["litcheck/src/commands/lit.rs: collect_results, exit code", "lit/src/test/status.rs: is_failure"]}
{"id": "C50", "title": "Exit code of not", "statement": "`not CMD` succeeds iff CMD ran and exited with a non-zero code without crashing; `not --crash CMD` succeeds iff CMD crashed; a command that cannot be run is a failure.", "quantifier": "every command outcome", "why_tests_cant": "All exit codes and signals.", "anchors": ["litcheck/src/commands/not.rs"]}
{"id": "C51", "title": "Ranges", "statement": "Removing elements from the front or back of a range yields them in order, each once, and shrinks the range by one until it is empty; user ranges are accepted iff they lie within the allowed range.", "quantifier": "every range and bound", "why_tests_cant": "All ranges.", "anchors": ["core/src/range.rs"]}
{"id": "C52", "title": "Line navigation", "statement": "Finding the next line end / next line start from any position in a text returns the first line feed at or after the position (or the end of the text) and the position just past it; searching backwards returns the closest line feed before.", "quantifier": "every text and position", "why_tests_cant": "All texts.", "anchors": ["core/src/text/mod.rs: Newline", "filecheck/src/cursor.rs"]}
{"id": "C53", "title": "Variables captured by a check line are visible to the lines after it, in order", "statement": "Within a block, the environment in which each check line that requires a match is evaluated is exactly the one produced by the previous such line's match: captures are threaded from line to line in file order, none is lost and none comes from a later line.", "quantifier": "for every matcher that meets its contract, every check file and every input", "why_tests_cant": "the environment threads through arbitrarily long sequences and through the nested tree of groups which the compiler builds", "anchors": ["filecheck/src/context.rs: MatchContext", "filecheck/src/check/mod.rs: check_group, check_blocks"]}
{"id": "C54", "title": "Non-strict reading normalises line ends only", "statement": "A file read strictly (check files, inputs of filecheck) is read unchanged; read non-strictly (test scripts, configuration files) each CR LF becomes LF, one final line feed is dropped, and nothing else changes.", "quantifier": "every file content", "why_tests_cant": "all texts, with any mixture of line ends", "anchors": ["core/src/input.rs: Input::read_to_string"]}
{"id": "C55", "title": "Numeric patterns and number parsing agree", "statement": "Every text matched by the regular expression of a numeric format is read by the format as the number it denotes (unless it does not fit into 128 bits), and every number printed in a format is matched by the expression of the format.", "quantifier": "every format, text and number", "why_tests_cant": "all numbers, precisions and casings", "anchors": ["filecheck/src/expr/num.rs: NumberFormat::pattern_nocapture, Number::parse_with_format, Display for Number"]}
{"id": "C56", "title": "Diagnostic excerpts contain what they point at", "statement": "The part of a file shown for a span contains the span, lies within the file, begins at the beginning of the requested number of lines above (or of the file) and ends at the end of the requested number of lines below (or of the file).", "quantifier": "every text, span inside it and numbers of context lines", "why_tests_cant": "All texts, spans and context sizes.", "anchors": ["core/src/diagnostics/source_file.rs: SourceFile::read_span"]}
{"id": "C57", "title": "Path tree iteration", "statement": "Iterating over a path tree yields every entry registered, each path exactly once, with its latest value, and nothing else.", "quantifier": "every history of insertions", "why_tests_cant": "The shape of the tree depends on the whole history of insertions.", "anchors": ["core/src/fs/path_tree.rs: PathPrefixTree::iter, Dfs"]}
{"id": "C58", "title": "Time limits of tests", "statement": "A test is reported as timed out only if a limit is set and its process was still running when it was reached; a process that is running at the limit is stopped then and the test is reported as timed out; otherwise the verdict is the one of the process's exit.", "quantifier": "every process behaviour, limit and polling schedule", "why_tests_cant": "Behaviour over time of arbitrary processes.", "anchors": ["lit/src/utils.rs: ShellCommand::wait_with_timeout"]}
{"id": "C59", "title": "Binaries as tests", "statement": "A test of the executable format is unsupported if one of the format's expressions holds, passes under --no-execute, and otherwise passes iff the binary exits with code zero.", "quantifier": "every binary behaviour, feature set and option setting", "why_tests_cant": "All process outcomes.", "anchors": ["lit/src/formats/executable.rs: execute", "lit/src/utils.rs: wait_with_timeout"]}
{"id": "C60", "title": "The summary accounts for every test", "statement": "At the end of a run, aborted or not, the summary lists every discovered test under exactly one status: the result it came to, Skipped if it was selected but never run, Excluded if it was not selected; the printed total is the number of tests discovered.", "quantifier": "every list of tests, selection, worker count, schedule and point at which the run is aborted", "why_tests_cant": "Which tests are still queued when a run is aborted depends on the schedule.", "anchors": ["litcheck/src/commands/lit.rs: start, collect_results, print_results"]}
{"id": "C61", "title": "Test discovery", "statement": "Given a suite directory, the tests loaded for the suite are, each exactly once, the files at any depth below it that are not hidden, not inside a nested suite's directory, and selected by the suite's patterns and not by its exclusions; nested suites are loaded as suites of their own; every test is reported under its path in the suite.", "quantifier": "every directory tree, pattern set and nesting of suites", "why_tests_cant": "All directory trees, at every depth.", "anchors": ["lit/src/test/registry/default.rs: find, get_file_based_tests, is_file_based_test", "core/src/fs/filesearch.rs: search_directory"]}
{"id": "C62", "title": "Several inputs", "statement": "The tests loaded for a list of inputs are the union of the tests of each input, whatever their order and however often an input is repeated.", "quantifier": "every list of input files and directories, in every order", "why_tests_cant": "All sequences of inputs.", "anchors": ["lit/src/suite/registry/default.rs: load, load_from_path, load_tests_for_suite", "lit/src/suite/mod.rs: filter_by_path"]}
{"id": "C63", "title": "Local configuration", "statement": "A test runs with its suite's settings refined by the lit.local.toml of each directory on the way from the suite's source directory down to the test, in that order, independently of how the test was given on the command line and of what was loaded before it.", "quantifier": "every directory tree, every placement of local configurations, every list of inputs", "why_tests_cant": "All trees and all histories of the cache.", "anchors": ["lit/src/suite/registry/default.rs: get_local_config", "lit/src/config/mod.rs: inherit"]}
{"id": "C64", "title": "Directives of a check file", "statement": "Reading a check file gives one check line for every check directive written in it, in order, and nothing else: a directive is a configured prefix, one of the documented suffixes and an optional modifier list followed by a colon, at the beginning of a line or after white space; the leftmost one of a line counts, comment prefixes hide the rest of their line, and each line means what its own text says.", "quantifier": "every check file text, every set of prefixes, all whitespace options", "why_tests_cant": "All texts and all prefix sets.", "anchors": ["filecheck/src/parse/lexer/mod.rs: Lexer::tokenize, tokenize_check_prefix", "filecheck/src/parse/lexer/patterns.rs: PatternGen, Check", "filecheck/src/parse/parser.rs: CheckFileParser::parse"]}
{"id": "C65", "title": "Parts of a pattern", "statement": "The text of a check pattern is divided into literal text, {{regex}} blocks, [[variable]] blocks and [[#numeric]] blocks in exactly one way, no character is lost or read twice, and closing brackets that belong to a character class inside a block do not end it.", "quantifier": "every pattern text", "why_tests_cant": "All texts, with arbitrarily nested delimiters.", "anchors": ["filecheck/src/parse/lexer/mod.rs: tokenize_check_pattern, is_false_match_end", "filecheck/src/parse/lexer/delimiter.rs: Delimiter"]}
{"id": "C66", "title": "Rejected check files", "statement": "A check file is rejected exactly if one of its directives is malformed: an empty pattern, a non-empty CHECK-EMPTY, a count that is not between 1 and 255, an unclosed or ill-formed block; or if a configured prefix is not used and that is not allowed. A misspelt directive is reported.", "quantifier": "every check file text, every set of prefixes, all options", "why_tests_cant": "All texts.", "anchors": ["filecheck/src/parse/parser.rs: CheckFileParser::parse, parse_check, parse_match_block", "filecheck/src/parse/mod.rs: ParserError"]}
{"id": "C67", "title": "Numeric expressions as written", "statement": "A numeric block is read as it is written: format, captured variable and expression; + and - associate to the left, calls and parentheses nest, and every documented form is accepted.", "quantifier": "every numeric block, expressions of any size", "why_tests_cant": "Expressions are unbounded.", "anchors": ["filecheck/src/parse/grammar.lalrpop: Match, CaptureNumericOrExpr, Expr, Subexpr, NumberFormat", "filecheck/src/parse/lexer/mod.rs: tokenize_capture_or_match"]}
{"id": "C68", "title": "A reported pattern match is a match", "statement": "If a pattern with literal text, regular expressions, captures, substitutions and numeric blocks is reported to match, then the reported bytes lie in the searched range, they are matched by the parts of the pattern one after the other (literal text verbatim, regular expressions by the regex language, a substituted variable by its value, a number by its format and, if there is a constraint, its value), and the variables are bound to what was captured.", "quantifier": "every pattern, input, range, environment and option setting", "why_tests_cant": "Patterns, inputs and environments are unbounded, and the search is a loop with retries.", "anchors": ["filecheck/src/pattern/matcher/matchers/smart/searcher.rs: search_captures, match_parts, match_part", "filecheck/src/pattern/matcher/matchers/regex.rs: RegexMatcher::try_match", "filecheck/src/ast/pattern.rs: CheckPattern::compact", "filecheck/src/pattern/mod.rs: Pattern::compile"]}
{"id": "C69", "title": "Patterns without substitutions find the first match", "statement": "For a pattern which uses no variable, the match which is reported starts at the first place of the range where the pattern matches, and if no match is reported there is none.", "quantifier": "every pattern without substitutions, input, range and option setting", "why_tests_cant": "Absence of an earlier match is a claim about all positions of all inputs.", "anchors": ["filecheck/src/pattern/matcher/matchers/regex.rs: RegexMatcher::try_match", "filecheck/src/ast/pattern.rs: CheckPattern::compact", "filecheck/src/pattern/matcher/matchers/substring.rs: SubstringMatcher::try_match"]}
{"id": "C70", "title": "Patterns with substitutions are found", "statement": "If some bytes of the searched range match a pattern which uses variables, a match is reported, and it is the first one.", "quantifier": "every pattern with substitutions or expressions, input, range and environment", "why_tests_cant": "The claim is about all positions of all inputs, and the search does not backtrack.", "anchors": ["filecheck/src/pattern/matcher/matchers/smart/searcher.rs: search_captures, search_captures_guarded"]}
{"id": "C71", "title": "The search for a pattern ends", "statement": "The search for any pattern in any input ends after finitely many attempts.", "quantifier": "every pattern, input, range and environment; every number of attempts", "why_tests_cant": "Termination cannot be observed by a test.", "anchors": ["filecheck/src/pattern/matcher/matchers/smart/searcher.rs: search_captures, search_captures_guarded, reset"]}
{"id": "C72", "title": "The value of a numeric expression", "statement": "A numeric expression evaluates to its value in the arithmetic of the integers; an overflow or a division by zero is reported as an error.", "quantifier": "every expression of any size, every environment and line", "why_tests_cant": "Expressions and values are unbounded.", "anchors": ["filecheck/src/pattern/matcher/matchers/smart/searcher.rs: evaluate_expr"]}
{"id": "C73", "title": "Undefined variables never match", "statement": "A pattern which needs the value of a variable that is not defined and that no earlier part of the pattern captures is never reported to match.", "quantifier": "every pattern, input and environment", "why_tests_cant": "All patterns and inputs.", "anchors": ["filecheck/src/pattern/matcher/matchers/smart/searcher.rs: evaluate_expr, match_substitution"]}
{"id": "C74", "title": "Captured values", "statement": "After a reported match every captured variable has the text which its part matched, or the number which this text denotes in its format, and all other variables keep their values.", "quantifier": "every pattern, input and environment", "why_tests_cant": "All patterns, inputs and environments.", "anchors": ["filecheck/src/pattern/matcher/matchers/smart/searcher.rs: match_parts, match_number, match_regex_with_captures", "filecheck/src/pattern/matcher/matchers/smart/operand.rs: as_numeric", "filecheck/src/pattern/matcher/result.rs: bind_captures_in"]}
{"id": "C75", "title": "Failed matches bind nothing", "statement": "A search which fails leaves all variables as they were.", "quantifier": "every pattern, input and environment", "why_tests_cant": "All patterns and all ways to fail.", "anchors": ["filecheck/src/pattern/matcher/matchers/smart/searcher.rs: search_captures", "filecheck/src/pattern/matcher/matchers/smart.rs: try_match_mut", "filecheck/src/pattern/matcher/matchers/regex.rs: try_match_mut"]}
{"id": "C76", "title": "CHECK-NOT groups with regular expressions", "statement": "A group of consecutive CHECK-NOT lines is violated if and only if one of the patterns, with the variables bound before the group, matches some text between the matches before and after the group; the violation reported is a match of the pattern of the line reported.", "quantifier": "every group of patterns, every input and range", "why_tests_cant": "All groups of regular expressions and all inputs.", "anchors": ["filecheck/src/pattern/matcher/matchers/any.rs: MatchAny", "filecheck/src/pattern/matcher/matchers/regex_set.rs: RegexSetMatcher, RegexSetSearcher", "filecheck/src/pattern/matcher/matchers/all.rs: MatchAll::compile"]}
{"id": "C77", "title": "CHECK-DAG groups with regular expressions", "statement": "A group of consecutive CHECK-DAG lines passes only if there are non-overlapping matches of all of its patterns, in any order, after the previous match; and matching goes on at the end of the last of them.", "quantifier": "every group of patterns, every input and range", "why_tests_cant": "All groups of patterns and all inputs.", "anchors": ["filecheck/src/rules/dag.rs: CheckDag::apply", "filecheck/src/pattern/visitors/static.rs: try_match_all", "filecheck/src/pattern/visitors/dynamic.rs: try_match_all"]}
{"id": "C78", "title": "Groups are always decided", "statement": "Compiling a group of CHECK-NOT or CHECK-DAG lines and looking for it in an input neither panics nor goes on for ever.", "quantifier": "every group of patterns, every input, range and environment", "why_tests_cant": "All groups, inputs and environments; a run which does not end cannot be observed.", "anchors": ["filecheck/src/pattern/matcher/matchers/all.rs: MatchAll::compile", "filecheck/src/pattern/matcher/matchers/any.rs: try_match_searcher, try_match_suffix", "filecheck/src/pattern/search/pattern_set.rs: PatternSetSearcher::try_match_next", "filecheck/src/pattern/visitors/dynamic.rs: try_match_all"]}
{"id": "C79", "title": "A passing test satisfies its check file", "statement": "If a test passes, the text of its check file is read as check lines, and there are places in the input for all of them which satisfy the requirements of the directives (C01, C03-C09) with the meaning of the patterns written on the lines (C68), variables having the values captured before.", "quantifier": "every text of a check file, every input, every value of the options", "why_tests_cant": "All check files and inputs, from the text to the verdict.", "anchors": ["filecheck/src/test/mod.rs: Test::verify", "filecheck/src/parse/parser.rs", "filecheck/src/check/program.rs", "filecheck/src/check/mod.rs"]}
{"id": "C80", "title": "Text variables on the command line", "statement": "-D NAME=TEXT is accepted exactly if NAME is a name ([A-Za-z_][A-Za-z0-9_]*); the variable is then the text after the first '=', whatever it contains, under NAME and under $NAME, and the last definition of a name counts. A command line is rejected as soon as one definition is malformed.", "quantifier": "every text given to -D, every list of them, every history of captures and scopes", "why_tests_cant": "All texts and all histories.", "anchors": ["filecheck/src/expr/cli.rs: CliVariable::try_parse", "core/src/variables/mod.rs: Variable::try_parse, is_valid_variable_name", "filecheck/src/env.rs: Env::from_config"]}
{"id": "C81", "title": "Numeric variables on the command line", "statement": "-D #NAME=EXPRESSION and -D #%FORMAT,NAME=EXPRESSION are accepted exactly if they are written according to the grammar of expressions, blanks between tokens being irrelevant, and define the expression which is written, in the format which is asked for.", "quantifier": "every text given to -D", "why_tests_cant": "All texts; two readings of one text must be excluded.", "anchors": ["filecheck/src/expr/parser.rs: Token, NumericVarParser", "filecheck/src/expr/grammar.lalrpop", "filecheck/src/expr/cli.rs: CliVariable::try_parse"]}
{"id": "C82", "title": "The value of a numeric variable of the command line", "statement": "Reading a variable which was defined by an expression ends, gives the value of the expression, and is reported if a variable in it is undefined. A variable defined by a constant expression stands for the same text as a variable bound to the number.", "quantifier": "every list of definitions, every history of captures, every expression and format in a pattern", "why_tests_cant": "Termination and values for all systems of definitions.", "anchors": ["filecheck/src/pattern/matcher/matchers/smart/searcher.rs: evaluate_expr, match_substitution", "filecheck/src/expr/value.rs: Value", "filecheck/src/env.rs: Env::from_config"]}
{"id": "C83", "title": "Check files without CHECK-DAG mean: first matches, in order, without backtracking", "statement": "A test whose check file has no CHECK-DAG passes exactly if the check file is not empty and does not start with a relative check, the input is not empty (or may be), and: the labels are found first, each one at its first match after the start of the block before it; inside each block the checks are taken one after the other, CHECK taking the first match in the rest of the block, CHECK-NEXT the first match on the next line, CHECK-SAME the first match in the rest of the line, CHECK-EMPTY an empty next line, CHECK-COUNT-n n first matches in a row; and no CHECK-NOT pattern occurs between the check before it and the match after it (or the end of the block). Nothing is tried again.", "quantifier": "every check file without CHECK-DAG and every input", "why_tests_cant": "An exact characterisation of the accepted inputs, in both directions, for all check files and inputs.", "anchors": ["filecheck/src/check/mod.rs: check_input, discover_blocks, check_blocks, check_group, check_group_tree, check_not", "filecheck/src/rules/plain.rs", "filecheck/src/rules/next.rs", "filecheck/src/rules/same.rs", "filecheck/src/rules/empty.rs", "filecheck/src/check/program.rs: compile, compile_lines, compile_blocks", "filecheck/src/test/mod.rs: Test::verify"]}
{"id": "C84", "title": "Files below an input", "statement": "Listing the files below a directory (by type, or by a glob pattern) ends, and gives the matching files below it, each once; for a file it gives the file if it matches.", "quantifier": "every directory tree, input and list of types or pattern", "why_tests_cant": "The claim is about every directory tree; the listing is recursive.", "anchors": ["core/src/input.rs: Input::get_file_types, Input::glob, Input::glob_pattern"]}
{"id": "C85", "title": "The value of @LINE", "statement": "In a check line, @LINE is the number of the line of the check file on which the directive is written, counted from 1, wherever in the pattern it stands; blank lines, comments and lines without a directive are counted.", "quantifier": "every check file which is accepted, every prefix configuration, every check line of it and every place in its pattern", "why_tests_cant": "The lexer skips white space, comments and text without directives in many ways; the claim is about every text.", "anchors": ["filecheck/src/context.rs: pseudo_line_for_offset", "filecheck/src/parse/lexer/mod.rs: Lexer::tokenize", "filecheck/src/pattern/matcher/matchers/smart/searcher.rs: evaluate_expr"]}
{"id": "C86", "title": "Without --strict-whitespace the kind of horizontal white space does not matter", "statement": "Without --strict-whitespace, replacing a space of a check pattern or of the input by a tab, or the reverse, does not change whether the test passes.", "quantifier": "every check file, every input, every replacement of horizontal white space", "why_tests_cant": "It relates the verdicts of all pairs of check files and inputs which differ in white space.", "anchors": ["filecheck/src/lib.rs: Config::strict_whitespace", "core/src/text/mod.rs: canonicalize_horizontal_whitespace", "filecheck/src/pattern/matcher/matchers/substring.rs: SubstringMatcher::new_with_start_kind", "filecheck/src/pattern/matcher/matchers/substring_set.rs: SubstringSetMatcher::new"]}
{"id": "C87", "title": "--match-full-lines", "statement": "With --match-full-lines every match of a positive check covers a whole line, up to white space at its ends.", "quantifier": "every check file, every input", "why_tests_cant": "It is a claim about the place of every match in every input.", "anchors": ["filecheck/src/lib.rs: Config::match_full_lines", "filecheck/src/parse/lexer/mod.rs: Lexer::tokenize_check_pattern"]}
{"id": "C88", "title": "--ignore-case", "statement": "With --ignore-case, changing the case of letters in the input, or in the text of check patterns, does not change whether the test passes.", "quantifier": "every check file, every input, every change of case", "why_tests_cant": "It relates the verdicts of all pairs of check files and inputs which differ in case.", "anchors": ["filecheck/src/lib.rs: Config::ignore_case", "filecheck/src/pattern/matcher/matchers/substring.rs: SubstringMatcher::try_match", "filecheck/src/pattern/matcher/matchers/regex.rs: RegexMatcher::new", "filecheck/src/pattern/search/substring_set.rs: SubstringSetSearcher::new"]}
{"id": "C89", "title": "The substitutions every test has", "statement": "Whatever a suite and its format define, in the commands of a test %s is the path of the test file, %S its directory, %t a path in the test's temporary directory which is named after the test file and ends with .tmp, %basename_t the name of the test file, and %% a percent sign; every other key has the value the format gives it or, failing that, the suite.", "quantifier": "every suite, format, test file and key", "why_tests_cant": "All sets of substitutions of suites and formats, which may define the same keys.", "anchors": ["lit/src/formats/sh/mod.rs: ShTest::execute", "lit/src/config/substitutions.rs: ScopedSubstitutionSet::extend, get"]}
{"id": "C90", "title": "The verdict depends only on the variables asked for", "statement": "A check file asks for the value of a variable with [[X]] and in numeric expressions. If two environments (from -D definitions, or earlier captures) agree on every variable asked for, the verification of the same input ends the same way with both: the same verdict with the same matches and diagnostics, or the same panic; in particular, defining a variable which the check file does not ask for has no effect, even if the check file captures a variable of that name.", "quantifier": "every check file, option, input and pair of environments", "why_tests_cant": "Unbounded pairs of executions (a noninterference property) over all check files and inputs.", "anchors": ["filecheck/src/test/mod.rs: Test::verify", "filecheck/src/env.rs: LexicalScope", "filecheck/src/pattern/matcher/matchers/smart/searcher.rs: SmartSearcher", "core/src/variables/mod.rs"]}
{"id": "C91", "title": "The exit code of filecheck", "statement": "The filecheck command exits with 0 exactly if no check prefix is also a comment prefix and either only the help on dumps was asked for, or both the check file and the input can be read (a path - is the standard input, which can be read once) and the input passes the test with the options given; in the second case the input satisfies the check file.", "quantifier": "every set of options, contents of files and standard input, and pair of paths", "why_tests_cant": "All option sets, check files and inputs, and the composition of the whole pipeline from options to verdict.", "anchors": ["litcheck/src/commands/filecheck.rs: FileCheck::run", "litcheck/src/main.rs: main, run", "filecheck/src/lib.rs: Options::validate", "core/src/input.rs: Input::into_source, read_to_string", "filecheck/src/test/mod.rs: Test::verify"]}
{"id": "C92", "title": "The order of prefixes does not matter", "statement": "Giving the check or comment prefixes in another order, or one of them several times, changes neither the check lines that are read from a check file, nor their line numbers, nor the exit code of filecheck; in the library this holds for any order of prefixes without repetition.", "quantifier": "every list of prefixes the command line admits and its permutations and repetitions, every check file and input", "why_tests_cant": "All permutations of all lists of prefixes, some of which are beginnings of others, over all texts.", "anchors": ["litcheck/src/commands/filecheck.rs: FileCheck::run", "filecheck/src/lib.rs: prefix_value_parser", "filecheck/src/parse/lexer/mod.rs: Lexer::new, tokenize, unused_prefixes", "filecheck/src/parse/lexer/patterns.rs: Pattern::generate_check_patterns, generate_comment_patterns", "core/src/symbol/mod.rs: Ord for Symbol"]}
{"id": "C93", "title": "The output of a test is collected whole, and collecting it never blocks the test", "statement": "When lit runs a test's script by feeding it to a shell on its standard input, then for every way the shell and lit's threads can be scheduled and for every size of the operating system's pipes the run goes on until the process has ended, and the captured standard output and error output are then exactly the bytes the process writes, in order, when its standard input is the whole script.", "quantifier": "all processes (any interleaving of reads and writes depending on what was read), all scripts, all pipe capacities, all schedules of the writer thread, the process and the two reader threads", "why_tests_cant": "the number of interleavings is unbounded and a deadlock depends on pipe sizes and scheduling; a test sees one schedule of one process", "anchors": ["lit/src/utils.rs: ShellCommand::wait_with_timeout, ShellCommand::pipe_stdin, read", "lit/src/formats/sh/engine.rs: run_once"]}
{"id": "C94", "title": "Entries below a path", "statement": "Asking a path tree for the children of a path gives the entries at that path and below it, each once and in the order of iteration, with the value inserted last; with a depth limit, those with no more than that many additional path components.", "quantifier": "every history of insertions, every path and limit", "why_tests_cant": "All shapes of trees: the answer must not depend on how the entries are grouped internally.", "anchors": ["core/src/fs/path_tree.rs: PathPrefixTree::children, Dfs, DfsVisitor"]}
{"id": "C95", "title": "Arithmetic of positions", "statement": "Line and column numbers are at least 1. The number of an index is one more than the index, and going back gives the index. Adding to or subtracting from a byte, line or column position gives the exact result if that is a position (fits in 32 bits, and is not zero for numbers); otherwise the checked operations give nothing, the saturating ones the nearest position, and the operators panic. No operation ever makes a position which is not one.", "quantifier": "all positions and all offsets", "why_tests_cant": "The interesting values are at the ends of a range of 2^32 values, and behave differently in builds with and without overflow checks.", "anchors": ["core/src/diagnostics/source_file.rs ByteIndex, LineIndex, LineNumber, ColumnIndex, ColumnNumber, ByteOffset"]}
{"id": "C96", "title": "Looking for a pattern never aborts", "statement": "Compiling a pattern of a check line and looking for it in an input ends in a match, in no match or in a diagnostic, and never in a panic: for every well-formed pattern whose numeric expressions cannot divide by zero (and, in builds with overflow checks, cannot overflow), and for every input, range and assignment of variables. Known exceptions of the code: division by zero, overflow in checked builds, an alternative in a regular expression before a capture, a precision larger than the digits of 128 bits.", "quantifier": "all well-formed patterns with literals, regular expressions, captures, uses and numeric expressions; all inputs (any bytes), ranges, values of variables, options; any number of attempts of the search", "why_tests_cant": "a panic depends on the combination of pattern, bytes of the input and values of variables (for example whether a group took part in a match, or whether the captured bytes are text); tests sample a few of them", "anchors": ["filecheck/src/pattern/matcher/matchers/smart/searcher.rs: SmartSearcher", "filecheck/src/pattern/matcher/matchers/smart.rs: SmartMatcher::try_match_mut", "filecheck/src/pattern/matcher/matchers/regex.rs: RegexMatcher::try_match", "filecheck/src/pattern/matcher/matchers/smart/searcher.rs: evaluate_expr"]}
{"id": "C97", "title": "The printed report", "statement": "At the end of a run the printed report, read line by line, lists every discovered test exactly once, by name, under a title with its status and the right number; with --quiet it lists exactly the failures; the total is the sum of the numbers in the table; if the run was not aborted, the exit code is 0 iff no group of failures is printed. As each test ends, a line with its status and name is printed, unless it is not a failure and --quiet is given without --all; with --verbose or --all a failing test's output is printed whole; printing never panics.", "quantifier": "every run (tests, selection, workers, schedule, point of abortion), all names of one line, all results and outputs, every choice of --quiet, --verbose, --all", "why_tests_cant": "All combinations of results, counts of every width, names and outputs.", "anchors": ["litcheck/src/commands/lit.rs: print_results, TestRunner::run", "lit/src/test/result.rs: Display for TestResult", "lit/src/test/status.rs: tag, label"]}
{"id": "C98", "title": "The environment of a test", "statement": "A test's process runs in its suite's working directory; every variable of the test's configuration has the configured value in it and all other variables are those of lit; a program which the test runs by name is found in the first of the directories given with --path, in the order given, which has it, and otherwise where lit itself would find it; the test ends with an error, and nothing is started, exactly if one of these directories has a colon in its name.", "quantifier": "all environments of lit (with or without PATH), all configured environments without repeated names, all lists of directories given with --path, all names of programs and contents of directories", "why_tests_cant": "Tests inherit one environment; the claim is about every combination of inherited, configured and search-path values.", "anchors": ["lit/src/utils.rs: ShellCommand::paths, ShellCommand::envs", "lit/src/formats/sh/engine.rs: run_once", "lit/src/formats/executable.rs: ExecutableTest::execute"]}
{"id": "C99", "title": "Listing tests and suites", "statement": "show-tests prints, one per line, exactly the tests which run with the same inputs would hand to its workers (and which its report lists), each once with its name and format; show-suites prints each suite which was loaded once, with the number of its tests, and these numbers add up to the number of all tests; neither panics; if no suite is found, nothing is listed or run and the exit code is 100, otherwise a listing exits with 0. The filters on the names of tests select the tests listed.", "quantifier": "all disks, configurations, inputs and filters; all names, paths, features, substitutions and environments without line feeds; all schedules of the run compared with", "why_tests_cant": "The agreement of two subcommands on every tree of suites, with any numbers of suites and tests, is not a matter of samples.", "anchors": ["litcheck/src/commands/lit.rs: Lit::run, show_tests, show_suites", "lit/src/suite/registry/default.rs: tests, suites, size_of_suite, into_iter"]}
{"id": "C100", "title": "Variables on CHECK-LABEL lines are refused", "statement": "A check file with a CHECK-LABEL line which captures or uses a variable ([[X]], [[X:...]], [[#X:]], [[#expr]]) is refused as invalid whatever the input, the options and the definitions are; so whenever a test gets a verdict about its input, every label is text, {{...}} and [[#]] only: what it matches does not depend on the values of variables, and finding it changes none of them.", "quantifier": "all check files, inputs, options and definitions", "why_tests_cant": "The rule must hold for every mixture of parts on the line, in every position, also where parts before or after are turned into one regular expression and captures could be lost in it.", "anchors": ["filecheck/src/pattern/mod.rs: compile_static", "filecheck/src/ast/pattern.rs: CheckPattern::compact", "filecheck/src/check/program.rs: compile_rule"]}
{"id": "C101", "title": "Spans of source files stand for parts of their text", "statement": "A span made from a range of byte positions stands for exactly the text between them: making it succeeds exactly if both positions are below 2^32, and then its start, end, length, emptiness and the text it selects are those of the range; selecting text by a span outside of the file panics instead of selecting anything else. A span that is shifted or extended stands for the same text after text is put in front of it, or for what it stood for and what follows. Values which carry spans are compared without regard to them.", "quantifier": "all byte positions, source ids, texts below 4 GiB, spans, offsets and values, in builds with and without overflow checks", "why_tests_cant": "Positions range over 64-bit integers and texts are arbitrary; the faults are at the limits (truncation to 32 bits, reversed ranges, shifts to the left of the start).", "anchors": ["core/src/diagnostics/span.rs: SourceSpan::try_from_range, from_range_unchecked, at, len, is_empty, into_range, Index, RangeBounds, Span::at, Span::shift, Span::extend, PartialEq, Ord"]}
{"id": "C102", "title": "Reading the searchable part of an input", "statement": "The part of an input which is searched is the text between its start and its end. Whatever uses are made of an input (restricting it to a range, moving its start, anchoring it, reading from it), its text stays the same and the part ends within it. Reading it byte by byte gives each byte of the part with its place, in order, and then no more; reading it character by character gives each character with the place where it begins, and then no more; peeking gives what would be read next.", "quantifier": "all texts, all sequences of uses of an input, all numbers of reads", "why_tests_cant": "The bounds are changed by arbitrary sequences of calls, and the faults are where they meet: a start beyond the end, a start within a character.", "anchors": ["filecheck/src/input.rs: Input::new, bounded, set_start, set_bounds, as_slice, pop_byte, peek_byte, pop, peek"]}
{"id": "C103", "title": "Uses of a cursor", "statement": "Whatever uses are made of a cursor on a text (setting bounds, moving its start, moving to the end or to positions which were asked for before, resetting, consuming newlines, and using guards which are saved or dropped), the text stays the same and what is left of the block is a part of it; nothing panics but setting bounds which are not those of a part of the text. What is left of the line is the text up to the next line ending or the end of the block. Setting bounds makes the block what is between them, and moving the cursor does not leave it. Moving to a position which was asked for makes the cursor what it was then; resetting makes it what it was when it was new; consuming a newline moves behind the next line feed. Dropping a guard leaves the cursor as it was; saving it puts the cursor where the guard is.", "quantifier": "all texts, all sequences of uses, guards nested to any depth", "why_tests_cant": "The end of the line is cached, and is right or wrong depending on all uses before; guards restore states of earlier points of the history.", "anchors": ["filecheck/src/cursor.rs: Cursor, CursorPosition, CursorGuard"]}
