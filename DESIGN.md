# Formal model of bitwalker/litcheck in Lean 4

## Layout

* `lean/Verif/Model/*.lean`  executable model, one file per source component; every definition cites
  the file and lines of `/repo` it models and names its simplifications.
* `lean/Verif/Spec/*.lean`   small specifications (what a position, an occurrence, a line, a map ... is),
  written without the model's helpers.
* `lean/Verif/Proofs/*.lean` helper lemmas.
* `lean/Verif/Props/*.lean`  the property theorems, one file per component, each with witness `example`s
  showing that its hypotheses are met by a concrete non-trivial case.
* `MANIFEST.json` maps property ids to theorem names; `seeded/LOG.jsonl` logs the mutation tests.

## Trusted base

* Lean 4.33.0 kernel; axioms used by theorems: at most `propext`, `Classical.choice`, `Quot.sound`
  (checked with `#print axioms`). No axioms of our own, no compiled-code decision procedures.
* The reading of the Rust source: the model was written by hand from the text of `/repo`; nothing ties it
  mechanically to the code. Every definition cites its source.
* Modelling conventions: `usize`/`u32` are `Nat` (no wrap-around) unless stated; `Vec`/`SmallVec`/slices
  are `List`; `BTreeMap`/`HashMap` are association lists or functions; a panic (`assert!`, `unwrap`,
  slice out of range) is an explicit outcome `panic`; `&mut self` methods return the new value; byte
  buffers are `List Nat`/`List UInt8`-like lists of bytes.
* External code. A parameter (what is assumed of it is a hypothesis of the theorem): the operating system (processes, files,
  clock), `rayon`, `clap`, `toml`, glob matching, `regex` in boolean expressions and substitution keys of lit.
  Modelled by its documented behaviour: `aho_corasick` (leftmost, first pattern on ties), `memchr`, and the part of
  `regex_automata` which the meta engine offers for the fragment of syntax in `Model/Regex` (leftmost-first semantics,
  named groups); its correctness with respect to `Spec/Regex` is proved, its agreement with the crate is assumed.

### Which code is modelled

| source | model | not modelled |
|--------|-------|--------------|
| `core/src/diagnostics/{source_file,selection,location,source_manager,filename,span}.rs` | `Source`, `Manager`, `Position`, `Span` | `Uri` parsing, miette glue, 32-bit overflow |
| `core/src/symbol`, `core/src/variables`, `core/src/range.rs`, `core/src/text` | `Text`, `Range`, `Options`, `Manager` | display wrappers, type-erased variables |
| `core/src/fs/path_tree.rs`, `core/src/fs/{filesearch,glob}.rs` | `PathTree`, `Registry` | symbolic links, names which are not UTF-8, `children` with a depth |
| `core/src/input.rs`, `filecheck/src/input.rs`, `filecheck/src/cursor.rs` | `Filecheck`, `Cursor`, `CursorUse`, `Input`, `Line`, `Walk` | reading errors |
| `filecheck/src/parse/*` (lexer, grammar, parser) | `Lexer`, `Grammar`, `Parser` | spans and texts of diagnostics, the generator lalrpop (the grammar is modelled by hand), prefixes with regex special characters |
| `filecheck/src/check/program.rs`, `filecheck/src/check/mod.rs` | `Program`, `Check`, `Filecheck` | rendering |
| `filecheck/src/rules/*`, `filecheck/src/pattern/visitors/{static,dynamic}.rs`, `matchers/{all,any,substring,substring_set,regex_set,simple}.rs`, `filecheck/src/pattern/search/{substring_set,pattern_set}.rs`, `filecheck/src/pattern/prefix.rs` | `Rules`, `Match`, `Literal`, `Sets` | the order in which the automaton of `regex_set.rs` reports patterns which end at the same place |
| `filecheck/src/pattern/mod.rs`, `filecheck/src/ast/pattern.rs`, `matchers/{regex,smart,always,whitespace}.rs`, `matchers/smart/*` | `Pattern`, `Smart`, `Regex` | Unicode classes and case folding, inline flags |
| `filecheck/src/expr/*`, `filecheck/src/env.rs`, `filecheck/src/context.rs` | `Number`, `Env`, `Smart`, `Cli` | positions of expressions (`@LINE` inside a command line definition is one given number) |
| `filecheck/src/test/*`, `filecheck/src/errors.rs`, `filecheck/src/lib.rs` | `Filecheck`, `Options`, `Match` | texts of diagnostics |
| `lit/src/config/*` | `BoolExpr`, `Config`, `Substitutions` | TOML decoding (a parsed configuration is a parameter) |
| `lit/src/formats/*`, `lit/src/utils.rs` | `Script`, `Execute`, `Pipes`, `Environ` | the shell |
| `lit/src/suite/*`, `lit/src/test/*` | `Registry`, `TestList`, `Runner`, `Report` | progress bar, colours |
| `litcheck/src/commands/*` | `Runner`, `Report`, `Listing`, `Execute` | argument parsing by clap |

### Faults of the code found while proving

Each is a theorem with the suffix `_refuted` (a concrete witness on the model). Some of them: constraints of numeric
captures are never enforced (C68); a substituted value is read as a regular expression (C68); `{{a|b}}c` is compiled
to `a|bc` (C68); the search for `{{.*}}[[X]]` can go on for ever (C71); matches of patterns with variables are missed when an
earlier attempt overlaps, and a capture at the very end of the input fails (C70); division by zero panics (C72); CRLF inputs
break the line directives (C01, C03-C07, C09, C10, C13; check files without `CHECK-NEXT`, `CHECK-SAME`, `CHECK-EMPTY` and `CHECK-LABEL` are checked correctly, `Proofs/Lineless`: the run does not depend on what the cursor knows about lines); a CHECK-DAG pattern given twice needs one match only (C08); `--implicit-check-not`
is not applied in labelled blocks (C18); several panics (`CHECK{LITERAL}:` without text, empty matches of labels and of CHECK-SAME, …: C13, C38, C47, C59); suites and local configurations are lost
depending on the order of the inputs (C47, C61-C63); process limits are not enforced (C58); failing tests can be missing
from the summary (C60); repeated or overlapping `CHECK-NOT`/`CHECK-DAG` patterns panic, loop for ever or hide one another (C76-C78); numeric
definitions on the command line: `#X=X+1` recurses until the stack overflows, an undefined variable in one panics, its format is
forgotten, and `5-3` is refused (C81, C82); a file called `stdin` is taken for the standard input, and all paths which are not Unicode for one file (C29);
listing the files below a directory never ends (C84); literal `CHECK-DAG` lines do not obey `--ignore-case` (C88); `--match-full-lines` is
not implemented (C87); without `--strict-whitespace` a space does not match a tab, and a tab in a check line cannot match a tab (C86); a test's script is written to the shell before anything
reads the shell's output or looks at the clock, so that a script larger than a pipe can block lit for ever (C93); the standard input given as `-` to both arguments is read
once and the second reading is empty (C91); a pattern of blanks only is compared with the start of the range only (C69); the depth limit of `children` of a path tree is not counted from the path (C94); the start of an input can be set beyond its end, after which it cannot be read, and a part which begins within a character reads as NULs for ever (C102); after `consume_newline` the end of the line is before the cursor, and the bounds of a cursor do not confine its start (C103); spans truncate positions beyond 2^32 (C101); line and column numbers are made of a zero, which is undefined behaviour, when a sum overflows in a build without checks, and a byte index plus an offset wraps in every build (C95); overlapping matches of `CHECK-DAG` lines let an input pass which does not satisfy the check file (C79); `{{a|b}}[[X:c]]` before the use of a variable aborts when the alternative without the capture matches, and so does a numeric capture with a precision larger than 39 and a constraint (C96); canonicalising a path through a link may give a path which is not canonical (C34); `PATH` in a test's configuration is ignored, and if lit has none its tests get an empty component, which is their own directory (C98); `--filter` and `--filter-out` have no effect on `show-tests` and `show-suites` (C99).

## Per property plan

(see properties.jsonl for the statements)

| id | model | proof |
|----|-------|-------|
| C01 | `Model/Check`: `check_group` Ordered over cursor + rules, matcher oracle | induction over the rule list, cursor invariant |
| C02 | same + concrete substring matcher | exchange argument: leftmost greedy is complete |
| C03-C05 | rules next/same/empty over the cursor model | cursor `eol` invariant |
| C06 | `check_tree`, `check_not` | case analysis over tree shapes |
| C07 | Repeated group | induction on the count |
| C08 | static DAG visitor, `MatchAll::compile` | invariant over visitor; refutations for the bugs found |
| C09, C10 | `discover_blocks` | induction over labels |
| C11 | `TestResult` accumulator, `check_blocks` | induction over results |
| C12 | `check_input` | direct |
| C13 | whole checker with explicit panic outcome | refuted by concrete witnesses; from the text of the check file to a verdict for plain, orderly files (`Spec/Orderly`, `Proofs/Tame*`): an invariant of the cursor (start ≤ stop, line end inside the block) kept by every rule and group, and totality of the compilers of lines and groups; captures and uses of variables are allowed outside of groups (`Calm`: no panic by C96, an end by C71) |
| C14, C15 | `Env`, `ScopeGuard` | refinement to map overriding |
| C16-C18 | `compile_lines`, `compile_blocks` | induction over the line list |
| C19 | substring matcher | induction over the haystack |
| C20 | whitespace canonicalisation | list map |
| C21, C22 | `Number`, `NumberFormat` | digit lemmas; refutations where code truncates |
| C23 | `pseudo_line_for_offset` | induction |
| C24 | `Options::validate` | case analysis |
| C25 | lexer prefix bookkeeping | induction over directives |
| C26-C28 | `SourceContent` | list lemmas on line starts; refutation for non-canonical positions |
| C29 | source manager | invariant over loads |
| C30 | interner | invariant over interning |
| C31 | variable parsing | list lemmas |
| C32-C34 | path tree | refinement to finite map |
| C35, C36 | boolean expression tokenizer/parser/printer/evaluator | structural induction |
| C37 | features | list lemmas |
| C38 | sh test format decision logic | case analysis |
| C39 | retry loop | induction over the budget |
| C40, C41 | substitution sets | map laws; text-level lemmas |
| C42 | config inheritance | map laws |
| C43 | is_selected | direct |
| C44 | script parser | induction over lines |
| C45 | test list | refinement to lists |
| C46, C47 | suites | invariant, walk over ancestors |
| C48 | worker pool as a transition system | invariant over schedules |
| C49 | result collection and exit code | direct |
| C50 | `not` | case analysis |
| C51, C52 | ranges, newlines | arithmetic, list lemmas |
| C53 | environment threading through the checker | induction over the checked lines; a group of `CHECK-DAG` lines threads the variables from match to match in the order of the places (`DagThreaded`, `InTurn`) |
| C54 | reading of input | list lemmas |
| C55 | numeric patterns and number parsing | language of a format, digit lemmas |
| C56 | excerpts of diagnostics | arithmetic over spans |
| C57 | path tree iteration | induction over trees |
| C58, C59 | processes as traces | case analysis; refutations |
| C60 | summary of a run | accounting over results |
| C61-C63 | suite registry over a disk | invariant over the inputs; refutations |
| C64-C67 | lexer, grammar and parser of check files against a line-by-line specification | simulation of the lexer, induction over texts |
| C68 | pattern compiler (`compact`, `compile`) and `SmartSearcher` | segments of the pattern against their meaning, induction over the operations |
| C69 | the same, patterns without variables | leftmost search is complete |
| C70 | the same | refuted; single substitutions by the leftmost search; patterns of words by induction on the attempts: an attempt skips no match unless the words found overlap themselves |
| C71 | the loop of `search_captures`, with a number of attempts | attempts after the end are all the same: the loop ends early or never |
| C72 | `evaluate_expr` | structural induction, two's complement arithmetic |
| C73-C75 | environments in C68 | corollaries of the meaning of patterns |
| C76-C78 | `Model/Sets`: compilation of groups, searchers of sets, static and dynamic visitors | all matches of a set by their ends; invariant of the visitor; runs which come back to the same state for the refutations; for `CHECK-NOT` lines with variables behind texts which cannot overlap (`Spec/Guarded`): the searcher visits each occurrence of a text, and the anchored run at its end decides the rest (`Proofs/NotWords`); the variables captured by a group of `CHECK-DAG` lines by `DagThreaded` |
| C79 | text of the check file → lines → compiled lines → verdict | composition of C65-C68, C76, C77 with the theorem about layouts (C01-C10); `Props/Unsatisfied` has a passing test whose input does not satisfy the check file (C79, C91) |
| C80 | `-D NAME=TEXT`: splitting, names, the environment of a run | equivalence with a specification of the text; history theorem of C14 |
| C81 | lexer and grammar of numeric definitions | both directions between the lexer and a relation "is written as these tokens"; the grammar of C67 |
| C82 | evaluation where variables hold expressions, with the depth of the recursion as a parameter | both directions with a big-step relation; a rank on names; induction on expressions for constants |
| C83 | the whole checker against a recursive specification of first matches (`Spec/FirstMatch`) | every rule, group, tree and block exactly, both directions (`Proofs/Exact*`); totality of the compiler; from the text, for files without uses of variables (`Proofs/ExactText`; what is captured is always UTF-8, `Proofs/CaptureText`); false of CRLF inputs (`C83_crlf_refuted`) |
| C84 | directory trees, nested calls bounded by a depth (`Model/Walk`) | no depth is enough: induction on the depth |
| C85 | the places of the patterns in the text, and the line feeds before them (`Model/Lines`; `Spec/LineNumbers` numbers the lines) | the lexer's steps counted from the end of the text; induction over the lines as for C64 |
| C86 | check lines whose text differs in horizontal white space (`Spec/Spaces`); the verdict of the whole run | the lines compile to the same matchers; a simulation of the run (`Proofs/Simulate*`) gives the same verdict. Groups of texts are compiled to the same set (`Proofs/SpaceSets`). Refuted for the input, for repeated `CHECK-NOT` and `CHECK-DAG` lines, and for lines with `{{..}}` |
| C87 | the lexer is all that looks at `--match-full-lines` | refuted by an example; proved instead: it does to the reading of the check file what `--strict-whitespace` does, and nothing else |
| C88 | the verdict of two runs on inputs which are the same but for case (`Spec/IgnoreCase`) | the matchers give the same answers on both; a simulation of the whole run, from the cursor to the verdict; groups of `CHECK-NOT` texts which change case are compiled in step (`Proofs/IgnoreCaseSets`). Refuted for literal `CHECK-DAG` lines, literal prefixes of `CHECK-NOT` lines, and captured text |
| C89 | `Model/Execute.lean` (`testSubstitutions`), `Model/Substitutions.lean` | the value looked up for each built-in key, over what suite and format define, by the lookup lemmas of C40 |
| C90 | `Model/Sets.lean`, `Model/Smart.lean`, `Model/Check.lean`; spec `Spec/Agree.lean` (`Asks`, `Agree`) | a simulation between two runs of the whole checker on the same input with environments which agree on the names asked for: every operation reads only those, and captures write the same values on both sides |
| C91 | `Model/Command.lean` (`filecheck`, `read`, `validateOptions`) over `Model/Lines.lean` and everything below it; spec `Spec/Command.lean` | case analysis of the command, with C24 for the options, C92 for the prefixes and C79 for what a pass means. clap and `FILECHECK_OPTS` are not modelled |
| C92 | `Model/Lexer.lean`, `Model/Parser.lean`, `Model/Command.lean` (`tidy`) | a directive has one prefix only: its name ends at the first colon or brace, which prefixes cannot contain; so the first prefix that matches is the same in any order. For the command: sorted lists without repetitions are equal if they have the same members |
| C93 | `Model/Pipes.lean`: the process as a tree of reads and writes, three bounded pipes, the writing and the reading threads as a transition system; spec `Spec/Pipes.lean` (what a process writes, given its whole input) | invariant over all schedules; well-foundedness of the steps; progress when the script fits into a pipe; an invariant of the blocked run for the refutation |
| C94 | `Model/PathChildren.lean`: `children`, the descent to a path and the walk with a depth limit | the walk as a filter of the walk without a limit; mutual induction over the tree; refutations on the tree of the documentation |
| C95 | `Model/Position.lean`: byte, line and column indices and numbers, with checked and unchecked arithmetic | linear arithmetic against the integers (`Props/Position`) |
| C96 | the search of `Model/Smart.lean` with its panics | an index (`Able`, `Proofs/PatternTotal`) of how many operands the operations need, kept by every part; matches and groups are text (`Proofs/CaptureText`); numbers are not looked for after the end of the range; `Props/Abort` with concrete panics |
| C97 | `Model/Report`: the text printed at the end and for each result | the text is shown to be a list of lines; a reader (`Spec/Report`: groups, total, table) is run on it; combined with the bookkeeping of C48/C60 for whole runs |
| C98 | `Model/Environ`: the environment a test's process is given (`ShellCommand::envs`, `paths`, `split_paths`, `join_paths`) | splitting undoes joining; the first entry of a name counts; the program search over the concatenation; combined with `runOnce` |
| C99 | `Model/Listing`: the text printed by `show-tests` and `show-suites`, and which subcommand does what | as for C97 a reader (`Spec/Listing`) is run on the text; the registry's invariant (C46) gives the numbers; combined with C97 for the tests which `run` reports |
| C100 | `compileStatic`, `compileAll`, `verifyText` on any text | invariant of `compact`: after a part with a variable there is a dynamic part or a regular expression with captures; the patterns which are left denote the same in every environment |
| C101 | `SourceSpan`, `Span` (`Model/Span`) | arithmetic; the text between two positions is defined by what is before and after it. Refuted for truncation, reversed ranges and shifts to the left of the start |
| C102 | `Input` (`Model/Input`): histories of uses, reading bytes and characters | invariant of the uses; induction on what is left to be read. Refuted for a start beyond the end and within a character |
| C103 | histories of uses of a `Cursor` and its guards (`Model/Cursor`, `Model/CursorUse`) | invariants of the cursor, of the guarded cursors and of the positions asked for, by induction on the uses. Refuted for `consume_newline`, for text with carriage returns, and for starts before the bounds |
