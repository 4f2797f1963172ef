import Verif.Model.Lines
import Verif.Model.Options

/-!
# The `filecheck` command: `litcheck/src/commands/filecheck.rs`

What clap does is not modelled: the options are those after the command line, and `FILECHECK_OPTS` (`commands/filecheck.rs:38-42`), were read. `-D` definitions are
given by the values they stand for (`Model/Cli.lean`, C80 – C82: a text, or a number). Options which only affect the text of diagnostics (`--dump-input` other than `help`,
`--dump-input-filter`, `-v`, `--color`) are left out.
-/

namespace Litcheck.Command

open Litcheck.Smart Litcheck.Pattern Litcheck.Sets
open Litcheck.Regex (utf8)

/-- `Options`, `filecheck/src/lib.rs:118-259`. -/
structure Options where
  allowEmpty : Bool := false
  checkPrefixes : List Str := ["CHECK".toList]
  commentPrefixes : List Str := ["COM".toList, "RUN".toList]
  allowUnusedPrefixes : Bool := false
  strictWhitespace : Bool := false
  matchFullLines : Bool := false
  ignoreCase : Bool := false
  implicitCheckNot : List Str := []
  dumpHelp : Bool := false
  enableVarScope : Bool := false
  definitions : List (Str × Val) := []

/-- `prefix_value_parser`, `filecheck/src/lib.rs:395-421`. `alnum` is `char::is_alphanumeric` (standard library). -/
def prefixOk (alnum : Char → Bool) : Str → Bool
  | [] => false
  | c :: r => c.isAlpha && (c :: r).all fun c => alnum c || c == '_' || c == '-'

/-- `Ord for Symbol`, `core/src/symbol/mod.rs:106-110`: the order of texts. That of the bytes is that of the characters. -/
def leStr : Str → Str → Bool
  | [], _ => true
  | _ :: _, [] => false
  | a :: x, b :: y => if a = b then leStr x y else a < b

/-- `Vec::dedup` (standard library): of neighbours which are equal only the first is kept. -/
def dedup : List Str → List Str
  | [] => []
  | [a] => [a]
  | a :: b :: r => if a = b then dedup (b :: r) else a :: dedup (b :: r)

/-- `sort` and `dedup` of prefixes, `litcheck/src/commands/filecheck.rs:45-48`. -/
def tidy (ps : List Str) : List Str := dedup (ps.mergeSort leStr)

/-- What the command can read: files, by their paths, and the standard input. `none` if it cannot be opened or is not valid Unicode. -/
structure World where
  file : Str → Option Str
  stdin : Option Str

/-- `Input::into_source` and `read_to_string`, `core/src/input.rs:55-64` and `core/src/input.rs:140-148`, with `strict`: the text, and what is left. The standard input can be
read once. The source manager (C29) hands back a file with the text that was read. -/
def read (w : World) (path : Str) : Option Str × World :=
  if path = ['-'] then (w.stdin, { w with stdin := some [] }) else (w.file path, w)

/-- The environment at the start, `Env::from_config`, `filecheck/src/env.rs:274-286`. -/
def startEnv (o : Options) : Vars := (Env.fromConfig (o.definitions.map fun x => (.user (String.ofList x.1), x.2)) o.enableVarScope).bindings

/-- The options of the checker. `checked`: whether the build checks for overflow. -/
def runOf (checked : Bool) (o : Options) : Run := ⟨⟨o.ignoreCase, o.strictWhitespace⟩, ⟨o.allowEmpty, o.enableVarScope⟩, checked, fun _ => 0⟩

/-- The options of the lexer, with these prefixes. -/
def cfgOf (o : Options) : Lex.Cfg := ⟨o.checkPrefixes, o.commentPrefixes, o.strictWhitespace, o.matchFullLines⟩

/-- `Test::verify`, `filecheck/src/test/mod.rs:96-113`. -/
def verify (checked : Bool) (o : Options) (check input : Str) : Except Lex.PErr (P Verdict) :=
  verifyCheckFile (runOf checked o) o.implicitCheckNot (cfgOf o) o.allowUnusedPrefixes check (startEnv o) (utf8 input)

/-- The exit code of a verification: an error is returned from `main`, `litcheck/src/main.rs:11-42`, and gives 1, a panic 101 (standard library). Panics in the
search for a pattern, and searches without end, are failures in the model of the search (`Model/Smart.lean`). -/
def code : Except Lex.PErr (P Verdict) → Nat
  | .ok (.ok (.pass _)) => 0
  | .ok (.error _) => 101
  | _ => 1

/-- The exit code: `run` of `litcheck/src/main.rs:44-63` and `FileCheck::run`, `litcheck/src/commands/filecheck.rs:37-72`. -/
def filecheck (checked : Bool) (w : World) (o : Options) (checkFile inputFile : Str) : Nat :=
  if checkFile = "help".toList then 2
  else
    let o := { o with checkPrefixes := tidy o.checkPrefixes, commentPrefixes := tidy o.commentPrefixes }
    match validateOptions (o.checkPrefixes.map String.ofList) (o.commentPrefixes.map String.ofList) with
    | .error _ => 1
    | .ok () =>
      if o.dumpHelp then 0
      else
        match read w checkFile with
        | (none, _) => 1
        | (some check, w) =>
          match read w inputFile with
          | (none, _) => 1
          | (some input, _) => code (verify checked o check input)

end Litcheck.Command
