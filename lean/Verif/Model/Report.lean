import Verif.Model.Runner

/-!
# What `lit` prints (`litcheck/src/commands/lit.rs`, `lit/src/test/{status,result}.rs`)

A text is a list of characters. The progress bar and colours (`console::style`) are left out: this is what is printed when
the output is not a terminal. Numbers which the code formats as floating point are parameters.
-/

namespace Litcheck

/-- `TestStatus::tag`, `lit/src/test/status.rs:18-31`. -/
def Status.tag : Status → Str
  | .excluded => "EXCLUDED".toList
  | .skipped => "SKIPPED".toList
  | .unsupported => "UNSUPPORTED".toList
  | .pass => "PASS".toList
  | .flakyPass => "FLAKYPASS".toList
  | .xfail => "XFAIL".toList
  | .unresolved => "UNRESOLVED".toList
  | .timeout => "TIMEOUT".toList
  | .fail => "FAIL".toList
  | .xpass => "XPASS".toList

/-- `TestStatus::label`, `lit/src/test/status.rs:33-46`; also what `Display` writes, `status.rs:64-68`. -/
def Status.label : Status → Str
  | .excluded => "Excluded".toList
  | .skipped => "Skipped".toList
  | .unsupported => "Unsupported".toList
  | .pass => "Passed".toList
  | .flakyPass => "Passed With Retry".toList
  | .xfail => "Failed As Expected".toList
  | .unresolved => "Unresolved".toList
  | .timeout => "Timed Out".toList
  | .fail => "Failed".toList
  | .xpass => "Unexpectedly Passed".toList

namespace Runner

/-- A line printed by `println!` or `writeln!`. -/
def line (s : Str) : Str := s ++ ['\n']

/-- A number in decimal. -/
def digits (n : Nat) : Str := Nat.toDigits 10 n

/-- A signed number in decimal. -/
def signed : Int → Str
  | .ofNat n => digits n
  | .negSucc n => '-' :: digits (n + 1)

/-- `console::pad_str` (external crate) with `Alignment::Left`, for text of ASCII: it appends blanks up to the width. -/
def padRight (s : Str) (w : Nat) : Str := s ++ List.replicate (w - s.length) ' '

/-- `console::pad_str` (external crate) with `Alignment::Right`, for text of ASCII. -/
def padLeft (s : Str) (w : Nat) : Str := List.replicate (w - s.length) ' ' ++ s

/-- `.max().unwrap_or(0)`. -/
def widest : List Str → Nat
  | [] => 0
  | s :: ss => max s.length (widest ss)

/-- What is kept of a `TestResult`, `lit/src/test/result.rs:9-18`: `exit` is `exit_code()`, `result.rs:88-91`, `elapsed` is in
milliseconds, the output has been decoded (`stdout()`, `stderr()`, `result.rs:70-76`). -/
structure Outcome where
  status : Status
  exit : Option Int
  elapsed : Option Nat
  stdout : Str
  stderr : Str
  deriving DecidableEq, Repr

/-- `{:.2}s` of the seconds. -/
abbrev Seconds := Nat → Str

/-- One of the two sections of output in `Display for TestResult`, `result.rs:133-163`. -/
def outputSection (name : Str) (s : Str) : Str :=
  if s.isEmpty then []
  else line ("Command Output (".toList ++ name ++ ") ----".toList) ++ line s
    ++ line "----------------------------".toList

/-- `Display for TestResult`, `result.rs:93-166`: `none` is the panic of `expect`, `result.rs:108`. -/
def Outcome.display (secs : Seconds) (r : Outcome) : Option Str :=
  let code := match r.exit with
    | some c => if c ≠ 0 then "Exit Code: ".toList ++ line (signed c) else []
    | none => "Exit Code: ".toList ++ line "N/A".toList
  let rest := outputSection "stdout".toList r.stdout ++ outputSection "stderr".toList r.stderr
  if r.status = .timeout then
    match r.elapsed with
    | none => none
    | some ms =>
      some (code ++ line ("Timeout: Reached timeout after ".toList ++ digits (ms / 1000) ++ "s".toList) ++ rest)
  else
    match r.elapsed with
    | some ms =>
      let time := if ms / 1000 = 0 then digits (ms % 1000) ++ "ms".toList else secs ms
      some (code ++ line ("Elapsed: ".toList ++ time) ++ rest)
    | none => some (code ++ line [] ++ rest)

/-- The options which say what is printed, `lit/src/config/mod.rs`. -/
structure Printing where
  all : Bool
  quiet : Bool
  verbose : Bool
  deriving DecidableEq, Repr

/-- `TestRunner::run`, `lit.rs:385-412`, with `TestRunner` as built in `lit.rs:232-239`: what is printed when a selected
test has come to a result. `none` is a panic. -/
def printTest (secs : Seconds) (o : Printing) (name : Str) (r : Outcome) : Option Str :=
  let head := line (r.status.tag ++ ": ".toList ++ name)
  if r.status.isFailure then
    if o.all || o.verbose then (r.display secs).map fun d => head ++ line d else some head
  else if !o.quiet || o.all then
    if o.all then (r.display secs).map fun d => head ++ line d else some head
  else some []

variable {T : Type}

/-- One group of the loop in `print_results`, `lit.rs:427-437`. -/
def printGroup (name : T → Str) (st : Status) (ts : List T) : Str :=
  line (List.replicate 20 '*' ++ " ".toList ++ st.label ++ " Tests (".toList ++ digits ts.length ++ "):".toList)
    ++ (ts.map fun t => line ("  ".toList ++ name t)).flatten ++ line []

/-- The loop of `print_results`, `lit.rs:427-437`: statuses in the order of the `BTreeMap`. -/
def printGroups (quiet : Bool) (name : T → Str) (r : Results T) : List Status → Str
  | [] => []
  | st :: sts =>
    match r st with
    | none => printGroups quiet name r sts
    | some ts =>
      if !st.isFailure && quiet then printGroups quiet name r sts
      else printGroup name st ts ++ printGroups quiet name r sts

/-- `count_by_status`, `lit.rs:445-448`. -/
def counts (r : Results T) : List (Status × Nat) :=
  allStatuses.filterMap fun st => (r st).map fun ts => (st, ts.length)

/-- A row of the summary, `lit.rs:459-475`. -/
def printRow (pct : Nat → Nat → Str) (total wl wc : Nat) (x : Status × Nat) : Str :=
  line ("  ".toList ++ padRight x.1.label wl ++ ": ".toList ++ padLeft (digits x.2) wc ++ " (".toList ++ pct x.2 total
    ++ "%)".toList)

/-- `print_results`, `lit.rs:422-476`. `pct count total` is `{percentage:.2}`, `lit.rs:473`. -/
def printResults (quiet : Bool) (pct : Nat → Nat → Str) (name : T → Str) (r : Results T) : Str :=
  printGroups quiet name r allStatuses
    ++ (line [] ++ line ("Total Discovered Tests: ".toList ++ digits r.total))
    ++ ((counts r).map (printRow pct r.total (widest ((counts r).map fun x => x.1.label))
          (widest ((counts r).map fun x => digits x.2)))).flatten

end Runner
end Litcheck
