import Verif.Model.Registry
import Verif.Model.Report

/-!
# `lit show-tests` and `lit show-suites` (`litcheck/src/commands/lit.rs`)
-/

namespace Litcheck.Registry
open Runner (line digits padRight widest)

/-- `TestFormat::name`, `lit/src/format.rs:46-52`, `formats/sh/mod.rs:55-57`, `formats/executable.rs:23-25`. -/
def formatName : Format → Str
  | .default => "shtest".toList
  | .shtest _ => "shtest".toList
  | .executable _ => "executable".toList

/-- `Path::display` of a relative path. -/
def showRelative (p : DPath) : Str := "/".toList.intercalate p

/-- `Path::display` of an absolute path. -/
def showAbsolute (p : DPath) : Str := '/' :: showRelative p

/-- `show_tests`, `lit.rs:190-203`. -/
def showTests (r : Reg) : Str :=
  line "-- Available Tests --".toList ++
    (r.allTests.map fun t =>
      line ("  ".toList ++ t.suite.decl.name ++ "::".toList ++ showRelative t.path ++ " (format=".toList
        ++ formatName t.config.format ++ ")".toList)).flatten

/-- The entries of a map, one per line, in columns, `lit.rs:165-183`. Widths are in characters: in the program they are in bytes, which is the same for
names of ASCII. -/
def showEntries (es : SubSet) : Str :=
  (es.map fun e => line ("        - ".toList ++ padRight e.1 (widest (es.map (·.1))) ++ ": ".toList ++ e.2)).flatten

/-- One round of the loop of `show_suites`, `lit.rs:155-184`. The working directory is `lit/src/suite/mod.rs:91-93`. Features and environment are printed in
the order they have in the model; in the program they are sorted. -/
def showSuite (workingDir : Suite → DPath) (s : Suite) (size : Nat) : Str :=
  line ("  * ".toList ++ s.decl.name ++ " - ".toList ++ digits size ++ " tests".toList)
    ++ line ("    Source Root  : ".toList ++ showAbsolute s.sourceDir)
    ++ line ("    Exec Root    : ".toList ++ showAbsolute (workingDir s))
    ++ line ("    Test Format  : ".toList ++ formatName s.decl.config.format)
    ++ line "    Available Features:".toList
    ++ (s.decl.config.features.map fun f => line ("        - ".toList ++ f)).flatten
    ++ line "    Available Substitutions:".toList
    ++ showEntries s.decl.config.substitutions
    ++ line "    Environment Variables:".toList
    ++ showEntries s.decl.config.env

/-- The loop of `show_suites`, `lit.rs:155-184`: `size_of_suite` may panic. -/
def showSuiteLoop (workingDir : Suite → DPath) (r : Reg) : List Suite → Out Str
  | [] => .ok []
  | s :: ss => do
    let n ← r.sizeOfSuite s.key
    let rest ← showSuiteLoop workingDir r ss
    pure (showSuite workingDir s n ++ rest)

/-- `show_suites`, `lit.rs:150-187`. -/
def showSuites (workingDir : Suite → DPath) (r : Reg) : Out Str := do
  let rest ← showSuiteLoop workingDir r r.suites.iter
  pure (line "-- Test Suites --".toList ++ rest)

/-- The subcommands, `lit.rs:43-76`, without their arguments. -/
inductive LitMode where
  | run | suites | tests
  deriving DecidableEq, Repr

/-- What `Lit::run` comes to: an exit code and what was printed on the two outputs, or the tests to be run. -/
inductive LitOut where
  | exit (code : Nat) (out err : Str)
  | start (tests : TestList Found)

/-- `Lit::run`, `lit.rs:83-147`, up to the call of `start`. `selected` is `Config::is_selected` (`lit/src/config/mod.rs:48-66`) with the filters of the command line:
no subcommand but `run` looks at it. The second check for an empty registry is as in the code. -/
def litRun (d : Disk) (n : Nat) (workingDir : Suite → DPath) (mode : LitMode) (inputs : List (Option DPath)) (_selected : Str → Bool) : Out LitOut := do
  let r ← load d n inputs
  if r.isEmpty then pure (.exit 100 [] (line "did not discover any test suites for provided path(s)".toList))
  else if mode = .suites then do
    let out ← showSuites workingDir r
    pure (.exit 0 out [])
  else if r.isEmpty then .err
  else if mode = .tests then pure (.exit 0 (showTests r) [])
  else pure (.start r.intoList)

end Litcheck.Registry
