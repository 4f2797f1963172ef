import Verif.Model.Script
import Verif.Model.Config

/-!
# Running one test (`lit/src/utils.rs`, `lit/src/formats/sh/{mod,engine}.rs`, `lit/src/formats/executable.rs`,
`lit/src/test/status.rs`) and `not` (`litcheck/src/commands/not.rs`)

The operating system is a parameter: what becomes of a process is a `Proc`, a timeline. Output of the processes is left
out, except for the time when it is closed.
-/

namespace Litcheck

/-- `TestStatus`, `lit/src/test/status.rs:3-16`, in the order of the code. -/
inductive Status where
  | unresolved | excluded | skipped | pass | flakyPass | fail | xfail | xpass | timeout | unsupported
  deriving DecidableEq, Repr

/-- `TestStatus::is_failure`, `status.rs:48-53`. -/
def Status.isFailure : Status → Bool
  | .unresolved | .timeout | .fail | .xpass => true
  | _ => false

/-- `From<ExitStatus> for TestStatus`, `status.rs:55-63`: `none` is a process ended by a signal. -/
def Status.ofExit : Option Int → Status
  | none => .unresolved
  | some c => if c = 0 then .pass else .fail

/-- What calling a function comes to: a value, an error for the caller, a panic, or it never returns. -/
inductive Out (α : Type) where
  | ok (a : α)
  | err
  | panic
  | hang
  deriving DecidableEq, Repr

/-- Sequencing of calls. -/
def Out.bind {α β : Type} : Out α → (α → Out β) → Out β
  | .ok a, f => f a
  | .err, _ => .err
  | .panic, _ => .panic
  | .hang, _ => .hang

instance : Monad Out where
  pure := .ok
  bind := Out.bind

/-- What `try_wait` finds. -/
inductive Poll where
  | running
  | exited (code : Option Int)
  | error
  deriving DecidableEq, Repr

/-- A spawned process: what `try_wait` finds at each time after its start, when its standard input has been written,
when its output is closed (`none` is never), and at which times the loop polls. -/
structure Proc where
  poll : Nat → Poll
  stdinWritten : Option Nat
  outputClosed : Option Nat
  polls : List Nat

/-- The loop of `wait_with_timeout`, `utils.rs:85-151`, up to the decision: the status and when it was made. The clock is
read at the poll (in the code just after it). Running out of polls stands for a loop that goes on for ever. -/
def waitLoop (poll : Nat → Poll) (timeout : Nat) : List Nat → Out (Status × Nat)
  | [] => .hang
  | t :: ts =>
    match poll t with
    | .running => if timeout = 0 ∨ t < timeout then waitLoop poll timeout ts else .ok (.timeout, t)
    | .exited code => .ok (.ofExit code, t)
    | .error => .ok (.unresolved, t)

/-- Joining the threads that read the output, `utils.rs:93-98`, `112-117`, `129-134`: this ends when the output is closed.
On a timeout the process is killed only after that, `utils.rs:99`. -/
def joinOutput (p : Proc) (t : Nat) : Out Nat :=
  match p.outputClosed with
  | none => .hang
  | some c => .ok (max t c)

/-- `ShellCommand::wait_with_timeout`, `utils.rs:66-156`: the status and when it was returned. `pipeStdin` says whether
`pipe_stdin` was called: if not, the process has no standard input to take and `unwrap` panics, `utils.rs:74`. -/
def waitWithTimeout (spawn : Option Proc) (pipeStdin : Bool) (timeout : Nat) : Out (Status × Nat) :=
  match spawn with
  | none => .ok (.unresolved, 0)
  | some p =>
    if !pipeStdin then .panic
    else if p.stdinWritten.isNone then .hang
    else do
      let r ← waitLoop p.poll timeout (p.polls.filter fun t => p.stdinWritten.getD 0 ≤ t)
      let t ← joinOutput p r.2
      pure (r.1, t)

/-- What a process is started with. -/
structure Invocation where
  program : Str
  dir : Str
  env : SubSet
  paths : List Str
  stdin : Option Str
  deriving DecidableEq, Repr

/-- The options of `lit` that matter for a test, `lit/src/config/mod.rs:86-160`. -/
structure LitOptions where
  noExecute : Bool
  timeout : Option Nat
  searchPaths : List Str
  deriving DecidableEq, Repr

/-- The world a test runs in: the `n`-th start of a process (`none` when it cannot be started), whether the search paths
can be joined, the temporary directory made for the test (`none` if that fails), and quoting for the shell (`none` for
text with a NUL). -/
structure World where
  spawn : Nat → Invocation → Option Proc
  pathsOk : List Str → Bool
  temp : Option Str
  quote : Str → Option Str

/-- `ShTest`, `sh/mod.rs:28-37`. -/
structure ShTest where
  shell : Option Str
  pipefail : Bool
  extra : SubSet
  deriving DecidableEq, Repr

/-- `Test`, `lit/src/test/mod.rs:22-42`, with what is read from its file (`none` if it cannot be read). `fileName` is the
last component of its path, `absolute` and `parent` are its absolute path and the directory of that, `workingDir` is
the suite's. -/
structure TestCase where
  source : Option Str
  fileName : Str
  absolute : Str
  parent : Str
  workingDir : Str
  config : TestConfig
  xfailNot : Bool

/-- The text before and after the last dot, if there is one. -/
def splitLastDot (s : Str) : Option (Str × Str) :=
  (splitOnce '.' s.reverse).map fun p => (p.2.reverse, p.1.reverse)

/-- `Path::file_stem` and `Path::extension` for a file name (standard library): a dot at the beginning does not count. -/
def stemExt (name : Str) : Str × Option Str :=
  if name = ['.', '.'] then (name, none)
  else (splitLastDot name).elim (name, none) fun p => if p.1.isEmpty then (name, none) else (p.1, some p.2)

/-- One command in the script for the shell, `engine.rs:82-95`. -/
def writeCommand (quote : Str → Option Str) (r : RunCmd) : Out Str :=
  match quote r.command with
  | none => .panic
  | some q => .ok ("{\n  { set +x; } 2>/dev/null && echo 'RUN at line ".toList ++ (toString r.line).toList ++ "': ".toList ++ q ++
      " >&2 && { set -x; } 2>/dev/null && {\n".toList ++ r.command ++ "\n};\n}".toList)

/-- The commands of the script. -/
def runsOf (cmds : List Cmd) : List RunCmd := cmds.filterMap fun
  | .run r => some r
  | .subst _ => none

/-- The loop of `write_script`, `engine.rs:71-95`. -/
def writeCommands (quote : Str → Option Str) : Bool → List RunCmd → Out Str
  | _, [] => .ok []
  | first, r :: rs => do
    let c ← writeCommand quote r
    let cs ← writeCommands quote false rs
    pure ((if first then [] else " && ".toList) ++ c ++ cs)

/-- `write_script`, `engine.rs:63-100`. -/
def writeScript (quote : Str → Option Str) (pipefail : Bool) (cmds : List Cmd) : Out Str := do
  let cs ← writeCommands quote true (runsOf cmds)
  pure ((if pipefail then "set -o pipefail;\n".toList else []) ++ "set -x;\n".toList ++ cs ++ ['\n'])

/-- `run_once`, `engine.rs:41-61`, the `n`-th time. -/
def runOnce (w : World) (sh : ShTest) (t : TestCase) (o : LitOptions) (cmds : List Cmd) (n : Nat) : Out Status := do
  let script ← writeScript w.quote sh.pipefail cmds
  if w.pathsOk o.searchPaths then do
    let r ← waitWithTimeout
      (w.spawn n ⟨sh.shell.getD "sh".toList, t.workingDir, t.config.env, o.searchPaths, some script⟩) true (o.timeout.getD 0)
    pure r.1
  else .err

/-- The result of a call as the result of another type, when it is no value. -/
def Out.map {α β : Type} (f : α → β) : Out α → Out β
  | .ok a => .ok (f a)
  | .err => .err
  | .panic => .panic
  | .hang => .hang

/-- The loop of `run_test`, `engine.rs:18-30`: the runs made, the last status and the count of retries. The first number
is how many more retries are allowed, `max_retries - retries`. The counter is not bounded here. -/
def retryLoop (once : Nat → Out Status) : Nat → Nat → List (Out Status) × Out (Status × Nat)
  | 0, retries => ([once retries], (once retries).map fun s => (s, if s = .fail then retries + 1 else retries))
  | budget + 1, retries =>
    if once retries = .ok .fail then
      let r := retryLoop once budget (retries + 1)
      (once retries :: r.1, r.2)
    else ([once retries], (once retries).map fun s => (s, retries))

/-- `run_test`, `engine.rs:10-39`: the runs made and the result. -/
def runTest (once : Nat → Out Status) (allowed : Option Nat) : List (Out Status) × Out Status :=
  let r := retryLoop once (allowed.getD 0) 0
  (r.1, r.2.map fun r => if r.2 > 0 ∧ r.1 = .pass then .flakyPass else r.1)

/-- The substitutions of a test, `sh/mod.rs:114-143`: the suite's, the format's, those for its own paths, and `%%`. -/
def testSubstitutions (sh : ShTest) (t : TestCase) (temp : Str) (stem ext : Str) : Scoped :=
  ((((Scoped.new t.config.substitutions).extend sh.extra).extend
    [("%s".toList, t.absolute), ("%S".toList, t.parent),
     ("%t".toList, temp ++ ['/'] ++ stem ++ ['.'] ++ ext ++ ".tmp".toList),
     ("%basename_t".toList, stem ++ ['.'] ++ ext)]).insert "%%".toList ['%'])

/-- The status after XFAIL has been taken into account, `sh/mod.rs:160-170`. -/
def applyXfail : Status → Status
  | .pass | .flakyPass => .xpass
  | .fail => .xfail
  | s => s

/-- `ShTest::execute`, `sh/mod.rs:64-173`. -/
def ShTest.execute (rx : Rx) (srx : SubRx) (nd : Char → Bool) (w : World) (sh : ShTest) (t : TestCase) (o : LitOptions) :
    Out Status :=
  match t.source with
  | none => .err
  | some text =>
    match Script.parse rx nd text with
    | .error _ => .ok .unresolved
    | .ok script =>
      if (missingFeatures rx t.config.features script.requires).isSome then .ok .unsupported
      else if (unsupportedFeatures rx t.config.features script.unsupported).isSome then .ok .unsupported
      else if o.noExecute then .ok .pass
      else
        match w.temp with
        | none => .panic
        | some temp =>
          match stemExt t.fileName with
          | (_, none) => .panic
          | (stem, some ext) =>
            match applySubstitutions srx (testSubstitutions sh t temp stem ext) script.commands with
            | .error _ => .err
            | .ok (cmds, _) => do
              let s ← (runTest (runOnce w sh t o cmds) script.allowedRetries).2
              pure (if !t.xfailNot && script.xfails.any (fun e => e.evaluate rx t.config.features) then applyXfail s else s)

/-- `ExecutableTest::execute`, `executable.rs:32-58`. `unsupported` are the expressions of the format. -/
def executeBinary (rx : Rx) (w : World) (unsupported : List BExpr) (t : TestCase) (o : LitOptions) : Out Status :=
  if (unsupportedFeatures rx t.config.features unsupported).isSome then .ok .unsupported
  else if o.noExecute then .ok .pass
  else if w.pathsOk o.searchPaths then do
    let r ← waitWithTimeout (w.spawn 0 ⟨t.absolute, t.workingDir, t.config.env, o.searchPaths, none⟩) false (o.timeout.getD 0)
    pure r.1
  else .err

/-- How a command given to `not` ends: it cannot be started because it is not there, or for another reason, or it ends
with a code, or without one (a signal). -/
inductive NotOutcome where
  | notFound
  | cannotStart
  | ended (code : Option Int)
  deriving DecidableEq, Repr

/-- `Not::run`, `not.rs:36-69`: the exit code. `command` is `none` when no command is given. -/
def notRun (expectCrash : Bool) (command : Option NotOutcome) : Nat :=
  match command with
  | none => 126
  | some .notFound => 127
  | some .cannotStart => 126
  | some (.ended none) => if expectCrash then 0 else 1
  | some (.ended (some c)) => if expectCrash then 1 else if c = 0 then 1 else 0

end Litcheck
