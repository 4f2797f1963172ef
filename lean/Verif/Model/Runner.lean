import Verif.Model.Execute

/-!
# Running all tests (`litcheck/src/commands/lit.rs`)

A run is a transition system. The state holds the queue of tests not handed out yet, what every
worker is doing, the reports sent so far (in the order of the channel) and whether some test ended the run with an error. The
scheduler is free to choose which worker makes the next step.

`T` stands for `Arc<Test>`, `sel` for `config.is_selected(test.name())`, and `Exec t o` says that executing
`t` can come to `o`: `some status` for a result, `none` for an `Err`. A test which panics or never
returns is not part of this model (see `Verif.Model.Execute` for when that happens), nor is the progress bar, nor what is
printed other than the counts.
-/

namespace Litcheck
namespace Runner

/-- What a worker thread is doing. `running t b` carries a `SelectResult`, `lit.rs:273-276`: `b` tells `Selected`
from `Excluded`. -/
inductive Worker (T : Type) where
  | idle
  | running (t : T) (selected : Bool)
  | stopped
  deriving DecidableEq, Repr

/-- The state of a run. -/
structure State (T : Type) where
  queue : List T
  workers : List (Worker T)
  reports : List (T × Status)
  aborted : Bool
  deriving DecidableEq, Repr

/-- What happens in one step. -/
inductive Event (T : Type) where
  | took (t : T)
  | reported (t : T) (s : Status)
  | errored (t : T)
  | stopped
  deriving DecidableEq, Repr

/-- `start`, `lit.rs:206-251`, before the first step: as many idle workers as threads, all tests in the queue. -/
def init {T : Type} (workers : Nat) (tests : List T) : State T :=
  ⟨tests, List.replicate workers .idle, [], false⟩

/-- One step of worker `w` in `PendingTestsIter(..).par_bridge().try_for_each_with(..)`, `lit.rs:243-249`. `rayon` (external
crate) documents that a worker takes the next item under a lock and consumes it outside, that an item which yields
`Err` ends its worker and makes the others stop "as soon as possible" (here: they may stop then, and
may also go on), and that workers end when the iterator does. -/
inductive Step {T : Type} (sel : T → Bool) (Exec : T → Option Status → Prop) :
    State T → Event T → State T → Prop where
  /-- `PendingTestsIter::next`, `lit.rs:307-314`. -/
  | take {s : State T} (w : Nat) (t : T) (q : List T) :
      s.workers[w]? = some .idle → s.queue = t :: q →
      Step sel Exec s (.took t) { s with queue := q, workers := s.workers.set w (.running t (sel t)) }
  /-- `TestRunner::run`, `lit.rs:385-412`, when executing the test yields a result; `TestRunner::report`, `lit.rs:415-419`. -/
  | run {s : State T} (w : Nat) (t : T) (st : Status) :
      s.workers[w]? = some (.running t true) → Exec t (some st) →
      Step sel Exec s (.reported t st)
        { s with workers := s.workers.set w .idle, reports := s.reports ++ [(t, st)] }
  /-- `TestRunner::mark_excluded`, `lit.rs:379-383`. -/
  | exclude {s : State T} (w : Nat) (t : T) :
      s.workers[w]? = some (.running t false) →
      Step sel Exec s (.reported t .excluded)
        { s with workers := s.workers.set w .idle, reports := s.reports ++ [(t, .excluded)] }
  /-- `TestRunner::run`, `lit.rs:388`: the `?`. Nothing is reported. -/
  | error {s : State T} (w : Nat) (t : T) :
      s.workers[w]? = some (.running t true) → Exec t none →
      Step sel Exec s (.errored t) { s with workers := s.workers.set w .stopped, aborted := true }
  /-- A worker finds the queue empty, or the run aborted. -/
  | stop {s : State T} (w : Nat) :
      s.workers[w]? = some .idle → s.queue = [] ∨ s.aborted = true →
      Step sel Exec s .stopped { s with workers := s.workers.set w .stopped }

/-- Any number of steps, with what happened. -/
inductive Steps {T : Type} (sel : T → Bool) (Exec : T → Option Status → Prop) :
    State T → List (Event T) → State T → Prop where
  | refl (s : State T) : Steps sel Exec s [] s
  | tail {a b c : State T} {es : List (Event T)} {e : Event T} :
      Steps sel Exec a es b → Step sel Exec b e c → Steps sel Exec a (es ++ [e]) c

/-- `BTreeMap<TestStatus, Vec<TestReport>>`: the tests reported with each status. -/
abbrev Results (T : Type) := Status → Option (List T)

/-- All statuses, in order. -/
def allStatuses : List Status :=
  [.unresolved, .excluded, .skipped, .pass, .flakyPass, .fail, .xfail, .xpass, .timeout, .unsupported]

/-- `results.entry(status).or_insert_with(Vec::new).push(report)`, `lit.rs:333-336`. -/
def Results.push {T : Type} (r : Results T) (st : Status) (t : T) : Results T :=
  fun s => if s = st then some ((r s).getD [] ++ [t]) else r s

/-- Setting or removing an entry. -/
def Results.put {T : Type} (r : Results T) (st : Status) (v : Option (List T)) : Results T :=
  fun s => if s = st then v else r s

/-- `results.values().map(|reports| reports.len()).sum()`, `lit.rs:362`, `lit.rs:438-441`. -/
def Results.total {T : Type} (r : Results T) : Nat :=
  (allStatuses.map fun s => ((r s).getD []).length).sum

/-- The loop over the channel, `lit.rs:329-337`. -/
def drainReports {T : Type} : List (T × Status) → Bool × Results T → Bool × Results T
  | [], acc => acc
  | (t, st) :: rs, (allExcluded, r) =>
    drainReports rs (if st ≠ .excluded then false else allExcluded, r.push st t)

/-- The loop over the tests never handed out, `lit.rs:340-354`. -/
def drainPending {T : Type} (sel : T → Bool) : List T → Bool × List T × List T → Bool × List T × List T
  | [], acc => acc
  | t :: ts, (allExcluded, skipped, excluded) =>
    if sel t then drainPending sel ts (false, skipped ++ [t], excluded)
    else drainPending sel ts (allExcluded, skipped, excluded ++ [t])

/-- `collect_results`, `lit.rs:322-368`: `error n` is `NoTestsSelected { available: n }`. -/
def collectResults {T : Type} (sel : T → Bool) (reports : List (T × Status)) (pending : List T) :
    Except Nat (Results T) :=
  let d := drainReports reports (true, fun _ => none)
  let p := drainPending sel pending (d.1, [], (d.2 .excluded).getD [])
  let r := d.2.put .excluded (if p.2.2.isEmpty then none else some p.2.2)
  let r := if p.2.1.isEmpty then r else r.put .skipped (some p.2.1)
  if p.1 then .error r.total else .ok r

/-- How the command ends: `ExitCode::SUCCESS`, `ExitCode::FAILURE`, the code 100, or an error (which `main`
turns into the code 1, `litcheck/src/main.rs:11`). -/
inductive Exit where
  | success
  | failure
  | code100
  | error
  deriving DecidableEq, Repr

/-- The exit code of the process. -/
def Exit.code : Exit → Nat
  | .success => 0
  | .failure => 1
  | .code100 => 100
  | .error => 1

/-- The end of `start`, `lit.rs:260-270`, once all workers have stopped. -/
def finish {T : Type} (sel : T → Bool) (s : State T) : Exit :=
  match collectResults sel s.reports s.queue with
  | .error _ => .error
  | .ok r =>
    if allStatuses.any (fun st => (r st).isSome && st.isFailure) || s.aborted then .failure else .success

/-- What the command was asked to do, `lit.rs:22-76`. -/
inductive Mode where
  | run
  | showSuites
  | showTests
  deriving DecidableEq, Repr

/-- `Lit::run`, `lit.rs:82-146`. `suites` is what loading the registry yields (`none` for an error): the number of suites
found. `rest` is how `start` ends. The second test for an empty registry, `lit.rs:135-137`, is never
reached with an empty one. -/
def command (mode : Mode) (suites : Option Nat) (rest : Exit) : Exit :=
  match suites with
  | none => .error
  | some n =>
    if n = 0 then .code100
    else match mode with
      | .showSuites => .success
      | .showTests => .success
      | .run => rest

end Runner
end Litcheck
