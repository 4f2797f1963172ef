import Verif.Model.Cursor

/-!
# Match results: `filecheck/src/pattern/matcher/result.rs`, `filecheck/src/pattern/matches.rs`,
`filecheck/src/test/result.rs`
-/

namespace Litcheck

/-- `filecheck/src/pattern/matcher/result.rs:142-155` `MatchInfo`: the matched span of the input, the
pattern index, and the start of the pattern span (the captures are part of the environment of the
model, and the source ids are dropped). -/
structure Info where
  start : Nat
  stop : Nat
  pid : Nat := 0
  pspan : Nat := 0
  deriving DecidableEq, Repr

/-- `Range<usize>` of a match (`filecheck/src/pattern/matcher/result.rs:180-182` `matched_range`). -/
def Info.range (i : Info) : Rng := ⟨i.start, i.stop⟩

/-- `filecheck/src/errors.rs:80-309` `CheckFailedError`, without the data used for rendering. -/
inductive FailKind where
  | emptyInput
  | matchError
  | foundButExcluded
  | foundButWrongLine
  | foundButDiscarded
  | foundErrorNote
  | foundConstraintFailed
  | noneButExpected
  | noneForInvalidPattern
  | noneErrorNote
  | fuzzy
  | allFailed
  | repeatedError
  | groupFailed
  deriving DecidableEq, Repr

/-- A `CheckFailedError`, together with whether `related_labels_for` (errors.rs:363-454) yields at
least one label for it, which is what `CHECK-COUNT` looks at. -/
structure Failure where
  kind : FailKind
  related : Bool := true
  deriving DecidableEq, Repr

/-- `filecheck/src/pattern/matcher/result.rs:108-115` `MatchType`. -/
inductive MatchType where
  | found
  | excluded
  | failed (f : Failure)
  deriving DecidableEq, Repr

/-- `filecheck/src/pattern/matcher/result.rs:117-122` `MatchType::is_ok`. -/
def MatchType.isOk : MatchType → Bool
  | .found => true
  | .excluded => true
  | .failed _ => false

/-- `filecheck/src/pattern/matcher/result.rs:4-7` `MatchResult`. -/
structure MatchResult where
  ty : MatchType
  info : Option Info
  deriving DecidableEq, Repr

namespace MatchResult

/-- `filecheck/src/pattern/matcher/result.rs:14-19` `MatchResult::ok`. -/
def ok (i : Info) : MatchResult := ⟨.found, some i⟩

/-- `filecheck/src/pattern/matcher/result.rs:32-37` `MatchResult::failed`. -/
def failed (f : Failure) : MatchResult := ⟨.failed f, none⟩

/-- `filecheck/src/pattern/matcher/result.rs:40-45` `MatchResult::match_found_but_failed`. -/
def foundButFailed (f : Failure) (i : Info) : MatchResult := ⟨.failed f, some i⟩

/-- `filecheck/src/pattern/matcher/result.rs:51-53` `MatchResult::is_ok`. -/
def isOk (m : MatchResult) : Bool := m.ty.isOk

/-- `filecheck/src/pattern/matcher/result.rs:61-63` `MatchResult::pattern_id`. -/
def patternId (m : MatchResult) : Option Nat := m.info.map Info.pid

/-- `filecheck/src/pattern/matcher/result.rs:66-68` `MatchResult::matched_range`. -/
def matchedRange (m : MatchResult) : Option Rng := m.info.map Info.range

/-- `filecheck/src/pattern/matcher/result.rs:78-89` `MatchResult::into_result`. -/
def intoResult (m : MatchResult) : Except Failure (Option Info) :=
  match m.ty with
  | .failed f => .error f
  | _ => .ok m.info

end MatchResult

/-- `filecheck/src/pattern/matches.rs:6` `Matches`. -/
abbrev Matches := List MatchResult

namespace Matches

/-- `filecheck/src/pattern/matches.rs:28-30` `Matches::is_ok`. -/
def isOk (ms : Matches) : Bool := ms.all MatchResult.isOk

/-- The lexicographic comparison used by `push` and `sort`
(`filecheck/src/pattern/matches.rs:62-67`, `138-143`). -/
def cmpInfo (a b : Info) : Ordering :=
  (compare a.start b.start).then ((compare a.stop b.stop).then (compare a.pspan b.pspan))

/-- The comparison closure of `filecheck/src/pattern/matches.rs:57-68`. -/
def cmpProbe (probe result : MatchResult) : Ordering :=
  match probe.info, result.info with
  | _, none => .lt
  | none, some _ => .gt
  | some a, some b => cmpInfo a b

/-- `filecheck/src/pattern/matches.rs:52-73` `Matches::push`: `binary_search_by` on an ordered slice
finds the first element which is not `Less`. (When an element compares `Equal`, the standard library
may return the index of any equal element; the model takes the first.) -/
def push : Matches → MatchResult → Matches
  | [], r => [r]
  | p :: ps, r => if cmpProbe p r = .lt then p :: push ps r else r :: p :: ps

/-- `filecheck/src/pattern/matches.rs:109-127`: the general case of `Matches::range`. -/
def generalRange (ms : Matches) : P (Option Rng) :=
  match ms.findSome? MatchResult.matchedRange with
  | none => .ok none
  | some sr =>
    match ms.reverse.findSome? MatchResult.matchedRange with
    | none => .ok (some sr)
    | some r => do
      let x ← Rng.new sr.start r.stop
      .ok (some x)

/-- `filecheck/src/pattern/matches.rs:92-128` `Matches::range`, including the assertion inside
`Range::new`. -/
def range (ms : Matches) : P (Option Rng) :=
  match ms with
  | [] => generalRange ms
  | [m] =>
    match m.info, m.isOk with
    | some i, true => .ok (some i.range)
    | _, _ => generalRange ms
  | m :: m' :: rest =>
    match m.info, m.isOk, ((m' :: rest).getLast (by simp)).info, ((m' :: rest).getLast (by simp)).isOk with
    | some i, true, some i2, true => do
      let x ← Rng.new i.start i2.stop
      .ok (some x)
    | _, _, _, _ => generalRange ms

end Matches

/-- `filecheck/src/test/result.rs:7-14` `TestResult`. -/
structure TestResult where
  matched : List Info
  passed : Nat
  errors : List Failure
  deriving DecidableEq, Repr

namespace TestResult

/-- `filecheck/src/test/result.rs:16-23` `TestResult::new`. -/
def new : TestResult := ⟨[], 0, []⟩

/-- `filecheck/src/test/result.rs:34-40` `TestResult::from_error`. -/
def fromErrors (fs : List Failure) : TestResult := ⟨[], 0, fs⟩

/-- `filecheck/src/test/result.rs:52-55` `TestResult::matched`. -/
def addMatched (t : TestResult) (i : Info) : TestResult :=
  { t with matched := t.matched ++ [i], passed := t.passed + 1 }

/-- `filecheck/src/test/result.rs:57-59` `TestResult::passed`, `n` times. -/
def addPassed (t : TestResult) (n : Nat) : TestResult := { t with passed := t.passed + n }

/-- `filecheck/src/test/result.rs:61-63` `TestResult::failed`. -/
def addFailed (t : TestResult) (f : Failure) : TestResult := { t with errors := t.errors ++ [f] }

/-- One step of `filecheck/src/test/result.rs:43-49`. -/
def appendOne (t : TestResult) (m : MatchResult) : TestResult :=
  match m.intoResult with
  | .ok (some i) => t.addMatched i
  | .ok none => t.addPassed 1
  | .error f => t.addFailed f

/-- `filecheck/src/test/result.rs:42-50` `TestResult::append`. -/
def append (t : TestResult) (ms : Matches) : TestResult := ms.foldl appendOne t

/-- `matched.into_iter().for_each(|matches| test_result.append(matches))`
(`filecheck/src/check/mod.rs:261-263`, `283-285`). -/
def appendAll (t : TestResult) (mss : List Matches) : TestResult := mss.foldl append t

/-- `filecheck/src/test/result.rs:65-67` `TestResult::is_ok`. -/
def isOk (t : TestResult) : Bool := t.errors.isEmpty

/-- Insertion used to model the stable `sort_by_key` of `into_result`. -/
def insertByPattern (i : Info) : List Info → List Info
  | [] => [i]
  | j :: js => if i.pspan < j.pspan then i :: j :: js else j :: insertByPattern i js

/-- `filecheck/src/test/result.rs:89-99` `TestResult::into_result`: the stable sort by pattern
position is an insertion sort here; the error side keeps the list of errors. -/
def intoResult (t : TestResult) : Except (List Failure) (List Info) :=
  if t.isOk then .ok (t.matched.foldl (fun acc i => insertByPattern i acc) []) else .error t.errors

end TestResult

end Litcheck
