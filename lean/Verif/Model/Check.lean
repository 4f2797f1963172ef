import Verif.Model.Rules

/-!
# The checker: `filecheck/src/check/mod.rs` (and the types of `filecheck/src/check/program.rs`)
-/

namespace Litcheck

mutual
/-- `filecheck/src/check/program.rs:69-105` `CheckGroup`. -/
inductive Group (E : Type) where
  | never (p : Pat E)
  | unordered (d : Dag E)
  | bounded (left : Dag E) (right : Group E)
  | ordered (rules : List (Rule E))
  | repeated (rule : Rule E) (count : Nat)
  | tree (t : Tree E)
/-- `filecheck/src/check/program.rs:15-42` `CheckTree`. -/
inductive Tree (E : Type) where
  | matchAll (g : Group E)
  | matchAround (root : Pat E) (left right : Tree E)
  | matchBefore (root : Pat E) (left : Tree E)
  | matchAfter (root : Pat E) (right : Tree E)
end

/-- `filecheck/src/check/program.rs:159-182` `CheckSection`. -/
inductive Section (E : Type) where
  | block (label : Pat E) (body : List (Group E))
  | group (g : Group E)

/-- The mutable state threaded through `check_group`: the match context and the test result. -/
structure St (E : Type) where
  ctx : Ctx E
  res : TestResult

/-- `Result<Result<Vec<Matches>, Vec<Matches>>, CheckFailedError>`, the result of `check_group`. -/
inductive GR where
  | matched (ms : List Matches)
  | unmatched (ms : List Matches)
  | err (f : Failure)
  deriving DecidableEq, Repr

/-- Record a failure in the test result. -/
def St.fail {E : Type} (s : St E) (f : Failure) : St E := { s with res := s.res.addFailed f }

/-- Record `n` passed checks in the test result. -/
def St.pass {E : Type} (s : St E) (n : Nat) : St E := { s with res := s.res.addPassed n }

/-- The outcome of `check_not`. -/
inductive NotResult where
  | passed (n : Nat)
  | found (i : Info)
  | err
  deriving DecidableEq, Repr

/-- `filecheck/src/check/mod.rs:999-1014` `check_not` (`MatchAny::try_match_mut` runs directly on the
context, without a guard). -/
def checkNot {E : Type} (p : Pat E) (r : Rng) (s : St E) : P (NotResult × St E) :=
  match p.run s.ctx.cur.buf r s.ctx.env with
  | (none, env') => .ok (.err, { s with ctx := { s.ctx with env := env' } })
  | (some m, env') =>
    let s' := { s with ctx := { s.ctx with env := env' } }
    match m.isOk, m.info with
    | true, some i => .ok (.found i, s')
    | true, none => .error .assertFailed
    | false, _ => .ok (.passed p.len, s')

/-- The error recorded when a `CHECK-NOT` pattern is found, e.g. `filecheck/src/check/mod.rs:316-325`. -/
def notFoundFailure : MatchResult := .failed ⟨.foundButExcluded, true⟩

/-- The error recorded when a pattern could not be evaluated, e.g. `filecheck/src/check/mod.rs:328-332`. -/
def noteFailure : Failure := ⟨.noneErrorNote, true⟩

/-- The part of `check_tree` which runs `check_not` on an exclusion region and records the outcome:
`filecheck/src/check/mod.rs:735-781`, `817-845`, `879-907`, `913-940`, `961-988`. Returns the matches
to append, if any. -/
def excl {E : Type} (p : Pat E) (r : Rng) (s : St E) : P (List Matches × St E) := do
  let (nr, s) ← checkNot p r s
  match nr with
  | .passed n => .ok ([], s.pass n)
  | .found _ => .ok ([[notFoundFailure]], s)
  | .err => .ok ([[.failed noteFailure]], s)

/-- `CheckGroup::Ordered`, `filecheck/src/check/mod.rs:337-410`: the loop. The boolean is `false` when
the loop returned early after a failed rule (`return Ok(Err(matched))`). -/
def orderedLoop {E : Type} : List (Rule E) → List Matches → St E → P (Bool × List Matches × St E)
  | [], acc, s => .ok (true, acc, s)
  | r :: rs, acc, s => do
    let (m, ctx) ← r.apply s.ctx
    let s := { s with ctx := ctx }
    match m with
    | some m =>
      if Matches.isOk [m] then orderedLoop rs (acc ++ [[m]]) s
      else
        -- the single cause is reported as such only if no rule was skipped (l. 379-391)
        match m.ty, rs with
        | .failed f, [] => .ok (false, acc, s.fail f)
        | _, _ => .ok (false, acc, s.fail ⟨.groupFailed, false⟩)
    | none => orderedLoop rs acc (s.fail noteFailure)

/-- `matched.iter().all(|m| m.range().is_none())`, `filecheck/src/check/mod.rs:405`. -/
def allRangesNone : List Matches → P Bool
  | [] => .ok true
  | m :: ms => do
    let r ← Matches.range m
    match r with
    | none => allRangesNone ms
    | some _ => .ok false

/-- `CheckGroup::Repeated`, `filecheck/src/check/mod.rs:411-465`: `n` remaining repetitions.
The boolean is `false` for an early `return Ok(Err(matched))`. -/
def repeatedLoop {E : Type} (rule : Rule E) : Nat → List Matches → St E → P (Bool × List Matches × St E)
  | 0, acc, s => .ok (true, acc, s)
  | n + 1, acc, s => do
    let (m, ctx) ← rule.apply s.ctx
    let s := { s with ctx := ctx }
    match m with
    | some m =>
      match m.ty with
      | .failed f =>
        if f.related then .ok (false, acc, s.fail ⟨.repeatedError, false⟩)
        else repeatedLoop rule n (acc ++ [[]]) s
      | _ => repeatedLoop rule n (acc ++ [[m]]) s
    | none => .ok (false, acc, s.fail noteFailure)

/-- The ranges of a list of matches (`filter_map(|matches| matches.range())`,
`filecheck/src/check/mod.rs:710-714` and similar). -/
def rangesOf : List Matches → P (List Rng)
  | [] => .ok []
  | m :: ms => do
    let r ← Matches.range m
    let rs ← rangesOf ms
    .ok (match r with | some r => r :: rs | none => rs)

/-- `.map(|r| r.end).max().unwrap()`, `filecheck/src/check/mod.rs:710-714`. -/
def maxEnd (ms : List Matches) : P Nat := do
  let rs ← rangesOf ms
  match rs with
  | [] => .error .unwrapNone
  | r :: rs => .ok (rs.foldl (fun a r => max a r.stop) r.stop)

/-- `.map(|r| r.start).min().unwrap()`, `filecheck/src/check/mod.rs:726-730`. -/
def minStart (ms : List Matches) : P Nat := do
  let rs ← rangesOf ms
  match rs with
  | [] => .error .unwrapNone
  | r :: rs => .ok (rs.foldl (fun a r => min a r.start) r.start)

/-- `filecheck/src/check/mod.rs:505-621`: rewrite the matches of a `CHECK-DAG` group which do not end
before the start of the following `CHECK`. -/
def discardOverlap (rightStart : Nat) (m : MatchResult) : MatchResult :=
  match m.ty, m.info with
  | .failed f, some i =>
    match f.kind with
    | .matchError | .foundErrorNote | .foundConstraintFailed | .foundButDiscarded =>
      if i.start ≥ rightStart ∨ i.stop ≥ rightStart then .failed ⟨.foundButDiscarded, true⟩ else m
    | _ => m
  | .failed _, none => m
  | _, some i =>
    if i.start ≥ rightStart ∨ i.stop ≥ rightStart then .failed ⟨.foundButDiscarded, true⟩ else m
  | _, none => m

/-- `.expect("unexpected check-not error")` on the result of `check_tree`. -/
def expectNoErr {E : Type} (x : GR × St E) : P (Bool × List Matches × St E) :=
  match x with
  | (.matched ms, s) => .ok (true, ms, s)
  | (.unmatched ms, s) => .ok (false, ms, s)
  | (.err _, _) => .error .unwrapNone

/-- `assert!(!left_matched.is_empty())`. -/
def assertNonEmpty (ms : List Matches) : P Unit :=
  if ms.isEmpty then .error .assertFailed else .ok ()

/-- `filecheck/src/check/mod.rs:297-336`, `CheckGroup::Never`. -/
def checkNever {E : Type} (p : Pat E) (s : St E) : P (GR × St E) := do
  let r ← s.ctx.cur.searchBlock
  let (nr, s) ← checkNot p r s
  match nr with
  | .passed n => .ok (.matched [], s.pass n)
  | .found _ => .ok (.unmatched [[notFoundFailure]], s)
  | .err => .ok (.err noteFailure, s)

/-- `filecheck/src/check/mod.rs:337-410`, `CheckGroup::Ordered`. -/
def checkOrdered {E : Type} (rules : List (Rule E)) (s : St E) : P (GR × St E) := do
  let (done, acc, s) ← orderedLoop rules [] s
  if done then do
    let none ← allRangesNone acc
    if none then .ok (.unmatched acc, s) else .ok (.matched acc, s)
  else .ok (.unmatched acc, s)

/-- `filecheck/src/check/mod.rs:411-465`, `CheckGroup::Repeated`. -/
def checkRepeated {E : Type} (rule : Rule E) (count : Nat) (s : St E) : P (GR × St E) := do
  let (done, acc, s) ← repeatedLoop rule count [] s
  if done then .ok (.matched acc, s) else .ok (.unmatched acc, s)

/-- `filecheck/src/check/mod.rs:466-482`, `CheckGroup::Unordered`. -/
def checkUnordered {E : Type} (d : Dag E) (s : St E) : P (GR × St E) := do
  let (m, ctx) ← d.apply s.ctx
  let s := { s with ctx := ctx }
  match m with
  | some ms => do
    let r ← Matches.range ms
    if r.isNone then .ok (.unmatched [ms], s) else .ok (.matched [ms], s)
  | none => .ok (.unmatched [], s.fail noteFailure)

/-- `filecheck/src/check/mod.rs:488-692`: what `CheckGroup::Bounded` does with the result `right` of
the right-hand group and the result `left` of the `CHECK-DAG` group. -/
def combineBounded {E : Type} (left : Option Matches) (right : GR) (s : St E) : P (GR × St E) :=
  match right with
  | .matched rms =>
    match rms with
    | [] => .error .indexOutOfBounds
    | r0 :: _ => do
      let rr ← Matches.range r0
      match rr with
      | none => .error .unwrapNone
      | some rr =>
        match left with
        | some lms => do
          let lr ← Matches.range lms
          let lms := match lr with
            | some lr =>
              if lr.start ≥ rr.start ∨ lr.stop ≥ rr.start then lms.map (discardOverlap rr.start) else lms
            | none => lms
          .ok (.matched (lms :: rms), s)
        | none => .ok (.matched rms, s.fail noteFailure)
  | .unmatched rms =>
    match left with
    | some lms => do
      let lr ← Matches.range lms
      if lr.isNone then .ok (.unmatched (lms :: rms), s) else .ok (.matched (lms :: rms), s)
    | none => .ok (.unmatched rms, s.fail noteFailure)
  | .err _ =>
    match left with
    | some lms => do
      let lr ← Matches.range lms
      if lr.isNone then .ok (.unmatched [lms], s.fail noteFailure) else .ok (.matched [lms], s.fail noteFailure)
    | none => .ok (.unmatched [], (s.fail noteFailure).fail noteFailure)

/-- `filecheck/src/check/mod.rs:716-792`: the right-hand side and the exclusion region of
`CheckTree::MatchAround`, once the left-hand side matched. -/
def aroundAfterLeft {E : Type} (root : Pat E) (leftEnd : Nat) (matched : List Matches)
    (right : Bool × List Matches × St E) : P (GR × St E) :=
  match right with
  | (true, rms, s) => do
    assertNonEmpty rms
    let rightStart ← minStart rms
    let r ← s.ctx.cur.searchRange leftEnd rightStart
    let (extra, s) ← excl root r s
    .ok (.matched (matched ++ extra ++ rms), s)
  | (false, rms, s) => .ok (.matched (matched ++ rms), s.pass root.len)

/-- `filecheck/src/check/mod.rs:793-858`: same, when the left-hand side did not match. -/
def aroundNoLeft {E : Type} (root : Pat E) (leftEnd : Nat) (matched : List Matches)
    (right : Bool × List Matches × St E) : P (GR × St E) :=
  match right with
  | (true, rms, s) => do
    assertNonEmpty rms
    let rightStart ← minStart rms
    let r ← s.ctx.cur.searchRange leftEnd rightStart
    let (extra, s) ← excl root r s
    .ok (.matched (matched ++ extra ++ rms), s)
  | (false, rms, s) => .ok (.unmatched (matched ++ rms), s.pass root.len)

/-- `filecheck/src/check/mod.rs:862-944`, `CheckTree::MatchBefore`, given the result of its left-hand
side and the cursor position before it. -/
def afterBefore {E : Type} (root : Pat E) (leftEnd : Nat)
    (left : Bool × List Matches × St E) : P (GR × St E) :=
  match left with
  | (true, lms, s) => do
    assertNonEmpty lms
    let r ← s.ctx.cur.searchBlock
    let (extra, s) ← excl root r s
    .ok (.matched (lms ++ extra), s)
  | (false, lms, s) => do
    let r ← s.ctx.cur.searchRange leftEnd s.ctx.cur.stop
    let (extra, s) ← excl root r s
    .ok (.unmatched (lms ++ extra), s)

/-- `filecheck/src/check/mod.rs:945-995`, `CheckTree::MatchAfter`, given the result of its right-hand
side and the cursor position before it. -/
def afterAfter {E : Type} (root : Pat E) (leftEnd : Nat)
    (right : Bool × List Matches × St E) : P (GR × St E) :=
  match right with
  | (true, rms, s) => do
    assertNonEmpty rms
    let rightStart ← minStart rms
    let r ← s.ctx.cur.searchRange leftEnd rightStart
    let (extra, s) ← excl root r s
    .ok (.matched (rms ++ extra), s)
  | (false, rms, s) => .ok (.unmatched rms, s.pass root.len)

mutual
/-- `filecheck/src/check/mod.rs:295-696` `check_group`. -/
def checkGroup {E : Type} : Group E → St E → P (GR × St E)
  | .never p, s => checkNever p s
  | .ordered rules, s => checkOrdered rules s
  | .repeated rule count, s => checkRepeated rule count s
  | .unordered d, s => checkUnordered d s
  | .bounded d g, s => do
    let (left, ctx) ← d.apply s.ctx
    let (right, s) ← checkGroup g { s with ctx := ctx }
    combineBounded left right s
  | .tree t, s => checkTree t s

/-- `filecheck/src/check/mod.rs:699-997` `check_tree`. -/
def checkTree {E : Type} : Tree E → St E → P (GR × St E)
  | .matchAll g, s => checkGroup g s
  | .matchAround root left right, s => do
    let lr ← checkTree left s
    let (ok, lms, s) ← expectNoErr lr
    if ok then do
      assertNonEmpty lms
      let leftEnd ← maxEnd lms
      let rr ← checkTree right s
      let rr ← expectNoErr rr
      aroundAfterLeft root leftEnd lms rr
    else do
      let leftEnd := s.ctx.cur.start
      let rr ← checkTree right s
      let rr ← expectNoErr rr
      aroundNoLeft root leftEnd lms rr
  | .matchBefore root left, s => do
    let leftEnd := s.ctx.cur.start
    let lr ← checkTree left s
    let lr ← expectNoErr lr
    afterBefore root leftEnd lr
  | .matchAfter root right, s => do
    let leftEnd := s.ctx.cur.start
    let rr ← checkTree right s
    let rr ← expectNoErr rr
    afterAfter root leftEnd rr
end

/-- One iteration of `filecheck/src/check/mod.rs:258-269` and `277-291`. -/
def checkOne {E : Type} (g : Group E) (s : St E) : P (St E) := do
  let (r, s) ← checkGroup g s
  match r with
  | .matched ms => .ok { s with res := s.res.appendAll ms }
  | .unmatched ms => .ok { s with res := s.res.appendAll ms }
  | .err f => .ok (s.fail f)

/-- `filecheck/src/check/mod.rs:253-270` `check_block_section`, and the loop of `check_group_sections`
(l. 272-292), whose sections are groups. -/
def checkGroups {E : Type} : List (Group E) → St E → P (St E)
  | [], s => .ok s
  | g :: gs, s => do
    let s ← checkOne g s
    checkGroups gs s

/-- `filecheck/src/check/mod.rs:272-292` `check_group_sections`. -/
def checkGroupSections {E : Type} : List (Section E) → St E → P (St E)
  | [], s => .ok s
  | .group g :: ss, s => do
    let s ← checkOne g s
    checkGroupSections ss s
  | .block _ _ :: _, _ => .error .unreachableCode

/-- `filecheck/src/check/mod.rs:1017-1040` `BlockInfo` (`sections` is always `Some`). -/
structure BlockInfo where
  label : Option Info
  sections : Rng
  start : Option Nat
  stop : Option Nat
  eof : Nat
  deriving DecidableEq, Repr

/-- `filecheck/src/check/mod.rs:1042-1044` `BlockInfo::range`. -/
def BlockInfo.range (b : BlockInfo) : P Rng := Rng.new (b.start.getD 0) (b.stop.getD b.eof)

/-- `filecheck/src/check/mod.rs:137-144`: set the end of the most recent block which has a start. -/
def setPrevEnd (e : Nat) : List BlockInfo → List BlockInfo
  | [] => []
  | b :: bs => if b.start.isSome then { b with stop := some e } :: bs else b :: setPrevEnd e bs

/-- Is the section a `CheckSection::Block`? -/
def Section.isBlock {E : Type} : Section E → Bool
  | .block _ _ => true
  | .group _ => false

/-- `filecheck/src/check/mod.rs:96-177`: the loop of `discover_blocks`. `acc` holds the blocks in
reverse order (most recent first). `label.try_match` is run on an immutable context, so the
environment is unchanged. -/
def discoverLoop {E : Type} (eof : Nat) (env : E) :
    List (Section E) → Nat → Cursor → List BlockInfo → List Failure → P (List BlockInfo × List Failure)
  | [], _, _, acc, errs => .ok (acc, errs)
  | .group _ :: ss, i, cur, acc, errs => discoverLoop eof env ss (i + 1) cur acc errs
  | .block label _ :: ss, i, cur, acc, errs => do
    let r ← cur.searchToEof
    match (label.run cur.buf r env).1 with
    | some m =>
      match m.info with
      | some info => do
        let nl ← cur.nextNewlineFrom info.start
        let eol := nl.getD eof
        let pl ← cur.prevNewlineFrom info.start
        let prevEnd := pl.getD 0
        let cur ← cur.setStart eol
        discoverLoop eof env ss (i + 1) cur
          (⟨some info, ⟨i, i + 1⟩, some cur.start, none, eof⟩ :: setPrevEnd prevEnd acc) errs
      | none =>
        discoverLoop eof env ss (i + 1) cur (⟨none, ⟨i, i + 1⟩, none, none, eof⟩ :: acc)
          (errs ++ [⟨.noneButExpected, true⟩])
    | none =>
      discoverLoop eof env ss (i + 1) cur (⟨none, ⟨i, i + 1⟩, none, none, eof⟩ :: acc)
        (errs ++ [⟨.noneForInvalidPattern, true⟩])

/-- `filecheck/src/check/mod.rs:67-189` `discover_blocks`: `inl` is `Err(TestFailed)`. On both paths
the cursor is reset (l. 180). -/
def discoverBlocks {E : Type} (prog : List (Section E)) (c : Ctx E) :
    P (Except (List Failure) (List BlockInfo) × Ctx E) := do
  let eof := c.cur.buf.length
  let implicit : List BlockInfo :=
    match prog with
    | .block _ _ :: _ => []
    | _ => [⟨none, ⟨0, (prog.takeWhile (fun s => !s.isBlock)).length⟩, some 0, none, eof⟩]
  let (acc, errs) ← discoverLoop eof c.env prog 0 c.cur implicit []
  let cur ← c.cur.reset
  if errs.isEmpty then .ok (.ok acc.reverse, { c with cur := cur })
  else .ok (.error errs, { c with cur := cur })

/-- `program.sections[start..end]`. -/
def sectionsOf {E : Type} (prog : List (Section E)) (r : Rng) : List (Section E) :=
  (prog.take r.stop).drop r.start

/-- `filecheck/src/check/mod.rs:226-246`: check the sections of a block, in the block which was entered. -/
def checkSections {E : Type} (prog : List (Section E)) (r : Rng) (s : St E) : P (St E) :=
  if r.isEmpty then .ok s
  else do
    let n ← r.len
    if n > 1 then checkGroupSections (sectionsOf prog r) s
    else
      match prog[r.start]? with
      | some (.block _ body) => checkGroups body s
      | some (.group g) => checkGroupSections [.group g] s
      | none => .error .indexOutOfBounds

/-- `filecheck/src/check/mod.rs:210-246`: the body of the loop of `check_blocks`. `varScope` is
`config.options.enable_var_scope` and `clear` is `Env::clear`
(`filecheck/src/context.rs:205-213` `enter_block`). -/
def checkBlock {E : Type} (varScope : Bool) (clear : E → E) (prog : List (Section E))
    (b : BlockInfo) (s : St E) : P (St E) := do
  let s := match b.label with
    | some i => { s with res := s.res.addMatched i }
    | none => s
  if b.start.isNone then .ok s
  else do
    let r ← b.range
    let cur ← s.ctx.cur.setBounds r
    checkSections prog b.sections { s with ctx := ⟨cur, if varScope then clear s.ctx.env else s.ctx.env⟩ }

/-- `filecheck/src/check/mod.rs:209-248`: the loop of `check_blocks`. -/
def checkBlocks {E : Type} (varScope : Bool) (clear : E → E) (prog : List (Section E)) :
    List BlockInfo → St E → P (St E)
  | [], s => .ok s
  | b :: bs, s => do
    let s ← checkBlock varScope clear prog b s
    checkBlocks varScope clear prog bs s

/-- `filecheck/src/lib.rs` options read by the checker. -/
structure CheckOpts where
  allowEmpty : Bool := false
  enableVarScope : Bool := false

/-- `filecheck/src/check/mod.rs:40-58` `Checker::check_input` (without the input dump). -/
def checkInput {E : Type} (o : CheckOpts) (clear : E → E) (prog : List (Section E)) (env : E) (b : Buf) :
    P TestResult := do
  let cur ← Cursor.new b
  let c : Ctx E := ⟨cur, env⟩
  if !o.allowEmpty && b.isEmpty then .ok (TestResult.fromErrors [⟨.emptyInput, false⟩])
  else do
    let (d, c) ← discoverBlocks prog c
    match d with
    | .error errs => .ok (TestResult.fromErrors errs)
    | .ok blocks => do
      let s ← checkBlocks o.enableVarScope clear prog blocks ⟨c, TestResult.new⟩
      .ok s.res

end Litcheck
