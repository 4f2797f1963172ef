import Verif.Model.Match

/-!
# Rules: `filecheck/src/rules/*.rs`

Patterns are oracles: a pattern is any total function from the buffer, the search bounds and the
variable environment to a match result.  Theorems add hypotheses ("contracts") about them, and
`Verif/Model/Literal.lean` gives the concrete substring matcher which satisfies the contracts.
-/

namespace Litcheck

/-- A compiled pattern (`filecheck/src/pattern/mod.rs`), as an oracle for
`MatcherMut::try_match_mut`. The first component is `none` for a `DiagResult` error.
`len` is `MatchAny::pattern_len` (`filecheck/src/pattern/matcher/matchers/any.rs:52-60`). -/
structure Pat (E : Type) where
  run : Buf → Rng → E → Option MatchResult × E
  len : Nat := 1
  pspan : Nat := 0

/-- A compiled set of `CHECK-DAG` patterns: oracle for the visitor called by
`filecheck/src/rules/dag.rs:36-72`. `none` is a `DiagResult` error; otherwise the matches, the
position of the cursor after the visit if it was moved, and the environment after the visit. -/
structure Dag (E : Type) where
  run : Buf → Rng → E → Option (Matches × Option Nat × E)

/-- `filecheck/src/context.rs:179-186` `MatchContext` (only the parts which change). -/
structure Ctx (E : Type) where
  cur : Cursor
  env : E

/-- `filecheck/src/pattern/matcher/mod.rs:143-160` `MatcherMut for dyn DynMatcherMut`: the bindings
made by the matcher are kept only when the result is ok. (`ContextGuard::save` merges the bindings of
the guard, which started as a clone, into the original; `Verif/Model/Env.lean` models that merge.) -/
def Pat.tryProtected {E : Type} (p : Pat E) (b : Buf) (r : Rng) (env : E) : Option MatchResult × E :=
  match p.run b r env with
  | (some m, env') => if m.isOk then (some m, env') else (some m, env)
  | (none, _) => (none, env)

/-- The rules which occur in ordered groups (`filecheck/src/rules/mod.rs:7-11`). -/
inductive Rule (E : Type) where
  | plain (p : Pat E)
  | next (p : Pat E)
  | same (p : Pat E)
  | empty (pspan : Nat)

/-- The result of `CheckFailedError::match_none` (`filecheck/src/errors.rs:315-338`). -/
def matchNone : MatchResult := .failed ⟨.noneButExpected, true⟩

/-- Shared tail of `plain.rs:40-49` and `next.rs:59-68`: advance the cursor past an ok match. -/
def Rule.finish {E : Type} (c : Ctx E) (res : Option MatchResult × E) : P (Option MatchResult × Ctx E) :=
  match res with
  | (none, _) => .ok (none, c)
  | (some m, env') =>
    match m.isOk, m.info with
    | true, some i => do
      let cur' ← c.cur.setStart i.stop
      .ok (some m, ⟨cur', env'⟩)
    | _, _ => .ok (some m, { c with env := env' })

/-- `filecheck/src/rules/plain.rs:33-50` `CheckPlain::apply`. -/
def Rule.applyPlain {E : Type} (p : Pat E) (c : Ctx E) : P (Option MatchResult × Ctx E) := do
  let r ← c.cur.searchBlock
  Rule.finish c (p.tryProtected c.cur.buf r c.env)

/-- `filecheck/src/rules/next.rs:31-69` `CheckNext::apply`. -/
def Rule.applyNext {E : Type} (p : Pat E) (c : Ctx E) : P (Option MatchResult × Ctx E) := do
  let start ← c.cur.startOfNextLine
  let nl ← c.cur.nextNewlineFrom start
  let nextEol := nl.getD c.cur.stop
  if start ≥ c.cur.stop then do
    let _ ← c.cur.searchRange start c.cur.stop
    .ok (some matchNone, c)
  else do
    let r ← c.cur.searchRange start nextEol
    Rule.finish c (p.tryProtected c.cur.buf r c.env)

/-- `filecheck/src/rules/same.rs:31-73` `CheckSame::apply`. -/
def Rule.applySame {E : Type} (p : Pat E) (c : Ctx E) : P (Option MatchResult × Ctx E) := do
  let r ← c.cur.searchLine
  match p.tryProtected c.cur.buf r c.env with
  | (none, _) => .ok (none, c)
  | (some m, env') =>
    match m.isOk, m.info with
    | true, some i =>
      if i.start < c.cur.eol then do
        let cur' ← c.cur.setStart i.stop
        .ok (some m, ⟨cur', env'⟩)
      else .error .assertFailed
    | _, some _ => .ok (some m, { c with env := env' })
    | _, none => do
      let rb ← c.cur.searchBlock
      match p.tryProtected c.cur.buf rb env' with
      | (none, _) => .ok (none, c)
      | (some ext, env'') =>
        match ext.info with
        | some i => .ok (some ⟨.failed ⟨.foundButWrongLine, true⟩, some i⟩, { c with env := env'' })
        | none => .ok (some m, { c with env := env'' })

/-- `filecheck/src/rules/empty.rs:22-61` `CheckEmpty::apply`. -/
def Rule.applyEmpty {E : Type} (pspan : Nat) (c : Ctx E) : P (Option MatchResult × Ctx E) := do
  let start ← c.cur.startOfNextLine
  let nl ← c.cur.nextNewlineFrom start
  let nextEol := nl.getD c.cur.buf.length
  if c.cur.atEndOfLine && !(decide (start < nextEol)) then do
    let cur' ← c.cur.setStart nextEol
    .ok (some (.ok ⟨start, nextEol, 0, pspan⟩), { c with cur := cur' })
  else do
    let _ ← c.cur.searchRange (min c.cur.start start) nextEol
    .ok (some matchNone, c)

/-- `filecheck/src/rules/mod.rs:63-78` `Rule for dyn DynRule`: the context is cloned, and the clone is
written back unless the rule returned an error (the functions above return the original context in
that case). -/
def Rule.apply {E : Type} (r : Rule E) (c : Ctx E) : P (Option MatchResult × Ctx E) :=
  match r with
  | .plain p => Rule.applyPlain p c
  | .next p => Rule.applyNext p c
  | .same p => Rule.applySame p c
  | .empty s => Rule.applyEmpty s c

/-- `filecheck/src/rules/dag.rs:30-80` `CheckDag::apply`: the guard is saved only if every match is ok. -/
def Dag.apply {E : Type} (d : Dag E) (c : Ctx E) : P (Option Matches × Ctx E) := do
  let r ← c.cur.searchBlock
  match d.run c.cur.buf r c.env with
  | none => .ok (none, c)
  | some (ms, pos, env') => do
    let cur' ← match pos with
      | some p => c.cur.setStart p
      | none => .ok c.cur
    if ms.isOk then .ok (some ms, ⟨cur', env'⟩) else .ok (some ms, c)

end Litcheck
