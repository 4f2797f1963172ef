import Verif.Model.Program

/-!
# Literal patterns

`filecheck/src/pattern/matcher/matchers/substring.rs`, `substring_set.rs`, `all.rs` (for literals),
`filecheck/src/pattern/search/substring_set.rs`, `filecheck/src/pattern/search/default.rs` and
`filecheck/src/pattern/visitors/static.rs`.

Literals are the bytes of the pattern after `canonicalize_horizontal_whitespace` (see
`Verif/Model/Text.lean`), and are not made of whitespace only (`filecheck/src/pattern/mod.rs:56-66` uses
another matcher for these).  The crate `aho_corasick` is modelled by its documented behaviour for
`MatchKind::LeftmostLongest`: among the occurrences in the searched span, the leftmost; among those, the
longest; among those, the pattern given first.
-/

namespace Litcheck
variable {E : Type}

/-- ASCII lower case (`AhoCorasickBuilder::ascii_case_insensitive`). -/
def asciiLower (x : UInt8) : UInt8 := if 65 ≤ x ∧ x ≤ 90 then x + 32 else x

/-- Byte comparison, with or without `--ignore-case`. -/
def sameByte (ic : Bool) (x y : UInt8) : Bool := if ic then asciiLower x == asciiLower y else x == y

/-- Does the text start with the literal? -/
def startsWith (ic : Bool) : Buf → Buf → Bool
  | [], _ => true
  | _ :: _, [] => false
  | x :: xs, y :: ys => sameByte ic x y && startsWith ic xs ys

/-- Does the literal occur at `p`, ending at or before `stop`? -/
def hitAt (ic : Bool) (b : Buf) (stop p : Nat) (lit : Buf) : Bool :=
  decide (p + lit.length ≤ stop) && startsWith ic lit (b.drop p)

/-- The longest of the literals which occur at `p`, and its index. -/
def longestAt (ic : Bool) (b : Buf) (stop p : Nat) : List Buf → Nat → Option (Nat × Nat)
  | [], _ => none
  | lit :: lits, pid =>
    match longestAt ic b stop p lits (pid + 1) with
    | some (q, n) => if hitAt ic b stop p lit && decide (n ≤ lit.length) then some (pid, lit.length) else some (q, n)
    | none => if hitAt ic b stop p lit then some (pid, lit.length) else none

/-- `AhoCorasick::find` on `b[p..stop]`, where `n = stop - p`: index of the pattern, start and end. -/
def findSet (ic : Bool) (lits : List Buf) (b : Buf) (stop : Nat) : Nat → Nat → Option (Nat × Nat × Nat)
  | n, p =>
    match longestAt ic b stop p lits 0 with
    | some (pid, len) => some (pid, p, p + len)
    | none =>
      match n with
      | 0 => none
      | n + 1 => findSet ic lits b stop n (p + 1)

/-- `filecheck/src/pattern/matcher/matchers/substring.rs:80-98` `SubstringMatcher::try_match`
(`match_none` is `CheckFailedError::match_none`, `filecheck/src/errors.rs:315-338`). -/
def litPat (ic : Bool) (lit : Buf) (pspan : Nat) : Pat E where
  run b r env :=
    match findSet ic [lit] b r.stop (r.stop - r.start) r.start with
    | some (_, s, e) => (some (.ok ⟨s, e, 0, pspan⟩), env)
    | none => (some matchNone, env)
  pspan := pspan

/-- `filecheck/src/pattern/matcher/matchers/substring_set.rs:133-158` `SubstringSetMatcher::try_match`,
which is what `MatchAny::Literal` runs (`any.rs:188-190`). The literals come with their spans. -/
def litAny (ic : Bool) (lits : List (Buf × Nat)) : Pat E where
  run b r env :=
    match findSet ic (lits.map Prod.fst) b r.stop (r.stop - r.start) r.start with
    | some (pid, s, e) => (some (.ok ⟨s, e, pid, ((lits[pid]?).map Prod.snd).getD 0⟩), env)
    | none => (some matchNone, env)
  len := lits.length

/-- `filecheck/src/pattern/visitors/static.rs:126-147`: one failure for every pattern without a match. -/
def pushMissing (ms0 : Matches) : List Nat → Matches → Matches
  | [], ms => ms
  | pid :: pids, ms =>
    if ms0.any (fun m => m.patternId == some pid) then pushMissing ms0 pids ms
    else pushMissing ms0 pids (Matches.push ms matchNone)

/-- `filecheck/src/pattern/visitors/static.rs:49-166` `try_match_all`, for the literal searcher
(`search/substring_set.rs:131-155` and `search/default.rs:60-80`): the searcher always looks for the next
match after the last one, ignoring `--ignore-case` (`search/substring_set.rs:32`). `start` is the start of
the input of the searcher. Literals are not empty, so that the fuel `stop - start + 1` suffices
(`visitLoop_all` in `Verif/Proofs/DagAll.lean`). -/
def visitLoop (lits : List (Buf × Nat)) (b : Buf) (stop : Nat) :
    Nat → Nat → Matches → Option (Matches × Option Nat)
  | 0, _, _ => none
  | fuel + 1, start, ms =>
    match findSet false (lits.map Prod.fst) b stop (stop - start) start with
    | some (pid, s, e) =>
      if ms.any (fun m => m.patternId == some pid) then visitLoop lits b stop fuel e ms
      else if ms.any (fun m => match m.info with
          | some i => i.range.contains s || i.range.contains e
          | none => false) then visitLoop lits b stop fuel e ms
      else
        let ms := Matches.push ms (.ok ⟨s, e, pid, ((lits[pid]?).map Prod.snd).getD 0⟩)
        if lits.length = ms.length then some (ms, some e)
        else visitLoop lits b stop fuel e ms
    | none => some (pushMissing ms (List.range lits.length) ms, none)

/-- `filecheck/src/rules/dag.rs:38-42`: the `CHECK-DAG` matcher of a set of literals. -/
def litDag (lits : List (Buf × Nat)) : Dag E where
  run b r env := (visitLoop lits b r.stop (r.stop - r.start + 1) r.start []).map (fun x => (x.1, x.2, env))

/-- `filecheck/src/pattern/matcher/matchers/all.rs:58-102`, when all patterns are literals: `unique` holds
the distinct literals met so far, with their spans and the index of their line. A literal met before is
only recorded in `suffixes[canonical_prefix_id]`, where `canonical_prefix_id` is the index of the first
line with that literal, whereas `suffixes` has one element per distinct literal: the indexing panics when
it is out of bounds. `none` is the error of l. 86-94. -/
def dedupeLoop : List (Line E) → Nat → List (Buf × Nat × Nat) → P (Option (List (Buf × Nat)))
  | [], _, unique => .ok (some (unique.map (fun x => (x.1, x.2.1))))
  | l :: ls, id, unique =>
    match unique.find? (fun x => x.1 == l.src) with
    | some x => if x.2.2 < unique.length then dedupeLoop ls (id + 1) unique else .error .indexOutOfBounds
    | none =>
      if l.src.isEmpty then .ok none
      else dedupeLoop ls (id + 1) (unique ++ [(l.src, l.pat.pspan, id)])

/-- `MatchAll::compile` for literals (`all.rs:42-126`), and `MatchAny::from` (`any.rs:36-49`). -/
def litSet (ic : Bool) : SetCompiler E where
  nots ls := do
    let u ← dedupeLoop ls 0 []
    .ok (u.map (litAny ic))
  dags ls := do
    let u ← dedupeLoop ls 0 []
    .ok (u.map litDag)

/-- A line with a literal pattern, compiled (`filecheck/src/pattern/mod.rs:83-88`; l. 117-121 for labels). -/
def litLine (ic : Bool) (k : Kind) (lit : Buf) (pspan : Nat) : Line E := ⟨k, litPat ic lit pspan, lit⟩

end Litcheck
