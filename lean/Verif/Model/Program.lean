import Verif.Model.Check

/-!
# The program compiler: `filecheck/src/check/program.rs`
-/

namespace Litcheck

/-- `filecheck/src/ast/check.rs` `Check` (the directive kinds which reach the compiler). -/
inductive Kind where
  | label | plain | next | same | not | dag | count (n : Nat) | empty
  deriving DecidableEq, Repr

/-- `filecheck/src/ast/check.rs` `CheckLine`: the kind and the pattern. The pattern is already
compiled: `Pattern::compile` of a single line is an external step here (its errors abort compilation
in the source; `Verif/Model/Literal.lean` models it for literals). `src` is the text of the pattern,
which `MatchAll::compile` looks at. -/
structure Line (E : Type) where
  kind : Kind
  pat : Pat E
  src : Buf := []

/-- The pattern-set compiler `MatchAll::compile`
(`filecheck/src/pattern/matcher/matchers/all.rs:42-197`), as an oracle; `none` is a `DiagResult` error.
`nots` is followed by `MatchAny::from`. `Verif/Model/Literal.lean` models it for literals. -/
structure SetCompiler (E : Type) where
  nots : List (Line E) → P (Option (Pat E))
  dags : List (Line E) → P (Option (Dag E))

/-- Errors of `CheckProgram::compile`. -/
inductive CompileError where
  | empty
  | invalidFirstCheck
  | pattern
  deriving DecidableEq, Repr

/-- `filecheck/src/check/program.rs:553-567` `can_insert_dependent_positive_check`. -/
def canInsertDependent {E : Type} (block : List (Line E)) (label : Option (Line E)) : Bool :=
  if label.isSome then true
  else block.any fun l =>
    match l.kind with
    | .label | .plain | .count _ | .dag => true
    | _ => false

/-- A labelled (or unlabelled) block of lines. -/
abbrev LBlock (E : Type) := Option (Line E) × List (Line E)

/-- `filecheck/src/check/program.rs:249-305`: the loop of `compile_lines`. Once a label has been seen,
the inner loop (l. 262-271) takes every line up to the next label, so `label.isSome` exactly when a
non-label line is read by the inner loop. `imp` is the `--implicit-check-not` line. -/
def compileLinesLoop {E : Type} (imp : Option (Line E)) :
    List (Line E) → Option (Line E) → List (Line E) → List (LBlock E) →
    Except CompileError (List (LBlock E))
  | [], label, block, blocks =>
    if label.isSome || !block.isEmpty then .ok (blocks ++ [(label, block)]) else .ok blocks
  | l :: ls, label, block, blocks =>
    if l.kind = .label then
      if label.isSome || !block.isEmpty then
        compileLinesLoop imp ls (some l) imp.toList (blocks ++ [(label, block)])
      else compileLinesLoop imp ls (some l) block blocks
    else if label.isSome then
      -- inner loop, l. 267-269
      compileLinesLoop imp ls label (block ++ [l]) blocks
    else match l.kind with
      | .not => compileLinesLoop imp ls label (block ++ [l]) blocks
      | .empty | .same | .next =>
        if canInsertDependent block label then
          compileLinesLoop imp ls label (block ++ [l] ++ imp.toList) blocks
        else .error .invalidFirstCheck
      | _ => compileLinesLoop imp ls label (block ++ [l] ++ imp.toList) blocks

/-- `filecheck/src/check/program.rs:204-308` `compile_lines`, up to the call of `compile_blocks`. -/
def compileLines {E : Type} (imp : Option (Line E)) (lines : List (Line E)) :
    Except CompileError (List (LBlock E)) :=
  compileLinesLoop imp lines none imp.toList []

/-- `filecheck/src/check/program.rs:524-544` `compile_rule`, and l. 472-474 for `CHECK-EMPTY`. -/
def compileRule {E : Type} (l : Line E) : Rule E :=
  match l.kind with
  | .same => .same l.pat
  | .next => .next l.pat
  | .empty => .empty l.pat.pspan
  | _ => .plain l.pat

/-- A `CHECK-NOT` group waiting for its right-hand side (`pending_tree`). -/
abbrev Pending (E : Type) := Option (Option (Tree E) × Pat E)

/-- `filecheck/src/check/program.rs:410-432`, `439-461`, `481-503`: push a group, or attach it to the
pending `CHECK-NOT`. -/
def pushGroup {E : Type} (groups : List (Group E)) (pending : Pending E) (g : Group E) : List (Group E) :=
  match pending with
  | some (some left, root) => groups ++ [.tree (.matchAround root left (.matchAll g))]
  | some (none, root) => groups ++ [.tree (.matchAfter root (.matchAll g))]
  | none => groups ++ [g]

/-- `groups.pop()` in `filecheck/src/check/program.rs:336-371`: if the last group is a tree or a
`CHECK-DAG` group, it becomes the left-hand side of the `CHECK-NOT`. -/
def popLeft {E : Type} (groups : List (Group E)) : List (Group E) × Option (Tree E) :=
  match groups.getLast? with
  | some (.tree t) => (groups.dropLast, some t)
  | some (.unordered d) => (groups.dropLast, some (.matchAll (.unordered d)))
  | _ => (groups, none)

/-- Is the line a `CHECK-NOT`? -/
def Line.isNot {E : Type} (l : Line E) : Bool := l.kind == .not
/-- Is the line a `CHECK-DAG`? -/
def Line.isDag {E : Type} (l : Line E) : Bool := l.kind == .dag
/-- Does the line end an ordered group (`filecheck/src/check/program.rs:468`)? -/
def Line.endsOrdered {E : Type} (l : Line E) : Bool :=
  match l.kind with
  | .not | .dag | .count _ => true
  | _ => false

/-- `filecheck/src/check/program.rs:386-407`: the group of a set of `CHECK-DAG` lines, which takes the
following `CHECK` or `CHECK-COUNT` line, if there is one. -/
def dagGroup {E : Type} (d : Dag E) (rest : List (Line E)) : Group E × List (Line E) :=
  match rest with
  | l :: rest' =>
    match l.kind with
    | .plain => (.bounded d (.ordered [compileRule l]), rest')
    | .count n => (.bounded d (.repeated (compileRule l) n), rest')
    | _ => (.unordered d, rest)
  | [] => (.unordered d, rest)

/-- `filecheck/src/check/program.rs:321-506`: the loop over the lines of a block. The fuel is the
number of lines; every iteration removes at least one (`compileBody_fuel` in `Verif/Proofs/Program.lean`
shows that the fuel never runs out). -/
def compileBody {E : Type} (sc : SetCompiler E) :
    Nat → List (Line E) → List (Group E) → Pending E →
    P (Except CompileError (List (Group E) × Pending E))
  | _, [], groups, pending => .ok (.ok (groups, pending))
  | 0, _ :: _, _, _ => .error .unreachableCode
  | fuel + 1, line :: body, groups, pending =>
    match line.kind with
    | .not =>
      if pending.isSome then .error .assertFailed
      else
        match sc.nots (line :: body.takeWhile Line.isNot) with
        | .error e => .error e
        | .ok none => .ok (.error .pattern)
        | .ok (some matcher) =>
          let rest := body.dropWhile Line.isNot
          let (groups', left) := popLeft groups
          if rest.isEmpty then
            match left with
            | some t => compileBody sc fuel rest (groups' ++ [.tree (.matchBefore matcher t)]) none
            | none => compileBody sc fuel rest (groups' ++ [.never matcher]) none
          else compileBody sc fuel rest groups' (some (left, matcher))
    | .dag =>
      match sc.dags (line :: body.takeWhile Line.isDag) with
      | .error e => .error e
      | .ok none => .ok (.error .pattern)
      | .ok (some d) =>
        let (g, rest) := dagGroup d (body.dropWhile Line.isDag)
        compileBody sc fuel rest (pushGroup groups pending g) none
    | .count n =>
      compileBody sc fuel body (pushGroup groups pending (.repeated (compileRule line) n)) none
    | _ =>
      let rules := (line :: body.takeWhile (fun l => !l.endsOrdered)).map compileRule
      compileBody sc fuel (body.dropWhile (fun l => !l.endsOrdered))
        (pushGroup groups pending (.ordered rules)) none

/-- `filecheck/src/check/program.rs:311-522` `compile_blocks`. -/
def compileBlocks {E : Type} (sc : SetCompiler E) :
    List (LBlock E) → P (Except CompileError (List (Section E)))
  | [] => .ok (.ok [])
  | (label, body) :: bs => do
    let r ← compileBody sc body.length body [] none
    match r with
    | .error e => .ok (.error e)
    | .ok (_, some _) => .error .assertFailed
    | .ok (groups, none) => do
      let rest ← compileBlocks sc bs
      match rest with
      | .error e => .ok (.error e)
      | .ok rest =>
        match label with
        | some l => .ok (.ok (.block l.pat groups :: rest))
        | none => .ok (.ok (groups.map .group ++ rest))

/-- `filecheck/src/check/program.rs:189-201` `CheckProgram::compile`. `imp` is the line built from the
`--implicit-check-not` patterns (l. 213-240), if there are any. -/
def compile {E : Type} (sc : SetCompiler E) (imp : Option (Line E)) (lines : List (Line E)) :
    P (Except CompileError (List (Section E))) :=
  if lines.isEmpty && imp.isNone then .ok (.error .empty)
  else match compileLines imp lines with
    | .error e => .ok (.error e)
    | .ok blocks => compileBlocks sc blocks

end Litcheck
