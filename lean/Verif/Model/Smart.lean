import Verif.Model.Regex
import Verif.Model.Rules
import Verif.Model.Literal
import Verif.Model.Env
import Verif.Model.Number
import Verif.Model.Grammar
import Verif.Model.Script

/-!
# Patterns with variables: `filecheck/src/pattern/matcher/matchers/smart.rs` and `smart/*.rs`

`operand.rs`, `instruction.rs`, `searcher.rs` and `regex.rs` are files of `filecheck/src/pattern/matcher/matchers/`
(the first three in `smart/`). Spans and the texts of diagnostics are not modelled. The engine is a parameter.
-/

namespace Litcheck.Smart
open Litcheck.Regex (Engine Hit utf8 fromUtf8)
open Litcheck.Lex (Expr VarName Op)

/-- `Value`, `filecheck/src/expr/value.rs:5-10`; a `Num` holds a number (the expressions which a definition on the command
line may hold are in `Verif/Model/Cli.lean`). -/
inductive Val where
  | undef
  | str (s : Str)
  | num (v : Int) (f : Option NumFmt)
  deriving DecidableEq, Repr

/-- `ValueType`, `filecheck/src/expr/value.rs:36-40`. -/
inductive Ty where
  | string
  | number (f : Option NumFmt)
  deriving DecidableEq, Repr

/-- `CaptureGroup`, `instruction.rs:127-132`, with `Capture::Explicit` (`filecheck/src/ast/pattern.rs:18-19`): check files make
no other. The group has the name of the variable. -/
structure Cap where
  name : VarName
  ty : Ty
  deriving DecidableEq, Repr

/-- `VariableName::as_str`, `core/src/variables/mod.rs:144-148`. -/
def symOf : VarName → Str
  | .user s | .global s | .pseudo s => s

/-- The key of a variable in the environment. -/
def keyOf : VarName → VName
  | .user s => .user (String.ofList s)
  | .global s => .global (String.ofList s)
  | .pseudo s => .pseudo (String.ofList s)

/-- `MatchOp`, `instruction.rs:13-72`. A literal is given by its canonical bytes. The constraint is always `Eq`. -/
inductive MOp (eng : Engine) where
  | literal (lit : Buf)
  | regex (prog : eng.Prog) (caps : List Cap)
  | numeric (format : Option NumFmt) (cap : Option Cap)
  | subst (e : Expr) (ty : Option Ty)
  | bind (name : VarName) (ty : Option Ty)
  | drop
  | constraint (e : Expr)

/-- What is the same during a search: the engine, `--ignore-case`, the line of the check, and whether arithmetic is
checked for overflow (a debug build) or wraps (a release build). -/
structure Conf (eng : Engine) where
  ignoreCase : Bool
  line : Nat
  checked : Bool

/-- The variables. -/
abbrev Vars := Bindings Val

/-- The outcome of a step: a result, a failed match, a diagnostic (`Err`), or a panic. -/
inductive Step (α : Type) where
  | yes (a : α)
  | no (f : Failure)
  | err
  | panic (p : Panic)
  deriving Repr

/-- Sequencing. -/
def Step.bind {α β : Type} (x : Step α) (f : α → Step β) : Step β :=
  match x with
  | .yes a => f a
  | .no e => .no e
  | .err => .err
  | .panic p => .panic p

/-- The text of a number with its format, or the text of a string. -/
inductive Evald where
  | num (v : Int) (f : Option NumFmt)
  | str (s : Str)
  deriving DecidableEq, Repr

/-- The smallest `i128` and the first integer after the largest. -/
def inI128 (v : Int) : Bool := decide (-(2 ^ 127) ≤ v) && decide (v < 2 ^ 127)

/-- The value an `i128` operation gives for the exact result `v`: a panic or the remainder if it does not fit. -/
def arith (checked : Bool) (v : Int) : Step Int :=
  if inI128 v then .yes v
  else if checked then .panic .assertFailed
  else .yes ((v + 2 ^ 127) % 2 ^ 128 - 2 ^ 127)

/-- The operators, `searcher.rs:669-684`. Division by zero, and of the smallest number by -1, panic in every build. -/
def applyOp (checked : Bool) (op : Op) (l r : Int) : Step Int :=
  match op with
  | .add => arith checked (l + r)
  | .sub => arith checked (l - r)
  | .mul => arith checked (l * r)
  | .div => if r = 0 then .panic .assertFailed else arith true (l.tdiv r)
  | .min => .yes (min l r)
  | .max => .yes (max l r)

/-- The explicit format, `searcher.rs:663-666`. -/
def explicitFormat : Option Ty → Option NumFmt
  | some (.number f) => f
  | _ => none

/-- `evaluate_expr`, `searcher.rs:601-736`. -/
def evalExpr (checked : Bool) (line : Nat) (env : Vars) (ty : Option Ty) : Expr → Step Evald
  | .num n => .yes (.num n none)
  | .var (.pseudo s) => if s = "LINE".toList then .yes (.num line none) else .err
  | .var v =>
    match env.get (keyOf v) with
    | .ok (some (.num n f)) => .yes (.num n f)
    | .ok (some (.str s)) => .yes (.str s)
    | .ok (some .undef) => .err
    | .ok none => .err
    | .error p => .panic p
  | .bin op l r =>
    (evalExpr checked line env ty l).bind fun l =>
    (evalExpr checked line env ty r).bind fun r =>
      match l, r with
      | .num lv lf, .num rv rf =>
        match (Num.inferFormat lf rf).orElse fun _ => explicitFormat ty with
        | none => .err
        | some f => (applyOp checked op lv rv).bind fun v =>
            .yes (.num v (if lf.isNone && rf.isNone && (explicitFormat ty).isNone then none else some f))
      | _, _ => .err

/-- `parse_number`, `operand.rs:111-153`, on the trimmed text. -/
def parseNumber (s : Str) (precision : Nat) (signed : Bool) : Option Int :=
  let fin (s : Str) : Option Int :=
    match Num.fromStrRadix 10 s with
    | none => none
    | some v => if !signed && decide (v < 0) then none else some v
  if precision > 0 then
    if (utf8 s).length > precision then none
    else
      let s' := s.dropWhile (· == '0')
      if s'.isEmpty then some 0 else fin s'
  else fin s

/-- `Operand::as_numeric`, `operand.rs:23-108`; `none` is an error. -/
def asNumeric (v : Val) (format : Option NumFmt) : Option (Int × Option NumFmt) :=
  match v with
  | .undef => none
  | .num v f => some (v, f)
  | .str s =>
    let s := Script.trim s
    match format.getD (.unsigned 0) with
    | .unsigned p => (parseNumber s p false).map (·, format)
    | .signed p => (parseNumber s p true).map (·, format)
    | .hex p pre _ =>
      match (if pre then Num.strip0x s else some s) with
      | none => none
      | some s =>
        if (utf8 s).length > p then none
        else
          let s' := s.dropWhile (· == '0')
          if s'.isEmpty then some (0, format) else (Num.fromStrRadix 16 s').map (·, format)

/-- `NumberFormat::pattern_nocapture` and `pattern`, `filecheck/src/expr/num.rs:487-541`, between the parentheses. -/
def formatBody : NumFmt → Str
  | .signed p => if p = 0 then "[-+]?[0-9]{1,39}".toList else "[-+]?[0-9]{".toList ++ Num.showNat 10 false p ++ ",39}".toList
  | .unsigned p => if p = 0 then "[0-9]{1,39}".toList else "[0-9]{".toList ++ Num.showNat 10 false p ++ ",39}".toList
  | .hex p pre c =>
    (if pre then "0x".toList else []) ++
    (match c with | .any => "[A-Fa-f0-9]".toList | .upper => "[A-F0-9]".toList | .lower => "[a-f0-9]".toList) ++
    "{".toList ++ (if p = 0 then ['1'] else Num.showNat 10 false p) ++ ",32}".toList

/-- A named group around a source: `filecheck/src/expr/num.rs:490-544`, `filecheck/src/ast/pattern.rs:477-481`. -/
def group (name src : Str) : Str := "(?P<".toList ++ name ++ ['>'] ++ src ++ [')']

/-- A group without a name, `filecheck/src/expr/num.rs:450-487`. -/
def group' (src : Str) : Str := "(?:".toList ++ src ++ [')']

/-- `SmartSearcher`, `searcher.rs:19-31`: the start of the cursor, whether it is anchored, the operands (the last one
first), the bounds of the match so far, whether `captures` has a pattern, and the texts captured so far. -/
structure St where
  pos : Nat
  anchored : Bool
  stack : List Val
  mstart : Nat
  mend : Nat
  pat : Bool
  caps : List (Ty × Str)
  deriving Repr

section
variable {eng : Engine}

/-- The groups of a match, `searcher.rs:341-380`: the text of each group which took part. `Input::as_str`
(`filecheck/src/input.rs:120-131`) panics on text which is not UTF-8. -/
def capture (b : Buf) (h : Hit) : List Cap → Step (List (Ty × Str))
  | [] => .yes []
  | c :: cs =>
    match h.group (symOf c.name) with
    | none => capture b h cs
    | some (s, e) =>
      match fromUtf8 b.length (sliceOf b s e) with
      | none => .panic .unwrapNone
      | some t => (capture b h cs).bind fun rest => .yes ((c.ty, t) :: rest)

/-- The source of the regular expression made for a substitution, `searcher.rs:556-570`. -/
def substText (v : Evald) (ty : Option Ty) : Str :=
  match v, ty with
  | .num n _, some (.number (some f)) => Num.display n f
  | .num n f, _ => Num.display n (f.getD (.unsigned 0))
  | .str s, _ => s

/-- `match_part`, `searcher.rs:209-244`: the state and the bounds of the match. `match_literal`, `searcher.rs:246-272`;
`match_regex`, `searcher.rs:274-310`; `match_regex_with_captures`, `searcher.rs:312-395`; `match_number`, `searcher.rs:397-502`;
`match_substitution`, `searcher.rs:548-585`. -/
def matchPart (cf : Conf eng) (b : Buf) (hi : Nat) (env : Vars) (st : St) : MOp eng → Step (St × Nat × Nat)
  | .literal lit =>
    if st.anchored then
      if hitAt cf.ignoreCase b hi st.pos lit then .yes (st, st.pos, st.pos + lit.length) else .no ⟨.noneButExpected, true⟩
    else
      match findSet cf.ignoreCase [lit] b hi (hi - st.pos) st.pos with
      | some (_, s, e) => .yes (st, s, e)
      | none => .no ⟨.noneButExpected, true⟩
  | .regex prog caps =>
    match eng.search prog b st.pos hi st.anchored with
    | none => .no ⟨.noneButExpected, true⟩
    | some h => (capture b h caps).bind fun cs =>
        .yes ({ st with stack := (cs.map fun c => Val.str c.2).reverse ++ st.stack, caps := st.caps ++ cs }, h.start, h.stop)
  | .numeric format cap =>
    if st.pos > hi then .panic .indexOutOfBounds
    else if st.pos = hi then .no ⟨.noneButExpected, true⟩
    else
      let f := format.getD (.unsigned 0)
      match eng.build false (match cap with | some c => group (symOf c.name) (formatBody f) | none => group' (formatBody f)) with
      | none => .panic .unwrapNone
      | some prog =>
        match eng.search prog b st.pos hi st.anchored with
        | none => .no ⟨.noneButExpected, true⟩
        | some h =>
          match cap with
          | none => .yes (st, h.start, h.stop)
          | some c =>
            match fromUtf8 b.length (sliceOf b h.start h.stop) with
            | none => .panic .unwrapNone
            | some t =>
              match Num.parseWithFormat t f with
              | .ok v => .yes ({ st with stack := .num v (some f) :: st.stack, caps := st.caps ++ [(c.ty, t)] }, h.start, h.stop)
              | .error _ => .no ⟨.foundConstraintFailed, true⟩
  | .subst e ty =>
    (evalExpr cf.checked cf.line env ty e).bind fun v =>
      match eng.build cf.ignoreCase (substText v ty) with
      | none => .err
      | some prog =>
        match eng.search prog b st.pos hi st.anchored with
        | none => .no ⟨.noneButExpected, true⟩
        | some h => .yes (st, h.start, h.stop)
  | .bind _ _ => .panic .unreachableCode
  | .drop => .panic .unreachableCode
  | .constraint _ => .panic .unreachableCode

/-- `evaluate_constraint`, `searcher.rs:504-546`: a number which differs only makes `captures` forget its pattern, and the
result is still ok. -/
def constrain (cf : Conf eng) (env : Vars) (st : St) (e : Expr) : Step St :=
  match st.stack with
  | [] => .panic .unwrapNone
  | top :: _ =>
    (evalExpr cf.checked cf.line env none e).bind fun r =>
      match r with
      | .num rv rf =>
        match asNumeric top rf with
        | none => .err
        | some (lv, _) => .yes (if lv ≠ rv then { st with pat := false } else st)
      | .str _ => .no ⟨.foundConstraintFailed, true⟩

/-- `MatchOp::Bind`, `searcher.rs:158-174`. -/
def bindVar (env : Vars) (st : St) (name : VarName) (ty : Option Ty) : Step (St × Vars) :=
  match st.stack with
  | [] => .panic .unwrapNone
  | top :: rest =>
    match ty with
    | none | some .string => .yes ({ st with stack := rest }, env.insert (keyOf name) top)
    | some (.number f) =>
      match asNumeric top f with
      | none => .err
      | some (v, f) => .yes ({ st with stack := rest }, env.insert (keyOf name) (.num v f))

/-- `match_parts`, `searcher.rs:130-207`, with `part_matched`, `searcher.rs:588-598`. -/
def matchParts (cf : Conf eng) (b : Buf) (hi : Nat) : List (MOp eng) → Vars → St → Step (St × Vars)
  | [], env, st => .yes ({ st with pat := true }, env)
  | op :: ops, env, st =>
    if hi ≤ st.pos then .no ⟨.noneButExpected, true⟩
    else
      match op with
      | .constraint e => (constrain cf env st e).bind fun st => matchParts cf b hi ops env st
      | .bind name ty => (bindVar env st name ty).bind fun x => matchParts cf b hi ops x.2 x.1
      | .drop =>
        match st.stack with
        | [] => .panic .unwrapNone
        | _ :: rest => matchParts cf b hi ops env { st with stack := rest }
      | op => (matchPart cf b hi env st op).bind fun x =>
          matchParts cf b hi ops env { x.1 with mend := x.2.2, pos := min x.2.2 b.length }

/-- Where the match of the last part ended when `match_parts` fails: `self.match_end`, which `search_captures_guarded`
reads after the failure. -/
def stoppedAt (cf : Conf eng) (b : Buf) (hi : Nat) : List (MOp eng) → Vars → St → Nat
  | [], _, st => st.mend
  | op :: ops, env, st =>
    if hi ≤ st.pos then st.mend
    else
      match op with
      | .constraint e => match constrain cf env st e with | .yes st => stoppedAt cf b hi ops env st | _ => st.mend
      | .bind name ty => match bindVar env st name ty with | .yes x => stoppedAt cf b hi ops x.2 x.1 | _ => st.mend
      | .drop => match st.stack with | [] => st.mend | _ :: rest => stoppedAt cf b hi ops env { st with stack := rest }
      | op => match matchPart cf b hi env st op with
        | .yes x => stoppedAt cf b hi ops env { x.1 with mend := x.2.2, pos := min x.2.2 b.length }
        | _ => st.mend

/-- The state at the start of an attempt: `SmartSearcher::new`, `searcher.rs:33-45`, and `reset`, `searcher.rs:47-55`. -/
def start (b : Buf) (anchored : Bool) (p : Nat) : St := ⟨min p b.length, anchored, [], p, p, false, []⟩

/-- One attempt, `search_captures_guarded`, `searcher.rs:75-128`: `yes (some …)` for a match, `yes none` when there is no
match to be found, `no` with the position of the next attempt. -/
inductive Attempt where
  | found (st : St) (env : Vars)
  | absent
  | retry (p : Nat)
  | err
  | panic (p : Panic)

/-- `search_captures_guarded`, `searcher.rs:75-128`. -/
def attempt (cf : Conf eng) (b : Buf) (hi : Nat) (anchored : Bool) (prefix_ : MOp eng) (rest : List (MOp eng)) (env : Vars)
    (p : Nat) : Attempt :=
  let st := start b anchored p
  match matchPart cf b hi env st prefix_ with
  | .err => .err
  | .panic p => .panic p
  | .no _ => .absent
  | .yes (st1, s, e) =>
    let st1 : St := { st1 with mstart := s, mend := e, pos := min e b.length, anchored := true }
    match matchParts cf b hi rest env st1 with
    | .err => .err
    | .panic p => .panic p
    | .yes (st2, env') => .found st2 env'
    | .no _ => if anchored then .absent else .retry (max (stoppedAt cf b hi rest env st1) (st.pos + 1))

/-- The result of a search: a match, none, a diagnostic, a panic; `none` when the attempts are used up. -/
inductive Found where
  | found (st : St) (env : Vars)
  | absent
  | err
  | panic (p : Panic)

/-- `search_captures`, `searcher.rs:57-73`: the loop, for at most so many attempts. -/
def search (cf : Conf eng) (b : Buf) (hi : Nat) (anchored : Bool) (prefix_ : MOp eng) (rest : List (MOp eng)) (env : Vars) :
    Nat → Nat → Option Found
  | 0, _ => none
  | fuel + 1, p =>
    match attempt cf b hi anchored prefix_ rest env p with
    | .found st env' => some (.found st (env.merge env'))
    | .absent => some .absent
    | .err => some .err
    | .panic p => some (.panic p)
    | .retry p => search cf b hi anchored prefix_ rest env fuel p

/-- `extract_captures_from_match`, `smart.rs:107-188`, with `try_convert_capture_to_type`, `regex.rs:175-236`: the texts
captured are converted again. -/
def convertible (caps : List (Ty × Str)) : Bool :=
  caps.all fun c => match c.1 with
    | .string => true
    | .number f => match Num.parseWithFormat c.2 (f.getD (.unsigned 0)) with | .ok _ => true | .error _ => false

/-- The outcome of `SmartMatcher::try_match_mut`, `smart.rs:84-104`. -/
inductive Outcome where
  | result (m : MatchResult) (env : Vars)
  | err (env : Vars)
  | panic (p : Panic)
  | hang

/-- `SmartMatcher::try_match_mut`, `smart.rs:84-104`, for at most so many attempts. -/
def tryMatch (cf : Conf eng) (ops : List (MOp eng)) (pspan fuel : Nat) (b : Buf) (r : Rng) (env : Vars) : Outcome :=
  match ops with
  | [] => .panic .unwrapNone
  | op :: rest =>
    match search cf b r.stop false op rest env fuel r.start with
    | none => .hang
    | some (.panic p) => .panic p
    | some .err => .err env
    | some .absent => .result matchNone env
    | some (.found st env') =>
      if st.pat then
        if convertible st.caps then .result (.ok ⟨st.mstart, st.mend, 0, pspan⟩) env'
        else .result (.failed ⟨.foundConstraintFailed, true⟩) env'
      else .result matchNone env'

/-- A pattern with variables as a rule sees it. Every attempt but the last starts after the one before, so that
`r.stop - r.start + 2` attempts decide whether the search ends (`Verif/Props/Smart.lean`). A panic and a search which does
not end are reported as a diagnostic. -/
def smartPat (cf : Conf eng) (ops : List (MOp eng)) (pspan : Nat) : Pat Vars where
  run b r env :=
    match tryMatch cf ops pspan (b.length + 2) b r env with
    | .result m env' => (some m, env')
    | .err env' => (none, env')
    | .panic _ => (none, env)
    | .hang => (none, env)
  pspan := pspan

/-- `RegexMatcher::try_match`, `regex.rs:112-166`, with `bind_captures_in`,
`filecheck/src/pattern/matcher/result.rs:91-104`. -/
def bindAll (env : Vars) : List (Cap × Str) → Option Vars
  | [] => some env
  | (c, t) :: rest =>
    match c.ty with
    | .string => bindAll (env.insert (keyOf c.name) (.str t)) rest
    | .number f =>
      let f := f.getD (.unsigned 0)
      match Num.parseWithFormat t f with
      | .ok v => bindAll (env.insert (keyOf c.name) (.num v (some f))) rest
      | .error _ => none

/-- The captured texts with their variables. -/
def captured (b : Buf) (h : Hit) : List Cap → Option (List (Cap × Str))
  | [] => some []
  | c :: cs =>
    match h.group (symOf c.name) with
    | none => captured b h cs
    | some (s, e) =>
      match fromUtf8 b.length (sliceOf b s e), captured b h cs with
      | some t, some rest => some ((c, t) :: rest)
      | _, _ => none

/-- `RegexMatcher`, `regex.rs:18-25`, as a rule sees it (`try_match_mut`, `regex.rs:98-109`). Text which is not UTF-8 makes it
panic, reported as a diagnostic. -/
def regexPat (prog : eng.Prog) (caps : List Cap) (pspan : Nat) : Pat Vars where
  run b r env :=
    match eng.search prog b r.start r.stop false with
    | none => (some matchNone, env)
    | some h =>
      match captured b h caps with
      | none => (none, env)
      | some cs =>
        match bindAll env cs with
        | some env' => (some (.ok ⟨h.start, h.stop, 0, pspan⟩), env')
        | none => (some (.failed ⟨.foundConstraintFailed, true⟩), env)
  pspan := pspan

end
end Litcheck.Smart
