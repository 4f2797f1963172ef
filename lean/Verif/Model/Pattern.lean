import Verif.Model.Smart
import Verif.Model.Parser
import Verif.Model.Text

/-!
# The compiler of patterns: `filecheck/src/ast/pattern.rs`, `filecheck/src/pattern/mod.rs`, `smart/builder.rs`

`builder.rs` is `filecheck/src/pattern/matcher/matchers/smart/builder.rs`. Spans and diagnostics are left out: a result `none` is a diagnostic.
-/

namespace Litcheck.Pattern
open Litcheck.Smart
open Litcheck.Regex (Engine utf8)
open Litcheck.Lex (Part Match CPat VarName)

/-- `RegexPattern`, `filecheck/src/ast/pattern.rs:111-114`. -/
structure Rx where
  src : Str
  caps : List Cap
  deriving DecidableEq, Repr

/-- A part after `compact`. -/
inductive CPart where
  | lit (s : Str) | rx (r : Rx) | dyn (m : Match)
  deriving DecidableEq, Repr

/-- A pattern after `compact`. -/
inductive Compact where
  | empty | lit (s : Str) | rx (r : Rx) | parts (ps : List CPart)
  deriving DecidableEq, Repr

/-- The state of the loop of `compact`, `filecheck/src/ast/pattern.rs:443-446`. -/
structure CSt where
  out : List CPart
  text : Str
  caps : List Cap
  litMode : Bool
  deriving DecidableEq, Repr

/-- Append to the source of a regular expression, first escaping the literal text so far: `convert_to_regex`,
`filecheck/src/ast/pattern.rs:417-431`, `filecheck/src/ast/pattern.rs:457-469`. -/
def CSt.addRx (st : CSt) (src : Str) (caps : List Cap) : CSt :=
  { st with
    text := (if st.litMode then Regex.escape st.text else st.text) ++ src
    caps := st.caps ++ caps
    litMode := false }

/-- Close the run of static parts: `filecheck/src/ast/pattern.rs:528-561`, `filecheck/src/ast/pattern.rs:589-604`. -/
def CSt.flush (st : CSt) : List CPart :=
  if st.text.isEmpty then st.out
  else if st.litMode then st.out ++ [.lit st.text] else st.out ++ [.rx ⟨st.text, st.caps⟩]

/-- One part, `filecheck/src/ast/pattern.rs:447-568`. -/
def compactStep (st : CSt) : Part → CSt
  | .literal s => { st with text := st.text ++ (if st.litMode then s else Regex.escape s) }
  | .regex s => st.addRx s []
  | .match_ (.substitution name (some s)) => st.addRx (group (symOf name) s) [⟨name, .string⟩]
  | .match_ (.numeric f none none) => st.addRx (group' (formatBody (f.getD (.unsigned 0)))) []
  | .match_ (.numeric f (some name) none) =>
    st.addRx (group (symOf name) (formatBody (f.getD (.unsigned 0)))) [⟨name, .number f⟩]
  | .match_ m => ⟨st.flush ++ [.dyn m], [], [], true⟩

/-- `CheckPattern::compact`, `filecheck/src/ast/pattern.rs:414-608`. -/
def compact : CPat → Compact
  | .empty => .empty
  | .literal s => .lit s
  | .regex s => .rx ⟨s, []⟩
  | .match_ [] => .empty
  | .match_ parts =>
    let st := parts.foldl compactStep ⟨[], [], [], true⟩
    if st.out.isEmpty then if st.litMode then .lit st.text else .rx ⟨st.text, st.caps⟩
    else .parts st.flush

/-- The options which matchers look at. -/
structure Opts where
  ignoreCase : Bool
  strictWs : Bool

/-- The bytes of a literal for `SubstringMatcher::new_with_start_kind`, `filecheck/src/pattern/matcher/matchers/substring.rs:33-63`. -/
def litBytes (o : Opts) (s : Str) : Buf := utf8 (canonicalizeHorizontalWhitespace s o.strictWs)

/-- `Pattern`, `filecheck/src/pattern/mod.rs:21-34`. -/
inductive Compiled (eng : Engine) where
  | always
  | substring (lit : Buf)
  | regex (prog : eng.Prog) (caps : List Cap)
  | smart (ops : List (MOp eng))
  | whitespace

variable (eng : Engine)

/-- `SmartMatcherBuilder::literal`, `builder.rs:77-97`. -/
def buildLiteral (o : Opts) (s : Str) : P (Option (List (MOp eng))) :=
  if s.isEmpty then .error .assertFailed else .ok (some [.literal (litBytes o s)])

/-- `SmartMatcherBuilder::regex_pattern`, `builder.rs:103-163`. -/
def buildRegex (o : Opts) (r : Rx) : P (Option (List (MOp eng))) :=
  match eng.build o.ignoreCase r.src with
  | none => .ok none
  | some prog => .ok (some (.regex prog r.caps :: r.caps.reverse.map fun c => .bind c.name (some c.ty)))

/-- `SmartMatcherBuilder::lower_match`, `builder.rs:33-75`, with `capture`, `builder.rs:212-252`, `numeric`, `builder.rs:165-173`,
`capture_numeric`, `builder.rs:254-278`, `capture_numeric_with_constraint`, `builder.rs:280-312`, `substitution`,
`builder.rs:199-203`, and `substitution_with_format`, `builder.rs:205-210`. -/
def lowerMatch (o : Opts) : Match → P (Option (List (MOp eng)))
  | .substitution name none => .ok (some [.subst (.var name) none])
  | .substitution name (some s) =>
    match eng.build o.ignoreCase (group (symOf name) s) with
    | none => .ok none
    | some prog => .ok (some [.regex prog [⟨name, .string⟩], .bind name none])
  | .numeric f none none => .ok (some [.numeric f none])
  | .numeric f none (some e) => .ok (some [.subst e (some (.number f))])
  | .numeric f (some name) none => .ok (some [.numeric f (some ⟨name, .number f⟩), .bind name (some (.number f))])
  | .numeric f (some name) (some e) =>
    .ok (some [.numeric f (some ⟨name, .number f⟩), .constraint e, .bind name (some (.number f))])

/-- The operations of one part. -/
def lowerPart (o : Opts) : CPart → P (Option (List (MOp eng)))
  | .lit s => buildLiteral eng o s
  | .rx r => buildRegex eng o r
  | .dyn m => lowerMatch eng o m

/-- The loop over the parts, `filecheck/src/pattern/mod.rs:94-106`. -/
def lowerParts (o : Opts) : List CPart → P (Option (List (MOp eng)))
  | [] => .ok (some [])
  | p :: ps => do
    match ← lowerPart eng o p with
    | none => .ok none
    | some ops =>
      match ← lowerParts o ps with
      | none => .ok none
      | some rest => .ok (some (ops ++ rest))

/-- `char::is_ascii_whitespace` and `u8::is_ascii_whitespace`: not the vertical tab. -/
def isAsciiWs (c : Nat) : Bool := c == 32 || c == 9 || c == 10 || c == 12 || c == 13

/-- `Pattern::from_prefix` for a literal, `filecheck/src/pattern/mod.rs:46-68`. -/
def compileLit (o : Opts) (s : Str) : P (Option (Compiled eng)) :=
  if s.isEmpty then .ok none
  else if (Script.trim s).isEmpty then
    if s.all fun c => isAsciiWs c.toNat then .ok (some .whitespace)
    else
      match eng.build o.ignoreCase "\\s+".toList with
      | none => .ok none
      | some prog => .ok (some (.regex prog []))
  else .ok (some (.substring (litBytes o s)))

/-- `RegexMatcher::new`, `filecheck/src/pattern/matcher/matchers/regex.rs:33-69`. -/
def compileRx (o : Opts) (r : Rx) : P (Option (Compiled eng)) :=
  match eng.build o.ignoreCase r.src with
  | none => .ok none
  | some prog => .ok (some (.regex prog r.caps))

/-- `Pattern::compile`, `filecheck/src/pattern/mod.rs:83-114`. -/
def compile (o : Opts) (p : CPat) : P (Option (Compiled eng)) :=
  match compact p with
  | .empty => .ok (some .always)
  | .lit s => compileLit eng o s
  | .rx r => compileRx eng o r
  | .parts ps => do
    match ← lowerParts eng o ps with
    | none => .ok none
    | some ops => .ok (some (.smart ops))

/-- `Pattern::compile_static`, `filecheck/src/pattern/mod.rs:116-145`. -/
def compileStatic (o : Opts) (p : CPat) : P (Option (Compiled eng)) :=
  match compact p with
  | .empty => .error .unreachableCode
  | .lit s => if s.isEmpty then .error .assertFailed else .ok (some (.substring (litBytes o s)))
  | .rx r => if r.caps.isEmpty then compileRx eng o r else .ok none
  | .parts _ => .ok none

/-- `Pattern::compile_literal`, `filecheck/src/pattern/mod.rs:147-159`. -/
def compileLiteral (o : Opts) (p : CPat) : P (Option (Compiled eng)) :=
  match p with
  | .literal s => if s.isEmpty then .error .assertFailed else .ok (some (.substring (litBytes o s)))
  | _ => .error .unreachableCode

/-- `AlwaysMatch`, `filecheck/src/pattern/matcher/matchers/always.rs:27-42`. -/
def alwaysPat (pspan : Nat) : Pat Vars where
  run _ r env := (some (.ok ⟨r.start, r.start, 0, pspan⟩), env)
  pspan := pspan

/-- The length of the whitespace at the front, up to a line feed: `filecheck/src/pattern/matcher/matchers/whitespace.rs:46-57`. -/
def wsLen : Buf → Nat
  | [] => 0
  | x :: xs => if x == LF || !isAsciiWs x.toNat then 0 else wsLen xs + 1

/-- `AsciiWhitespaceMatcher`, `filecheck/src/pattern/matcher/matchers/whitespace.rs:28-63`. -/
def whitespacePat (pspan : Nat) : Pat Vars where
  run b r env :=
    match sliceOf b r.start r.stop with
    | [] => (some matchNone, env)
    | x :: xs =>
      if isAsciiWs x.toNat then (some (.ok ⟨r.start, r.start + wsLen (x :: xs), 0, pspan⟩), env) else (some matchNone, env)
  pspan := pspan

variable {eng} in
/-- `Pattern::into_matcher_mut`, `filecheck/src/pattern/mod.rs:36-44`: the matcher which a rule uses. -/
def Compiled.pat (cf : Conf eng) (pspan : Nat) : Compiled eng → Pat Vars
  | .always => alwaysPat pspan
  | .substring lit => litPat cf.ignoreCase lit pspan
  | .regex prog caps => regexPat prog caps pspan
  | .smart ops => smartPat cf ops pspan
  | .whitespace => whitespacePat pspan

end Litcheck.Pattern
