import Verif.Model.Grammar

/-!
# From tokens to check lines: `filecheck/src/parse/parser.rs`

The parser reads the tokens of `Verif/Model/Lexer.lean`; the code makes them when they are asked for, and the parser stops at the
first error. `Iterator::next` of the lexer (`filecheck/src/parse/lexer/mod.rs:762-792`) drops line feeds before the first directive and
merges successive ones: the first are skipped by the parser anyway, and there are no two in succession. Positions and comments are
left out of the result.
-/

namespace Litcheck.Lex

/-- `ParserError`, `filecheck/src/parse/mod.rs:16-96`, without positions. -/
inductive PErr where
  | lexer (e : LexErr) | unrecognizedToken (t : Token) | unrecognizedEof | extraToken (t : Token) | badMatch
  | emptyPattern | expectedEmptyPattern | invalidCheckCount | unclosedSubstitution | unclosedRegex
  | unusedCheckPrefixes (ps : List Str)
  deriving DecidableEq, Repr

/-- `CheckPatternPart`, `filecheck/src/ast/pattern.rs:667-674`. -/
inductive Part where
  | literal (s : Str) | regex (s : Str) | match_ (m : Match)
  deriving DecidableEq, Repr

/-- `CheckPattern`, `filecheck/src/ast/pattern.rs:239-248`. -/
inductive CPat where
  | empty | literal (s : Str) | regex (s : Str) | match_ (parts : List Part)
  deriving DecidableEq, Repr

/-- `CheckLine`, `filecheck/src/ast/file.rs:39-48`. -/
structure CLine where
  kind : Kind
  literal : Bool
  pattern : CPat
  deriving DecidableEq, Repr

/-- The macro `lex!`, `filecheck/src/parse/parser.rs:23-30`. -/
def next : List Lexed → Except PErr (Option (Token × List Lexed))
  | [] => .ok none
  | .unclosedSubstitution :: _ => .error .unclosedSubstitution
  | .unclosedRegex :: _ => .error .unclosedRegex
  | .ok (.error e) :: _ => .error (.lexer e)
  | .ok t :: r => .ok (some (t, r))

/-- The macros `expect!` and its like for one token, `filecheck/src/parse/parser.rs:42-106`. -/
def expect (t : Token) (ts : List Lexed) : Except PErr (List Lexed) := do
  match ← next ts with
  | some (t', r) => if t' = t then .ok r else .error (.unrecognizedToken t')
  | none => .error .unrecognizedEof

/-- `expect_literal!`, `filecheck/src/parse/parser.rs:64-85`. -/
def expectRaw (ts : List Lexed) : Except PErr (Str × List Lexed) := do
  match ← next ts with
  | some (.raw s, r) => .ok (s, r)
  | some (t, _) => .error (.unrecognizedToken t)
  | none => .error .unrecognizedEof

/-- The modifiers and the colon, `filecheck/src/parse/parser.rs:172-183`: whether there is a modifier. -/
def modifierLoop (lit : Bool) : List Lexed → Except PErr (Bool × List Lexed)
  | [] => .error .unrecognizedEof
  | .unclosedSubstitution :: _ => .error .unclosedSubstitution
  | .unclosedRegex :: _ => .error .unclosedRegex
  | .ok .modifier :: r => modifierLoop true r
  | .ok .colon :: r => .ok (lit, r)
  | .ok (.error e) :: _ => .error (.lexer e)
  | .ok t :: _ => .error (.unrecognizedToken t)

/-- The loop of `parse_match_block`, `filecheck/src/parse/parser.rs:339-362`: the tokens up to the end of the block. -/
def blockLoop (acc : List Token) : List Lexed → Except PErr (List Token × List Lexed)
  | .ok .matchEnd :: r => .ok (acc, r)
  | [] => .error .unrecognizedEof
  | .unclosedSubstitution :: _ => .error .unclosedSubstitution
  | .unclosedRegex :: _ => .error .unclosedRegex
  | .ok (.error e) :: _ => .error (.lexer e)
  | .ok .lf :: _ => .error (.unrecognizedToken .lf)
  | .ok t :: r => blockLoop (acc ++ [t]) r

/-- `parse_match_block`, `filecheck/src/parse/parser.rs:331-383`, after the opening bracket. -/
def matchBlock (ts : List Lexed) : Except PErr (Match × List Lexed) := do
  let (inner, r) ← blockLoop [] ts
  if inner = [] then .error (.unrecognizedToken .matchEnd)
  else
    match pMatch inner with
    | some m => .ok (m, r)
    | none => .error .badMatch

/-- The loop of `parse_check`, `filecheck/src/parse/parser.rs:235-276`. `Lexer::peek` (`filecheck/src/parse/lexer/mod.rs:149-162`) shows nothing if there is an error. The
number bounds the steps; each step takes a token. -/
def partLoop : Nat → List Part → List Lexed → Except PErr (List Part × List Lexed)
  | 0, acc, ts => .ok (acc, ts)
  | n + 1, acc, ts =>
    match ts with
    | .ok .matchStart :: r => do
      let (m, r) ← matchBlock r
      partLoop n (acc ++ [.match_ m]) r
    | .ok .regexStart :: r => do
      let (s, r) ← expectRaw r
      let r ← expect .regexEnd r
      partLoop n (acc ++ [.regex s]) r
    | .ok (.raw s) :: r => partLoop n (acc ++ [.literal s]) r
    | .ok .lf :: r => .ok (acc, r)
    | .ok (.error e) :: _ => .error (.lexer e)
    | .ok t :: _ => .error (.unrecognizedToken t)
    | _ => .ok (acc, ts)

/-- The pattern of the parts, `filecheck/src/parse/parser.rs:278-327`. -/
def buildPattern (k : Kind) (parts : List Part) : Except PErr CPat :=
  if k = .empty then if parts = [] then .ok .empty else .error .expectedEmptyPattern
  else
    match parts with
    | [] => .error .emptyPattern
    | [.literal s] => .ok (.literal s)
    | [.regex s] => .ok (.regex s)
    | parts => .ok (.match_ parts)

/-- `parse_check`, `filecheck/src/parse/parser.rs:162-329`, after the token of the directive. -/
def parseCheck (k : Kind) (ts : List Lexed) : Except PErr (CLine × List Lexed) := do
  let (lit, r) ← modifierLoop false ts
  if k = .count 0 then .error .invalidCheckCount
  else if lit then
    match ← next r with
    | some (.raw s, r) => if k = .empty then .error .expectedEmptyPattern else .ok (⟨k, true, .literal s⟩, r)
    | some (.lf, r) => if k = .empty then .ok (⟨k, true, .empty⟩, r) else .error .emptyPattern
    | some (t, _) => .error (.unrecognizedToken t)
    | none => .error .unrecognizedEof
  else do
    let (parts, r) ← partLoop r.length [] r
    let p ← buildPattern k parts
    .ok (⟨k, false, p⟩, r)

/-- The loop of `CheckFileParser::parse`, `filecheck/src/parse/parser.rs:127-152`. The number bounds the steps; each step takes a token. -/
def parseLoop : Nat → List CLine → List Lexed → Except PErr (List CLine)
  | 0, acc, _ => .ok acc
  | n + 1, acc, ts =>
    match ts with
    | [] => .ok acc
    | .unclosedSubstitution :: _ => .error .unclosedSubstitution
    | .unclosedRegex :: _ => .error .unclosedRegex
    | .ok (.comment _) :: r => parseLoop n acc r
    | .ok (.check k) :: r => do
      let (l, r) ← parseCheck k r
      parseLoop n (acc ++ [l]) r
    | .ok .lf :: r => parseLoop n acc r
    | .ok (.error e) :: _ => .error (.lexer e)
    | .ok t :: _ => .error (.extraToken t)

/-- `Lexer::unused_prefixes`, `filecheck/src/parse/lexer/mod.rs:128-134`, given the prefixes that were met. A configured prefix is marked the first
time it is found in the list of prefixes (`filecheck/src/parse/lexer/mod.rs:222-228`), so a repeated prefix is never marked. -/
def unusedPrefixes (seen : List Str) : List Str → List Str → List Str
  | _, [] => []
  | before, p :: ps =>
    (if p ∈ seen ∧ p ∉ before then [] else [p]) ++ unusedPrefixes seen (before ++ [p]) ps

/-- `CheckFileParser::parse`, `filecheck/src/parse/parser.rs:119-160`. -/
def parse (cfg : Cfg) (allowUnused : Bool) (text : Str) : Except PErr (List CLine) := do
  let (ts, seen) := lex cfg text
  let ls ← parseLoop ts.length [] ts
  let unused := unusedPrefixes seen [] cfg.checkPrefixes
  if unused ≠ [] ∧ allowUnused = false then .error (.unusedCheckPrefixes unused) else .ok ls

end Litcheck.Lex
