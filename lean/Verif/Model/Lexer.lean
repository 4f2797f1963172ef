import Verif.Model.BoolExpr
import Verif.Model.Number
import Verif.Model.Script
import Verif.Model.Program

/-!
# Reading check files: `filecheck/src/parse/lexer`

Text is a list of characters. Tokens carry no positions here: where the code remembers positions, the model keeps the text between
them. The regular expressions of the lexer are fixed texts, and what they match is written out here: the first position at which one of them matches, and there the
first pattern in order. The configured prefixes are inserted into them as they are; the model takes them literally, which is what
they mean if they contain no special characters.
-/

namespace Litcheck.Lex

open Litcheck.BParse (isWs)
open Litcheck.Num (fromStrRadix readDigits)
open Litcheck.Script (trim trimStart)

/-- The options which the lexer looks at, `filecheck/src/parse/lexer/mod.rs:81-126` and `filecheck/src/parse/lexer/mod.rs:173-259`. -/
structure Cfg where
  checkPrefixes : List Str
  commentPrefixes : List Str
  strictWhitespace : Bool
  matchFullLines : Bool

/-- `LexerError`, `filecheck/src/parse/lexer/error.rs:4-34`. -/
inductive LexErr where
  | badCount | invalidNumber | unexpectedCharacter (c : Char)
  deriving DecidableEq, Repr

/-- The operators which have a name, `filecheck/src/parse/lexer/token.rs:57-69`. -/
inductive Op where
  | add | sub | mul | div | min | max
  deriving DecidableEq, Repr

/-- `Token`, `filecheck/src/parse/lexer/token.rs:9-69`, those which the lexer makes. -/
inductive Token where
  | lf | error (e : LexErr) | check (k : Kind) | modifier | comment (s : Str) | raw (s : Str) | ident (s : Str) | num (n : Int)
  | matchStart | matchEnd | regexStart | regexEnd | lparen | rparen | hash | dollar | percent | at_ | comma | dot | colon
  | plus | minus | equals | literal | line | op (o : Op)
  deriving DecidableEq, Repr

/-- `Lexed`, `filecheck/src/parse/lexer/mod.rs:19`: a token, or one of the errors `UnclosedSubstitution`, `UnclosedRegex`. `InvalidCheckModifier`
is left out: the lexer does not make it, because the pattern admits no modifier but `LITERAL`. -/
inductive Lexed where
  | ok (t : Token)
  | unclosedSubstitution
  | unclosedRegex
  deriving DecidableEq, Repr

/-- `u8::is_ascii_whitespace` (standard library). -/
def isAsciiWs (c : Char) : Bool := c == ' ' || c == '\t' || c == '\n' || c == '\x0c' || c == '\r'

/-- `Check` of the patterns, `filecheck/src/parse/lexer/patterns.rs:122-132`. -/
inductive PatTy where
  | comment | count | kind (k : Kind)
  deriving DecidableEq, Repr

/-- `Check::CHECKS`, `filecheck/src/parse/lexer/patterns.rs:134-143`. -/
def CHECKS : List PatTy :=
  [.count, .kind .empty, .kind .label, .kind .plain, .kind .next, .kind .same, .kind .dag, .kind .not]

/-- `Check::suffix`, `filecheck/src/parse/lexer/patterns.rs:145-157`. -/
def suffix : Kind → Str
  | .plain => []
  | .next => "-NEXT".toList
  | .same => "-SAME".toList
  | .not => "-NOT".toList
  | .dag => "-DAG".toList
  | .label => "-LABEL".toList
  | .empty => "-EMPTY".toList
  | .count _ => "-COUNT".toList

/-- What the text begins with, and the rest. -/
def stripPre : Str → Str → Option Str
  | [], r => some r
  | _ :: _, [] => none
  | p :: ps, c :: cs => if p = c then stripPre ps cs else none

/-- The rest of `(\s*,\s*LITERAL\s*)*)[}]` in `MODIFIERS`, `filecheck/src/parse/lexer/patterns.rs:20`, after a `LITERAL`; `again` if
it is not the first. The result is the number of further modifiers and what follows the brace. The number bounds the
repetitions. -/
def modTail : Nat → Bool → Str → Option (Nat × Str)
  | 0, _, _ => none
  | n + 1, again, r =>
    match r with
    | '}' :: rest => some (0, rest)
    | _ =>
      match r.dropWhile isWs with
      | ',' :: r2 =>
        match stripPre "LITERAL".toList (r2.dropWhile isWs) with
        | some r3 => (modTail n true r3).map fun x => (x.1 + 1, x.2)
        | none => none
      | '}' :: rest => if again then some (0, rest) else none
      | _ => none

/-- `([{](?<modifiers>\s*LITERAL(\s*,\s*LITERAL\s*)*)[}])?`, `filecheck/src/parse/lexer/patterns.rs:20`: how many modifiers, and the
rest. -/
def modifiers (r : Str) : Nat × Str :=
  match r with
  | '{' :: r1 =>
    match stripPre "LITERAL".toList (r1.dropWhile isWs) with
    | some r2 =>
      match modTail r2.length false r2 with
      | some (n, rest) => (n + 1, rest)
      | none => (0, r)
    | none => (0, r)
  | _ => (0, r)

/-- What is known of a match: the type of the pattern that matched, the groups `prefix`, `count` and `comment`, the number of
modifiers, and the text after the match. -/
structure Hit where
  ty : PatTy
  pfx : Str
  count : Str
  mods : Nat
  comment : Str
  rest : Str
  deriving DecidableEq, Repr

/-- The part of a pattern after the prefix, `filecheck/src/parse/lexer/patterns.rs:18-41`, `filecheck/src/parse/lexer/patterns.rs:105-113`. -/
def afterPrefix (ty : PatTy) (pfx : Str) (r : Str) : Option Hit :=
  match ty with
  | .comment =>
    match r with
    | ':' :: r1 => some ⟨.comment, pfx, [], 0, r1.takeWhile (· != '\n'), r1.dropWhile (· != '\n')⟩
    | _ => none
  | .kind k =>
    match stripPre (suffix k) r with
    | some r1 =>
      let m := modifiers r1
      match m.2 with
      | ':' :: rest => some ⟨.kind k, pfx, [], m.1, [], rest⟩
      | _ => none
    | none => none
  | .count =>
    match stripPre "-COUNT-".toList r with
    | some r1 =>
      let ds := r1.takeWhile Char.isDigit
      if ds = [] then none
      else
        let m := modifiers (r1.dropWhile Char.isDigit)
        match m.2 with
        | ':' :: rest => some ⟨.count, pfx, ds, m.1, [], rest⟩
        | _ => none
    | none => none

/-- A pattern without the word boundary before it: the prefixes are tried in order. -/
def body (ty : PatTy) (prefixes : List Str) (r : Str) : Option Hit :=
  prefixes.findSome? fun p => (stripPre p r).bind (afterPrefix ty p)

/-- `PatternGen::new`, `filecheck/src/parse/lexer/patterns.rs:75-98`: the default prefixes. -/
def orDefault (ps : List Str) (dflt : List Str) : List Str := if ps = [] then dflt else ps

/-- The patterns in order: comments, then checks, `filecheck/src/parse/lexer/mod.rs:86-91`. -/
def patterns (cfg : Cfg) : List (PatTy × List Str) :=
  (.comment, orDefault cfg.commentPrefixes ["COM".toList, "RUN".toList]) ::
    CHECKS.map fun ty => (ty, orDefault cfg.checkPrefixes ["CHECK".toList])

/-- `(?m)(?u:^|\s)` and the rest of a pattern, at a position: `bol` if a line begins there, `r` is the text from there on. -/
def matchAt (cfg : Cfg) (bol : Bool) (r : Str) : Option Hit :=
  (patterns cfg).findSome? fun x =>
    ((if bol then body x.1 x.2 r else none) : Option Hit).or
      (match r with
       | c :: r1 => if isWs c then body x.1 x.2 r1 else none
       | [] => none)

/-- `self.searcher.advance(..)` in `tokenize`, `filecheck/src/parse/lexer/mod.rs:203-207`: the match at the first position, from the front of
`r`, at which a pattern matches. `bol` if a line begins at the front of `r`. -/
def search (cfg : Cfg) (bol : Bool) : Str → Option Hit
  | [] => matchAt cfg bol []
  | c :: r =>
    match matchAt cfg bol (c :: r) with
    | some h => some h
    | none => search cfg (c == '\n') r

/-- `Delimiter`, `filecheck/src/parse/lexer/delimiter.rs:2-8`. -/
inductive Delim where
  | numericMatchStart | matchStart | matchEnd | regexStart | regexEnd
  deriving DecidableEq, Repr

/-- The longest delimiter with which the text begins, `filecheck/src/parse/lexer/delimiter.rs:23-44`. -/
def delimAt : Str → Option Delim
  | '[' :: '[' :: '#' :: _ => some .numericMatchStart
  | '[' :: '[' :: _ => some .matchStart
  | ']' :: ']' :: _ => some .matchEnd
  | '{' :: '{' :: _ => some .regexStart
  | '}' :: '}' :: _ => some .regexEnd
  | _ => none

/-- The length of a delimiter. -/
def Delim.len : Delim → Nat
  | .numericMatchStart => 3
  | _ => 2

/-- `(([^\]\\]|\\.)+`, all of the text. -/
def units : Str → Bool
  | [] => true
  | '\\' :: c :: r => c != '\n' && units r
  | ['\\'] => false
  | c :: r => c != ']' && units r

/-- `\[:[a-z]+:\]`, all of the text. -/
def namedClass (s : Str) : Bool :=
  match stripPre "[:".toList s with
  | some r =>
    let name := r.takeWhile fun c => 'a' ≤ c && c ≤ 'z'
    name ≠ [] && (r.dropWhile fun c => 'a' ≤ c && c ≤ 'z') == ":]".toList
  | none => false

/-- `FALSE_MATCH_END_PATTERN`, `filecheck/src/parse/lexer/mod.rs:26-47`: `\A.*\[(\[:[a-z]+:\]|([^\]\\]|\\.)+\])\]\z`, on a text
without line feeds. -/
def falseEnd : Str → Bool
  | [] => false
  | c :: r =>
    (c == '[' && r.getLast? == some ']' &&
      (namedClass r.dropLast || (r.dropLast.getLast? == some ']' && r.dropLast.dropLast ≠ [] && units r.dropLast.dropLast))) ||
    falseEnd r

/-- `Token::from_keyword_or_ident`, `filecheck/src/parse/lexer/token.rs:75-87`. -/
def keywordOrIdent (s : Str) : Token :=
  if s = "LITERAL".toList then .literal
  else if s = "LINE".toList then .line
  else if s = "add".toList then .op .add
  else if s = "sub".toList then .op .sub
  else if s = "mul".toList then .op .mul
  else if s = "div".toList then .op .div
  else if s = "min".toList then .op .min
  else if s = "max".toList then .op .max
  else .ident s

/-- The characters of identifiers after the first. -/
def isWord (c : Char) : Bool := c.isAlphanum || c == '_'

/-- The token of a single character, and whether whitespace is skipped after it; `filecheck/src/parse/lexer/mod.rs:574-634`. -/
def single : Char → Option (Token × Option Bool)
  | '#' => some (.hash, some false)
  | '%' => some (.percent, some false)
  | '.' => some (.dot, some false)
  | ',' => some (.comma, none)
  | '+' => some (.plus, some true)
  | '-' => some (.minus, some true)
  | '@' => some (.at_, some false)
  | '$' => some (.dollar, some false)
  | '(' => some (.lparen, some true)
  | ')' => some (.rparen, some true)
  | _ => none

/-- The digits of a number at its front, their base, and how long the base is written; `filecheck/src/parse/lexer/mod.rs:672-706`. -/
def numberAt (r : Str) : Nat × Nat × Str :=
  match r with
  | '0' :: 'x' :: r1 => (16, 2, r1.takeWhile fun c => c.isDigit || ('a' ≤ c && c ≤ 'f') || ('A' ≤ c && c ≤ 'F'))
  | '0' :: 'b' :: r1 => (2, 2, r1.takeWhile fun c => c == '0' || c == '1')
  | _ => (10, 0, r.takeWhile Char.isDigit)

/-- `tokenize_capture_or_match`, `filecheck/src/parse/lexer/mod.rs:586-766`, on the rest of the block. The number bounds the steps; each step
consumes something. -/
def lexBlock (numeric : Bool) : Nat → Bool → Str → List Lexed
  | 0, _, _ => []
  | _ + 1, _, [] => []
  | n + 1, strip, c :: r =>
    match single c with
    | some (t, s) => .ok t :: lexBlock numeric n (s.getD strip) r
    | none =>
      if c = '=' ∧ r.head? = some '=' then .ok .equals :: lexBlock numeric n true r.tail
      else if c = ':' then
        if numeric then .ok .colon :: lexBlock numeric n true r
        else [.ok .colon, .ok (.raw r)]
      else if c.isAlpha || c == '_' then
        .ok (keywordOrIdent (c :: r.takeWhile isWord)) :: lexBlock numeric n true (r.dropWhile isWord)
      else if c.isDigit then
        let x := numberAt (c :: r)
        let t : Token := match fromStrRadix x.1 x.2.2 with
          | some v => .num v
          | none => .error .invalidNumber
        .ok t :: lexBlock numeric n true ((c :: r).drop (x.2.1 + x.2.2.length))
      else if isAsciiWs c && strip then lexBlock numeric n strip r
      else [.ok (.error (.unexpectedCharacter c)), .ok (.raw r)]

/-- `in_match` and `in_regex` of `tokenize_check_pattern`, `filecheck/src/parse/lexer/mod.rs:377-378`: whether the text is outside of blocks, in a match
block (a numeric one or not), or in a regular expression. -/
inductive Mode where
  | lit | match_ (numeric : Bool) | regex
  deriving DecidableEq, Repr

/-- `str::strip_prefix(' ')`, and the text itself if there is no space. -/
def stripSpace : Str → Str
  | ' ' :: r => r
  | r => r

/-- The text before an opening delimiter, `filecheck/src/parse/lexer/mod.rs:423-439`, `filecheck/src/parse/lexer/mod.rs:468-484`. -/
def before (first : Bool) (raw : Str) : List Lexed :=
  if raw = [] then []
  else if !raw.all isAsciiWs || !first then [.ok (.raw (if first then stripSpace raw else raw))]
  else []

/-- The text after the last block, `filecheck/src/parse/lexer/mod.rs:529-545`. -/
def trailing (first : Bool) (raw : Str) : List Lexed :=
  if trim raw = [] then [] else [.ok (.raw (if first then stripSpace raw else raw))]

/-- The loop over the delimiters and what follows it, `filecheck/src/parse/lexer/mod.rs:383-564`: `acc` is the text since the last closing delimiter, or since
the opening one in a block; `first` if there was no opening delimiter before. The number bounds the steps; each step moves on. -/
def scan : Nat → Mode → Bool → Str → Str → List Lexed
  | 0, _, _, _, _ => []
  | n + 1, mode, first, acc, rest =>
    match delimAt rest with
    | none =>
      match rest with
      | c :: r => scan n mode first (acc ++ [c]) r
      | [] =>
        match mode with
        | .lit => trailing first acc
        | .match_ _ => [.unclosedSubstitution]
        | .regex => [.unclosedRegex]
    | some d =>
      match mode, d with
      | .lit, .numericMatchStart =>
        before first acc ++ .ok .matchStart :: .ok .hash :: scan n (.match_ true) false [] (rest.drop 3)
      | .lit, .matchStart =>
        if rest[2]? = some '[' then scan n .lit first (acc ++ rest.take 1) (rest.drop 1)
        else before first acc ++ .ok .matchStart :: scan n (.match_ false) false [] (rest.drop 2)
      | .lit, .regexStart => before first acc ++ .ok .regexStart :: scan n .regex false [] (rest.drop 2)
      | .match_ numeric, .matchEnd =>
        if falseEnd (acc ++ rest.take 2) then scan n (.match_ numeric) first (acc ++ rest.take 1) (rest.drop 1)
        else lexBlock numeric acc.length true acc ++ .ok .matchEnd :: scan n .lit first [] (rest.drop 2)
      | .regex, .regexEnd => .ok (.raw (trim acc)) :: .ok .regexEnd :: scan n .lit first [] (rest.drop 2)
      | mode, d => scan n mode first (acc ++ rest.take d.len) (rest.drop d.len)

/-- `tokenize_check_pattern`, `filecheck/src/parse/lexer/mod.rs:355-584`, on the rest of the line after the directive. -/
def checkPattern (cfg : Cfg) (literal : Bool) (rest : Str) : List Lexed :=
  let keep := cfg.strictWhitespace || cfg.matchFullLines
  if literal then [.ok (.raw (if keep then stripSpace rest else trimStart rest))]
  else
    let line := if keep then stripSpace rest else rest.dropWhile isAsciiWs
    scan (line.length + 1) .lit true [] line

/-- `count.parse::<u8>()`, `filecheck/src/parse/lexer/mod.rs:305-306`: digits only. -/
def parseU8 (ds : Str) : Option Nat := readDigits 10 255 ds 0

/-- The tokens of a directive, `filecheck/src/parse/lexer/mod.rs:208-248`, `filecheck/src/parse/lexer/mod.rs:302-348`. -/
def directive (cfg : Cfg) (h : Hit) : List Lexed :=
  match h.ty with
  | .comment => [.ok (.comment (stripSpace h.comment))]
  | .kind k =>
    .ok (.check k) :: (List.replicate h.mods (.ok .modifier) ++
      .ok .colon :: checkPattern cfg (h.mods != 0) (h.rest.takeWhile (· != '\n')))
  | .count =>
    match parseU8 h.count with
    | some n =>
      .ok (.check (.count n)) :: (List.replicate h.mods (.ok .modifier) ++
        .ok .colon :: checkPattern cfg (h.mods != 0) (h.rest.takeWhile (· != '\n')))
    | none => [.ok (.error .badCount)]

/-- `Lexer::tokenize` called again and again, `filecheck/src/parse/lexer/mod.rs:177-255`, and the prefixes met: all tokens of the rest of the
text. The code makes tokens when the parser asks for them. After a directive the code goes on at the end of its line, except
after an unclosed block, where it is of no consequence because the parser stops at that error. `bol` if a line begins here. The number bounds the
directives. -/
def tokens (cfg : Cfg) : Nat → Bool → Str → List Lexed × List Str
  | 0, _, _ => ([], [])
  | _ + 1, _, [] => ([], [])
  | n + 1, bol, c :: r =>
    if c = '\x00' then ([], [])
    else
      let lf := if c = '\n' then [Lexed.ok .lf] else []
      let ws := (c :: r).takeWhile isAsciiWs
      match search cfg (if ws = [] then bol else ws.getLast? == some '\n') ((c :: r).dropWhile isAsciiWs) with
      | none => (lf, [])
      | some h =>
        let x := tokens cfg n false (h.rest.dropWhile (· != '\n'))
        (lf ++ directive cfg h ++ x.1, (if h.ty = .comment then [] else [h.pfx]) ++ x.2)

/-- All tokens of a check file, `Lexer::new` and `tokenize`, `filecheck/src/parse/lexer/mod.rs:81-126` and `filecheck/src/parse/lexer/mod.rs:173-259`. -/
def lex (cfg : Cfg) (text : Str) : List Lexed × List Str := tokens cfg (text.length + 1) true text

end Litcheck.Lex
