import Verif.Model.Base

/-!
# Feature expressions (`lit/src/config/expr/boolean.rs`) and feature sets (`lit/src/config/features.rs`)

Text is a list of characters. Regular expressions are represented by their source text; which texts compile and what
they match is a parameter (`Rx`). Source spans of errors are left out.
-/

namespace Litcheck

/-- Text as a list of characters. -/
abbrev Str := List Char

/-- What is not modelled of the `regex` crate: which texts `Regex::new` accepts, and `Regex::is_match`. -/
structure Rx where
  compiles : Str → Bool
  isMatch : Str → Str → Bool

/-- `BooleanExpr`, `boolean.rs:60-76`. A compiled `Regex` is its `as_str`, which is also how equality compares it
(`boolean.rs:95-107`). -/
inductive BExpr where
  | lit (b : Bool)
  | var (s : Str)
  | pattern (re : Str)
  | not (x : BExpr)
  | and (x y : BExpr)
  | or (x y : BExpr)
  deriving DecidableEq, Repr

namespace BExpr

/-- `Display`, `boolean.rs:108-119`. -/
def print : BExpr → Str
  | lit true => ['t', 'r', 'u', 'e']
  | lit false => ['f', 'a', 'l', 's', 'e']
  | var s => s
  | pattern re => ['{', '{'] ++ re ++ ['}', '}']
  | not x => '!' :: x.print
  | and x y => ['('] ++ x.print ++ [' ', '&', '&', ' '] ++ y.print ++ [')']
  | or x y => ['('] ++ x.print ++ [' ', '|', '|', ' '] ++ y.print ++ [')']

/-- `evaluate`, `boolean.rs:152-161`, in the environments of `boolean.rs:164-205`, which all hold a collection of
names: a name is defined when it is in the collection, a pattern when it matches one of the names. -/
def evaluate (rx : Rx) (features : List Str) : BExpr → Bool
  | lit b => b
  | var s => features.any (· == s)
  | pattern re => features.any (rx.isMatch re)
  | not x => !x.evaluate rx features
  | and x y => x.evaluate rx features && y.evaluate rx features
  | or x y => x.evaluate rx features || y.evaluate rx features

end BExpr

namespace BParse

/-- `InvalidBooleanExprError`, `boolean.rs:10-42`, without spans and expectations. `fuel` is not an error of the code:
it marks that the model's recursion bound ran out, which never happens (`parse_fuel`). -/
inductive Err where
  | unexpectedToken | unexpectedChar (c : Char) | unexpectedEof | invalidRegex
  | fuel
  deriving DecidableEq, Repr

/-- `Token`, `boolean.rs:447-458`. -/
inductive Tok where
  | ident (s : Str) | pattern (s : Str) | and | or | not | lparen | rparen | eof
  deriving DecidableEq, Repr

/-- `char::is_whitespace` (Unicode `White_Space`). -/
def isWs (c : Char) : Bool :=
  c.val == 0x20 || (0x9 ≤ c.val && c.val ≤ 0xD) || c.val == 0x85 || c.val == 0xA0 || c.val == 0x1680 ||
  (0x2000 ≤ c.val && c.val ≤ 0x200A) || c.val == 0x2028 || c.val == 0x2029 || c.val == 0x202F || c.val == 0x205F ||
  c.val == 0x3000

/-- The characters of identifiers, `boolean.rs:680-683`. -/
def isIdent (c : Char) : Bool :=
  c == '-' || c == '+' || c == '=' || c == '.' || c == '_' || ('a' ≤ c && c ≤ 'z') || ('A' ≤ c && c ≤ 'Z') ||
  ('0' ≤ c && c ≤ '9')

/-- `Tokenizer::peek`, `boolean.rs:626-628`: the next character, NUL at the end. -/
def peek (r : Str) : Char := r.headD '\x00'

/-- The `'{'` arm of `tokenize`, `boolean.rs:685-717`; `r` is what follows the brace. With a single brace nothing is
skipped, so the brace becomes part of the pattern. -/
def lexPattern (r : Str) : Except Err (Tok × Str) :=
  let body := if peek r = '{' then r.tail else '{' :: r
  let p := body.takeWhile (fun c => c != '}' && c != '\x00')
  match body.dropWhile (fun c => c != '}' && c != '\x00') with
  | [] => .error .unexpectedEof
  | c :: r' =>
    if c = '}' then
      if peek r' = '}' then
        if p = [] then .error .unexpectedToken else .ok (.pattern p, r'.tail)
      else if peek r' ≠ '\x00' then .error (.unexpectedChar (peek r')) else .error .unexpectedEof
    else .error .unexpectedEof

/-- `tokenize` once whitespace is dropped, `boolean.rs:645-726`. -/
def lexHead : Str → Except Err (Tok × Str)
  | [] => .ok (.eof, [])
  | c :: r =>
    if c = '\x00' then .ok (.eof, c :: r)
    else if c = '(' then .ok (.lparen, r)
    else if c = ')' then .ok (.rparen, r)
    else if c = '&' then
      if peek r = '&' then .ok (.and, r.tail)
      else if peek r = '\x00' then .error .unexpectedEof else .error (.unexpectedChar (peek r))
    else if c = '|' then
      if peek r = '|' then .ok (.or, r.tail)
      else if peek r = '\x00' then .error .unexpectedEof else .error (.unexpectedChar (peek r))
    else if c = '!' then .ok (.not, r)
    else if isIdent c then .ok (.ident ((c :: r).takeWhile isIdent), (c :: r).dropWhile isIdent)
    else if c = '{' then lexPattern r
    else .error (.unexpectedChar c)

/-- `lex` / `advance` / `tokenize`, `boolean.rs:539-624` and `645-726`. The tokenizer works one token ahead but hands
out an error only when its turn comes; after the end, or a NUL, it keeps answering that there is no token, which the
parser (`boolean.rs:436-443`) reads as `Eof`. -/
def lex (s : Str) : Except Err (Tok × Str) := lexHead (s.dropWhile isWs)

/-- The parser's state: the current token and the text still to be read (`boolean.rs:208-213`; the `expr` field is
the functions' result). -/
structure St where
  cur : Tok
  rest : Str
  deriving DecidableEq, Repr

/-- `next`, `boolean.rs:436-443`. -/
def St.next (st : St) : Except Err St :=
  match lex st.rest with
  | .ok (t, r) => .ok ⟨t, r⟩
  | .error e => .error e

/-- `expect`, `boolean.rs:415-433`. -/
def St.expect (st : St) (t : Tok) : Except Err St :=
  if st.cur = t then
    if st.cur = .eof then .ok st else st.next
  else if st.cur = .eof then .error .unexpectedEof
  else .error .unexpectedToken

/-- `regex_syntax::is_meta_character`. -/
def isMeta (c : Char) : Bool :=
  ['\\', '.', '+', '*', '?', '(', ')', '|', '[', ']', '{', '}', '^', '$', '#', '&', '-', '~'].contains c

/-- `regex_syntax::escape_into`. -/
def escape (s : Str) : Str := s.flatMap (fun c => if isMeta c then ['\\', c] else [c])

/-- The collecting loop of `parse_match_expr`, `boolean.rs:311-331`: every identifier or pattern in a row. -/
def collect : Nat → St → Except Err (List Tok × St)
  | 0, _ => .error .fuel
  | n + 1, st =>
    match st.cur with
    | .ident s => do
      let st ← st.next
      let (ts, st) ← collect n st
      return (.ident s :: ts, st)
    | .pattern s => do
      let st ← st.next
      let (ts, st) ← collect n st
      return (.pattern s :: ts, st)
    | _ => .ok ([], st)

/-- One part of a pattern, `boolean.rs:380-393`. -/
def partText : Tok → Str
  | .pattern p => ['('] ++ p ++ [')']
  | .ident s => escape s
  | _ => []

/-- Whether a token is an identifier. -/
def isIdentTok : Tok → Bool
  | .ident _ => true
  | _ => false

/-- The name `true` or `false`, or a variable, `boolean.rs:353-357`. -/
def nameExpr (s : Str) : BExpr :=
  if s = ['t', 'r', 'u', 'e'] then .lit true else if s = ['f', 'a', 'l', 's', 'e'] then .lit false else .var s

/-- What `parse_match_expr` makes of the parts, `boolean.rs:333-405`. -/
def matchParts (rx : Rx) (parts : List Tok) : Except Err BExpr :=
  if parts.all isIdentTok then
    match parts with
    | [.ident s] => .ok (nameExpr s)
    | _ => .error .unexpectedToken
  else if rx.compiles (parts.flatMap partText) then .ok (.pattern (parts.flatMap partText))
  else .error .invalidRegex

mutual

/-- `parse_or_expr`, `boolean.rs:257-267`. -/
def orExpr (rx : Rx) : Nat → St → Except Err (BExpr × St)
  | 0, _ => .error .fuel
  | n + 1, st => do
    let (e, st) ← andExpr rx n st
    orLoop rx n e st

/-- The `while` of `parse_or_expr`, `boolean.rs:259-264`. -/
def orLoop (rx : Rx) : Nat → BExpr → St → Except Err (BExpr × St)
  | 0, _, _ => .error .fuel
  | n + 1, e, st =>
    if st.cur = .or then do
      let st ← st.next
      let (r, st) ← andExpr rx n st
      orLoop rx n (.or e r) st
    else .ok (e, st)

/-- `parse_and_expr`, `boolean.rs:269-279`. -/
def andExpr (rx : Rx) : Nat → St → Except Err (BExpr × St)
  | 0, _ => .error .fuel
  | n + 1, st => do
    let (e, st) ← notExpr rx n st
    andLoop rx n e st

/-- The `while` of `parse_and_expr`, `boolean.rs:271-276`. -/
def andLoop (rx : Rx) : Nat → BExpr → St → Except Err (BExpr × St)
  | 0, _, _ => .error .fuel
  | n + 1, e, st =>
    if st.cur = .and then do
      let st ← st.next
      let (r, st) ← notExpr rx n st
      andLoop rx n (.and e r) st
    else .ok (e, st)

/-- `parse_not_expr`, `boolean.rs:281-307`. -/
def notExpr (rx : Rx) : Nat → St → Except Err (BExpr × St)
  | 0, _ => .error .fuel
  | n + 1, st =>
    match st.cur with
    | .not => do
      let st ← st.next
      let (e, st) ← notExpr rx n st
      return (.not e, st)
    | .lparen => do
      let st ← st.next
      let (e, st) ← orExpr rx n st
      let st ← st.expect .rparen
      return (e, st)
    | .ident _ | .pattern _ => do
      let (parts, st) ← collect n st
      let e ← matchParts rx parts
      return (e, st)
    | .eof => .error .unexpectedEof
    | _ => .error .unexpectedToken

end

/-- `BooleanExprParser::parse`, `boolean.rs:249-255`, with a bound on the recursion. -/
def parseFuel (rx : Rx) (n : Nat) (s : Str) : Except Err BExpr := do
  let st ← St.next ⟨.eof, s⟩
  let (e, st) ← orExpr rx n st
  let _ ← st.expect .eof
  return e

/-- `s.parse::<BooleanExpr>()`, `boolean.rs:82-89`. -/
def parse (rx : Rx) (s : Str) : Except Err BExpr := parseFuel rx (4 * s.length + 8) s

end BParse

/-! ## Feature sets -/

/-- The loop of `missing_features` and `unsupported_features`, `features.rs:69-79` and `91-101`. -/
def featureReport (header : Str) (wanted : BExpr → Bool) (buf : Str) : List BExpr → Str
  | [] => buf
  | e :: es =>
    if wanted e then
      featureReport header wanted
        ((if buf.isEmpty then header else buf ++ [',', ' ']) ++ e.print) es
    else featureReport header wanted buf es

/-- `missing_features`, `features.rs:65-85`. -/
def missingFeatures (rx : Rx) (features : List Str) (required : List BExpr) : Option Str :=
  let buf := featureReport "Test requires the following unavailable features: ".toList
    (fun e => !e.evaluate rx features) [] required
  if buf.isEmpty then none else some buf

/-- `unsupported_features`, `features.rs:87-107`. -/
def unsupportedFeatures (rx : Rx) (features : List Str) (unsupported : List BExpr) : Option Str :=
  let buf := featureReport "Test does not support the following features: ".toList
    (fun e => e.evaluate rx features) [] unsupported
  if buf.isEmpty then none else some buf

end Litcheck
