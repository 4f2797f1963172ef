import Verif.Model.Substitutions
import Verif.Model.Manager

/-!
# Test scripts (`lit/src/formats/sh/script/parser.rs`, `.../directives.rs`, `.../mod.rs`)

Text is a list of characters. Spans are left out: they only say where an error is. Which characters are decimal digits
for `\d` (Unicode `Nd`) is a parameter.
-/

namespace Litcheck

/-- `DirectiveKind`, `directives.rs:35-44`. -/
inductive DirKind where
  | run | define | redefine | unsupported | requires | xfail | allowedRetries | end_
  deriving DecidableEq, Repr

/-- `DirectiveKind::as_str`, `directives.rs:46-57`. -/
def DirKind.text : DirKind → Str
  | run => "RUN:".toList
  | define => "DEFINE:".toList
  | redefine => "REDEFINE:".toList
  | unsupported => "UNSUPPORTED:".toList
  | requires => "REQUIRES:".toList
  | xfail => "XFAIL:".toList
  | allowedRetries => "ALLOWED_RETRIES:".toList
  | end_ => "END.".toList

/-- The keywords in the order in which `KEYWORD_RE` tries them, `directives.rs:9`. -/
def DirKind.all : List DirKind := [define, end_, redefine, requires, run, unsupported, xfail, allowedRetries]

/-- `TestScriptError`, `script/mod.rs:32-97`, without spans. `Io` is never made. -/
inductive ScriptErr where
  | invalidLineSubstitution
  | invalidBooleanExpr (e : BParse.Err)
  | invalidSubstitution (e : SubErr)
  | invalidContinuation (expected : DirKind)
  | missingContinuation (expected : DirKind)
  | missingRun
  | conflict (kind : DirKind)
  | invalidInteger (kind : DirKind)
  deriving DecidableEq, Repr

/-- `TestScript`, `script/mod.rs:100-121`. -/
structure TestScript where
  commands : List Cmd
  xfails : List BExpr
  requires : List BExpr
  unsupported : List BExpr
  allowedRetries : Option Nat
  deriving DecidableEq, Repr

namespace Script

open BParse (isWs)

/-- `str::trim_start`. -/
def trimStart (s : Str) : Str := s.dropWhile isWs

/-- `str::trim_end`. -/
def trimEnd (s : Str) : Str := (s.reverse.dropWhile isWs).reverse

/-- `str::trim`. -/
def trim (s : Str) : Str := trimEnd (trimStart s)

/-- `str::strip_suffix(c)`. -/
def stripSuffix (c : Char) (s : Str) : Option Str := if s.getLast? = some c then some s.dropLast else none

/-- `str::split_inclusive('\n')`, `parser.rs:384`, with the final line feed of each line taken off and noted,
`parser.rs:397-400`. -/
def rawLines : Str → List (Str × Bool)
  | [] => []
  | c :: cs =>
    if c = '\n' then ([], true) :: rawLines cs
    else (rawLines cs).head?.elim [([c], false)] fun l => (c :: l.1, l.2) :: (rawLines cs).tail

/-- `Lines::next`, `parser.rs:393-411`: each line without its line ending, and the number of line feeds up to and
including its own. -/
def number (n : Nat) : List (Str × Bool) → List (Str × Nat)
  | [] => []
  | (l, lf) :: ls =>
    let n' := if lf then n + 1 else n
    ((stripSuffix '\r' l).getD l, n') :: number n' ls

/-- All that `Lines` yields for a text, `parser.rs:380-411`. -/
def lines (s : Str) : List (Str × Nat) := number 0 (rawLines s)

/-- The keyword that begins here, if any: the alternatives of `KEYWORD_RE` are tried in order. -/
def keywordAt (s : Str) : Option DirKind := DirKind.all.find? fun k => k.text.isPrefixOf s

/-- `RawDirective::parse`, `directives.rs:19-28`: the leftmost keyword and what follows it to the end of the line. -/
def rawDirective : Str → Option (DirKind × Str)
  | [] => none
  | c :: cs => ((keywordAt (c :: cs)).map fun k => (k, (c :: cs).drop k.text.length)).or (rawDirective cs)

/-- The value of a text of ASCII digits, `none` if there is another character. -/
def digitsVal : Nat → Str → Option Nat
  | acc, [] => some acc
  | acc, c :: cs => if '0' ≤ c ∧ c ≤ '9' then digitsVal (acc * 10 + (c.toNat - '0'.toNat)) cs else none

/-- `str::parse::<usize>`, for 64 bits: an optional plus sign, then digits, not too many. -/
def parseUsize (s : Str) : Option Nat :=
  let d := if s.head? = some '+' then s.tail else s
  if d.isEmpty then none else (digitsVal 0 d).filter (· < 2 ^ 64)

/-- `LINE_NUMBER_RE` from the beginning of `s`, `parser.rs:415`: `%(line`, then possibly spaces, a sign, spaces and
digits, then `)`. Yields whether the sign is a minus and the digits, and what follows. -/
def lineRef (nd : Char → Bool) (s : Str) : Option (Option (Bool × Str) × Str) :=
  if "%(line".toList.isPrefixOf s then
    let s1 := s.drop 6
    if s1.head? = some ')' then some (none, s1.tail)
    else
      let s2 := s1.dropWhile (· == ' ')
      if s2.head? = some '+' ∨ s2.head? = some '-' then
        let s3 := s2.tail.dropWhile (· == ' ')
        let ds := s3.takeWhile nd
        let s4 := s3.dropWhile nd
        if ds ≠ [] ∧ s4.head? = some ')' then some (some (s2.head? == some '-', ds), s4.tail) else none
      else none
  else none

/-- The number a line reference stands for, and whether its offset could not be read, `parser.rs:433-457`. The
addition wraps, as it does in a release build. -/
def lineVal (line : Nat) : Option (Bool × Str) → Nat × List ScriptErr
  | none => (line, [])
  | some (neg, ds) =>
    let off := parseUsize ds
    (if neg then line - off.getD 0 else (line + off.getD 0) % 2 ^ 64,
      if off.isNone then [.invalidLineSubstitution] else [])

/-- The work of `pushLineNumbers`, leaving out the next `n` characters first. -/
def pushLineNumbersGo (nd : Char → Bool) (line : Nat) : Nat → Str → Str × List ScriptErr
  | _, [] => ([], [])
  | n + 1, _ :: cs => pushLineNumbersGo nd line n cs
  | 0, c :: cs =>
    (lineRef nd (c :: cs)).elim
      (let r := pushLineNumbersGo nd line 0 cs
       (c :: r.1, r.2))
      fun m =>
        let r := pushLineNumbersGo nd line (cs.length - m.2.length) cs
        ((toString (lineVal line m.1).1).toList ++ r.1, (lineVal line m.1).2 ++ r.2)

/-- `push_str_replacing_line_numbers`, `parser.rs:418-462`: what is pushed and the errors. -/
def pushLineNumbers (nd : Char → Bool) (line : Nat) (s : Str) : Str × List ScriptErr := pushLineNumbersGo nd line 0 s

/-- What a continuation line holds, and the error if it does not repeat the keyword, `parser.rs:132-160`. -/
def contLine (kind : DirKind) (l : Str) : Str × List ScriptErr :=
  (rawDirective l).elim (l, [.missingContinuation kind])
    fun d => (d.2, if d.1 = kind then [] else [.invalidContinuation kind])

/-- What a continuation line adds, `parser.rs:161-192`. -/
def contText (nd : Char → Bool) (collapse : Bool) (line : Nat) (l : Str) : Str × List ScriptErr :=
  let rest := (stripSuffix '\\' l).elim
    (if collapse then trimStart (trimEnd l) else trimEnd l) (fun s => if collapse then trim s else s)
  let r := pushLineNumbers nd line rest
  ((if collapse then [' '] else ['\\', '\n']) ++ r.1, r.2)

/-- The loop over the continuation lines, `parser.rs:125-193`: the text, the errors and the lines left. -/
def contLoop (nd : Char → Bool) (kind : DirKind) (collapse : Bool) :
    List (Str × Nat) → Str × List ScriptErr × List (Str × Nat)
  | [] => ([], [], [])
  | (l, n) :: ls =>
    let c := contLine kind l
    let t := contText nd collapse n c.1
    if (stripSuffix '\\' c.1).isSome then
      let r := contLoop nd kind collapse ls
      (t.1 ++ r.1, c.2 ++ t.2 ++ r.2.1, r.2.2)
    else (t.1, c.2 ++ t.2, ls)

/-- `parse_line`, `parser.rs:94-199`: the text, the errors and the lines left. -/
def parseLine (nd : Char → Bool) (kind : DirKind) (content : Str) (line : Nat) (collapse : Bool) (ls : List (Str × Nat)) :
    Str × List ScriptErr × List (Str × Nat) :=
  let rest := (stripSuffix '\\' content).getD (trimEnd content)
  let t := pushLineNumbers nd line (trimStart rest)
  if (stripSuffix '\\' content).isSome then
    let r := contLoop nd kind collapse ls
    (t.1 ++ r.1, t.2 ++ r.2.1, r.2.2)
  else (t.1, t.2, ls)

/-- The characters of substitution names, `directives.rs:10`. -/
def isNameChar (c : Char) : Bool := c == '-' || c == '_' || c == ':' || isAsciiAlphanumeric c

/-- `SUBSTITUTION_NAME_RE`, `directives.rs:10`: `%{`, a letter or underscore, name characters, `}`. -/
def isSubstName (s : Str) : Bool :=
  ['%', '{'].isPrefixOf s && s.getLast? == some '}' &&
    (match (s.drop 2).dropLast with
      | [] => false
      | c :: cs => (c == '_' || isAsciiAlphabetic c) && cs.all isNameChar)

/-- `Substitution::new`, `directives.rs:199-220`. -/
def newSubst (line : Nat) (key value : Str) (replace : Bool) : Except SubErr Subst :=
  if isSubstName key then .ok ⟨line, key, value, replace⟩ else .error (.invalidKey key)

/-- `str::split(',')`. -/
def splitCommas : Str → List Str
  | [] => [[]]
  | c :: cs => if c = ',' then [] :: splitCommas cs else (c :: (splitCommas cs).headD []) :: (splitCommas cs).tail

/-- The state of `TestScriptParser`, `parser.rs:13-20`, without the lines. -/
structure St where
  script : TestScript
  errors : List ScriptErr
  deriving DecidableEq, Repr

/-- `TestScriptParser::new`, `parser.rs:22-34`. -/
def St.init : St := ⟨⟨[], [], [], [], none⟩, []⟩

/-- Pushing errors. -/
def St.fail (st : St) (es : List ScriptErr) : St := { st with errors := st.errors ++ es }

/-- Pushing a command. -/
def St.push (st : St) (c : Cmd) : St := { st with script := { st.script with commands := st.script.commands ++ [c] } }

/-- The end of `parse_substitution`, `parser.rs:221-242`. -/
def St.subst (st : St) (line : Nat) (replace : Bool) (text : Str) : St :=
  (splitOnce '=' text).elim st fun kv =>
    match newSubst line (trim kv.1) (trim kv.2) replace with
    | .ok s => st.push (.subst s)
    | .error e => st.fail [.invalidSubstitution e]

/-- One expression of `parse_bools`, `parser.rs:247-262`. -/
def parseBool (rx : Rx) (s : Str) : Except BParse.Err BExpr :=
  if trim s = ['*'] then .ok (.lit true) else BParse.parse rx (trim s)

/-- Storing a boolean expression, `parser.rs:263-268`. -/
def St.store (st : St) (kind : DirKind) (e : BExpr) : St :=
  { st with script :=
    match kind with
    | .requires => { st.script with requires := st.script.requires ++ [e] }
    | .unsupported => { st.script with unsupported := st.script.unsupported ++ [e] }
    | .xfail => { st.script with xfails := st.script.xfails ++ [e] }
    | _ => st.script }

/-- The body of the loop of `parse_bools`, `parser.rs:262-270`. -/
def St.bool (rx : Rx) (kind : DirKind) (st : St) (s : Str) : St :=
  match parseBool rx s with
  | .ok e => st.store kind e
  | .error e => st.fail [.invalidBooleanExpr e]

/-- `parse_bools`, `parser.rs:245-272`. -/
def St.bools (rx : Rx) (kind : DirKind) (st : St) (content : Str) : St := (splitCommas content).foldl (St.bool rx kind) st

/-- `parse_int`, `parser.rs:274-299`. -/
def St.int (st : St) (content : Str) : St :=
  if st.script.allowedRetries.isSome then st.fail [.conflict .allowedRetries]
  else (parseUsize (trim content)).elim (st.fail [.invalidInteger .allowedRetries])
    fun n => { st with script := { st.script with allowedRetries := some n } }

/-- The loop of `try_parse`, `parser.rs:54-74`, with `parse_run`, `parser.rs:201-211`, and the first half of
`parse_substitution`, `parser.rs:213-220`. The bound is the number of lines, which is enough. -/
def loop (rx : Rx) (nd : Char → Bool) : Nat → St → List (Str × Nat) → St
  | 0, st, _ => st
  | _ + 1, st, [] => st
  | fuel + 1, st, (l, n) :: ls =>
    match rawDirective l with
    | none => loop rx nd fuel st ls
    | some (.end_, content) => if (trim content).isEmpty then st else loop rx nd fuel st ls
    | some (.run, content) =>
      let r := parseLine nd .run content n false ls
      loop rx nd fuel ((st.fail r.2.1).push (.run ⟨n, r.1⟩)) r.2.2
    | some (.define, content) =>
      let r := parseLine nd .define content n true ls
      loop rx nd fuel ((st.fail r.2.1).subst n false r.1) r.2.2
    | some (.redefine, content) =>
      let r := parseLine nd .redefine content n true ls
      loop rx nd fuel ((st.fail r.2.1).subst n true r.1) r.2.2
    | some (.allowedRetries, content) => loop rx nd fuel (st.int content) ls
    | some (kind, content) => loop rx nd fuel (st.bools rx kind content) ls

/-- Whether a command is a RUN command. -/
def isRun : Cmd → Bool
  | .run _ => true
  | .subst _ => false

/-- `try_parse`, `parser.rs:53-86`. -/
def tryParse (rx : Rx) (nd : Char → Bool) (text : Str) : St :=
  let st := loop rx nd (lines text).length .init (lines text)
  if st.script.commands.any isRun then st else st.fail [.missingRun]

/-- `TestScriptParser::parse`, `parser.rs:36-51`; `TestScript::parse`, `script/mod.rs:123-128`. -/
def parse (rx : Rx) (nd : Char → Bool) (text : Str) : Except (List ScriptErr) TestScript :=
  let st := tryParse rx nd text
  if st.errors.isEmpty then .ok st.script else .error st.errors

end Script

end Litcheck
