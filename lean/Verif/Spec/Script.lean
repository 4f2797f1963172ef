import Verif.Model.Script

/-!
# What a test script says, independently of how it is parsed

A script is read line by line. A line with a keyword is a directive; a RUN, DEFINE or REDEFINE directive that ends in a
backslash goes on in the next line. A line with just `END.` ends the script.
-/

namespace Litcheck.ScriptSpec

open Litcheck.Script (trim trimStart trimEnd)

/-- `kind` is the leftmost keyword in the line and `content` is all that follows it. -/
def Keyword (line : Str) (kind : DirKind) (content : Str) : Prop :=
  ∃ before, line = before ++ kind.text ++ content ∧
    ∀ before' kind' content', line = before' ++ DirKind.text kind' ++ content' → before.length ≤ before'.length

/-- Only white space. -/
def Blank (s : Str) : Prop := ∀ c ∈ s, BParse.isWs c = true

/-- The line goes on in the next one. -/
def Continues (s : Str) : Prop := s.getLast? = some '\\'

/-- One line of a directive: what is written on it, its number, and the keyword it has. -/
structure Seg where
  text : Str
  line : Nat
  key : Option DirKind

/-- A line read as part of a directive: what follows its keyword, or all of it if it has none. -/
inductive SegOf (l : Str) (n : Nat) : Seg → Prop
  | keyed (k : DirKind) (c : Str) : Keyword l k c → SegOf l n ⟨c, n, some k⟩
  | bare : (∀ k c, ¬Keyword l k c) → SegOf l n ⟨l, n, none⟩

/-- `Cont ls segs rest`: the lines that continue a directive, up to the first that does not end in a backslash. -/
inductive Cont : List (Str × Nat) → List Seg → List (Str × Nat) → Prop
  | eof : Cont [] [] []
  | last (l : Str) (n : Nat) (s : Seg) (rest : List (Str × Nat)) : SegOf l n s → ¬Continues s.text →
      Cont ((l, n) :: rest) [s] rest
  | more (l : Str) (n : Nat) (s : Seg) (ls rest : List (Str × Nat)) (segs : List Seg) : SegOf l n s →
      Continues s.text → Cont ls segs rest → Cont ((l, n) :: ls) (s :: segs) rest

/-- A directive: its keyword, its first line and its lines. -/
structure Dir where
  kind : DirKind
  head : Seg
  more : List Seg

/-- The directives that may go on in the next line. -/
def Multi : DirKind → Prop
  | .run | .define | .redefine => True
  | _ => False

/-- `Directives ls ds`: the directives in the lines. -/
inductive Directives : List (Str × Nat) → List Dir → Prop
  | nil : Directives [] []
  | stop (l c : Str) (n : Nat) (ls : List (Str × Nat)) : Keyword l .end_ c → Blank c → Directives ((l, n) :: ls) []
  | notEnd (l c : Str) (n : Nat) (ls : List (Str × Nat)) (ds : List Dir) : Keyword l .end_ c → ¬Blank c →
      Directives ls ds → Directives ((l, n) :: ls) ds
  | plain (l : Str) (n : Nat) (ls : List (Str × Nat)) (ds : List Dir) : (∀ k c, ¬Keyword l k c) →
      Directives ls ds → Directives ((l, n) :: ls) ds
  | one (l c : Str) (k : DirKind) (n : Nat) (ls : List (Str × Nat)) (ds : List Dir) : Keyword l k c → k ≠ .end_ →
      (Multi k → ¬Continues c) → Directives ls ds → Directives ((l, n) :: ls) (⟨k, ⟨c, n, some k⟩, []⟩ :: ds)
  | many (l c : Str) (k : DirKind) (n : Nat) (ls rest : List (Str × Nat)) (segs : List Seg) (ds : List Dir) :
      Keyword l k c → Multi k → Continues c → Cont ls segs rest → Directives rest ds →
      Directives ((l, n) :: ls) (⟨k, ⟨c, n, some k⟩, segs⟩ :: ds)

/-- A line without its backslash, or without the white space at its end. -/
def body (s : Str) : Str := if s.getLast? = some '\\' then s.dropLast else trimEnd s

/-- References to line numbers replaced, with the line it is on; and the ones that cannot be read. -/
abbrev expand (nd : Char → Bool) (s : Str) (line : Nat) : Str × List ScriptErr := Script.pushLineNumbers nd line s

/-- The text of the first line of a directive. -/
def headText (d : Dir) : Str := trimStart (body d.head.text)

/-- The command of a RUN directive: its lines joined by a backslash and a line feed. -/
def command (nd : Char → Bool) (d : Dir) : Str :=
  ['\\', '\n'].intercalate
    ((expand nd (headText d) d.head.line).1 :: d.more.map fun s => (expand nd (body s.text) s.line).1)

/-- The definition of a DEFINE or REDEFINE directive: its lines without white space around them, joined by a space. -/
def definition (nd : Char → Bool) (d : Dir) : Str :=
  [' '].intercalate
    ((expand nd (headText d) d.head.line).1 :: d.more.map fun s => (expand nd (trim (body s.text)) s.line).1)

/-- The line of a continuation does not repeat the keyword. -/
def keyProblem (kind : DirKind) (s : Seg) : List ScriptErr :=
  match s.key with
  | none => [.missingContinuation kind]
  | some k => if k = kind then [] else [.invalidContinuation kind]

/-- What is wrong with the lines of a RUN, DEFINE or REDEFINE directive. -/
def lineProblems (nd : Char → Bool) (d : Dir) : List ScriptErr :=
  (expand nd (headText d) d.head.line).2 ++ d.more.flatMap fun s =>
    keyProblem d.kind s ++
      (expand nd (if d.kind = .run then body s.text else trim (body s.text)) s.line).2

/-- A substitution name: `%{`, a letter or underscore, any number of letters, digits, `-`, `_` and `:`, and `}`. -/
def Name (s : Str) : Prop :=
  ∃ c cs, s = ['%', '{'] ++ (c :: cs) ++ ['}'] ∧
    c ∈ "_abcdefghijklmnopqrstuvwxyzABCDEFGHIJKLMNOPQRSTUVWXYZ".toList ∧
    ∀ x ∈ cs, x ∈ "-_:0123456789abcdefghijklmnopqrstuvwxyzABCDEFGHIJKLMNOPQRSTUVWXYZ".toList

noncomputable instance (s : Str) : Decidable (Name s) := Classical.propDecidable _

/-- Key and value of a definition: the text before and after the first `=`. -/
def keyValue (s : Str) : Option (Str × Str) := (splitOnce '=' s).map fun kv => (trim kv.1, trim kv.2)

/-- The expressions of a REQUIRES, UNSUPPORTED or XFAIL directive, separated by commas; `*` is true. -/
def exprs (rx : Rx) (d : Dir) : List (Except BParse.Err BExpr) :=
  (Script.splitCommas d.head.text).map fun s => if trim s = ['*'] then .ok (.lit true) else BParse.parse rx (trim s)

/-- The readable expressions. -/
def goodExprs (rx : Rx) (d : Dir) : List BExpr := (exprs rx d).filterMap fun
  | .ok e => some e
  | .error _ => none

/-- The errors of the others. -/
def badExprs (rx : Rx) (d : Dir) : List ScriptErr := (exprs rx d).filterMap fun
  | .ok _ => none
  | .error e => some (.invalidBooleanExpr e)

/-- The number of an ALLOWED_RETRIES directive. -/
def retriesOf (d : Dir) : Option Nat := Script.parseUsize (trim d.head.text)

/-- The command a directive adds, if it adds one. A definition without `=` adds none, as in the code. -/
noncomputable def commandOf (nd : Char → Bool) (d : Dir) : Option Cmd :=
  match d.kind with
  | .run => some (.run ⟨d.head.line, command nd d⟩)
  | .define | .redefine => (keyValue (definition nd d)).bind fun kv =>
      if Name kv.1 then some (.subst ⟨d.head.line, kv.1, kv.2, d.kind == .redefine⟩) else none
  | _ => none

/-- What is wrong with a directive; `retries` says whether an earlier one has set the number of retries. -/
noncomputable def problemsOf (rx : Rx) (nd : Char → Bool) (retries : Bool) (d : Dir) : List ScriptErr :=
  match d.kind with
  | .run => lineProblems nd d
  | .define | .redefine => lineProblems nd d ++
      ((keyValue (definition nd d)).toList.flatMap fun kv =>
        if Name kv.1 then [] else [.invalidSubstitution (.invalidKey kv.1)])
  | .requires | .unsupported | .xfail => badExprs rx d
  | .allowedRetries =>
      if retries then [.conflict .allowedRetries]
      else if (retriesOf d).isNone then [.invalidInteger .allowedRetries] else []
  | .end_ => []

/-- The number of retries set by the directives: the first that can be read. -/
def retries (ds : List Dir) : Option Nat := (ds.filter fun d => d.kind == .allowedRetries).findSome? retriesOf

/-- What is wrong with the directives, in order. -/
noncomputable def problems (rx : Rx) (nd : Char → Bool) : List Dir → List Dir → List ScriptErr
  | _, [] => []
  | earlier, d :: ds => problemsOf rx nd (retries earlier).isSome d ++ problems rx nd (earlier ++ [d]) ds

/-- The script the directives say. -/
noncomputable def meaning (rx : Rx) (nd : Char → Bool) (ds : List Dir) : TestScript where
  commands := ds.filterMap (commandOf nd)
  xfails := (ds.filter fun d => d.kind == .xfail).flatMap (goodExprs rx)
  requires := (ds.filter fun d => d.kind == .requires).flatMap (goodExprs rx)
  unsupported := (ds.filter fun d => d.kind == .unsupported).flatMap (goodExprs rx)
  allowedRetries := retries ds

/-- `IsLines text ls`: the lines of the text, each without its line ending (a line feed, and a carriage return before
it), numbered by the line feeds up to and including their own. -/
inductive IsLines : Nat → Str → List (Str × Nat) → Prop
  | nil (n : Nat) : IsLines n [] []
  | last (n : Nat) (l : Str) : l ≠ [] → '\n' ∉ l → l.getLast? ≠ some '\r' → IsLines n l [(l, n)]
  | lastCr (n : Nat) (l : Str) : '\n' ∉ l → IsLines n (l ++ ['\r']) [(l, n)]
  | line (n : Nat) (l s : Str) (ls : List (Str × Nat)) : '\n' ∉ l → l.getLast? ≠ some '\r' → IsLines (n + 1) s ls →
      IsLines n (l ++ ['\n'] ++ s) ((l, n + 1) :: ls)
  | lineCr (n : Nat) (l s : Str) (ls : List (Str × Nat)) : '\n' ∉ l → IsLines (n + 1) s ls →
      IsLines n (l ++ ['\r', '\n'] ++ s) ((l, n + 1) :: ls)

/-- A directive that can be read, by itself. A definition without `=` counts as one, as in the code. -/
def WellFormed (rx : Rx) (nd : Char → Bool) (d : Dir) : Prop :=
  match d.kind with
  | .run => (∀ s ∈ d.more, s.key = some d.kind) ∧
      (expand nd (headText d) d.head.line).2 = [] ∧ ∀ s ∈ d.more, (expand nd (body s.text) s.line).2 = []
  | .define | .redefine => (∀ s ∈ d.more, s.key = some d.kind) ∧
      (expand nd (headText d) d.head.line).2 = [] ∧ (∀ s ∈ d.more, (expand nd (trim (body s.text)) s.line).2 = []) ∧
      ∀ kv, keyValue (definition nd d) = some kv → Name kv.1
  | .requires | .unsupported | .xfail => ∀ r ∈ exprs rx d, ∃ e, r = .ok e
  | .allowedRetries => retriesOf d ≠ none
  | .end_ => True

/-- The number written in decimal. -/
def decimal (ds : Str) : Nat := ds.foldl (fun n c => n * 10 + (c.toNat - 48)) 0

/-- The text stands for this number of 64 bits. -/
def Usize (s : Str) (n : Nat) : Prop :=
  n < 2 ^ 64 ∧ ∃ ds, (s = ds ∨ s = '+' :: ds) ∧ ds ≠ [] ∧ (∀ c ∈ ds, c ∈ "0123456789".toList) ∧ n = decimal ds

/-- A reference to a line: `%(line)`, or with spaces, a sign, spaces and digits before the parenthesis. -/
inductive LineRef (nd : Char → Bool) : Str → Option (Char × Str) → Prop
  | here : LineRef nd "%(line)".toList none
  | offset (k m : Nat) (sign : Char) (ds : Str) : sign = '+' ∨ sign = '-' → ds ≠ [] → (∀ c ∈ ds, nd c = true) →
      LineRef nd ("%(line".toList ++ List.replicate k ' ' ++ [sign] ++ List.replicate m ' ' ++ ds ++ [')'])
        (some (sign, ds))

/-- The line a reference on line `line` is about, `none` if its offset is no number. -/
inductive RefersTo (line : Nat) : Option (Char × Str) → Option Nat → Prop
  | here : RefersTo line none (some line)
  | plus (ds : Str) (n : Nat) : Usize ds n → RefersTo line (some ('+', ds)) (some ((line + n) % 2 ^ 64))
  | minus (ds : Str) (n : Nat) : Usize ds n → RefersTo line (some ('-', ds)) (some (line - n))
  | bad (sign : Char) (ds : Str) : (∀ n, ¬Usize ds n) → RefersTo line (some (sign, ds)) none

/-- `Expanded nd line s out errs`: `out` is `s` with each reference replaced by its line in decimal; `errs` says how
many references could not be read (the code puts the line itself there). -/
inductive Expanded (nd : Char → Bool) (line : Nat) : Str → Str → Nat → Prop
  | nil : Expanded nd line [] [] 0
  | char (c : Char) (s out : Str) (errs : Nat) : (∀ r o t, LineRef nd r o → c :: s ≠ r ++ t) →
      Expanded nd line s out errs → Expanded nd line (c :: s) (c :: out) errs
  | ref (r s out : Str) (o : Option (Char × Str)) (n errs : Nat) : LineRef nd r o → RefersTo line o (some n) →
      Expanded nd line s out errs → Expanded nd line (r ++ s) ((toString n).toList ++ out) errs
  | bad (r s out : Str) (o : Option (Char × Str)) (errs : Nat) : LineRef nd r o → RefersTo line o none →
      Expanded nd line s out errs → ∀ n : Nat, Expanded nd line (r ++ s) ((toString n).toList ++ out) (errs + 1)

end Litcheck.ScriptSpec
