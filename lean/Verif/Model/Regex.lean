import Verif.Model.Base
import Verif.Model.BoolExpr

/-!
# Regular expressions

FileCheck hands the text between `{{` and `}}` to the crate `regex-automata` (`meta::Regex`, `regex-syntax` 0.8.10),
with the option `multi_line(true)` (`filecheck/src/pattern/matcher/matchers/regex.rs:35-43`). That crate is not part of
the repository; this file models the fragment of its documented syntax and of its documented leftmost-first matching that
check files commonly use: characters, `.`, classes, `* + ? {m} {m,} {m,n}` (greedy and lazy), `|`, groups, named groups,
`^`, `$` and escapes. A source outside of the fragment is rejected here, so nothing is claimed about it.
Simplifications: `--ignore-case` and `\d \w \s` are those of ASCII.
-/

namespace Litcheck.Regex

/-- A continuation byte of UTF-8. -/
def isCont (x : UInt8) : Bool := decide (128 ≤ x.toNat) && decide (x.toNat < 192)

/-- The first scalar value of a text in UTF-8, and the number of its bytes. -/
def decode : Buf → Option (Nat × Nat)
  | [] => none
  | x :: xs =>
    let a := x.toNat
    if a < 128 then some (a, 1)
    else if a < 192 then none
    else if a < 224 then
      match xs with
      | y :: _ =>
        let v := (a - 192) * 64 + (y.toNat - 128)
        if isCont y && decide (128 ≤ v) then some (v, 2) else none
      | _ => none
    else if a < 240 then
      match xs with
      | y :: z :: _ =>
        let v := ((a - 224) * 64 + (y.toNat - 128)) * 64 + (z.toNat - 128)
        if isCont y && isCont z && decide (2048 ≤ v) && !(decide (0xD800 ≤ v) && decide (v < 0xE000)) then some (v, 3) else none
      | _ => none
    else
      match xs with
      | y :: z :: w :: _ =>
        let v := (((a - 240) * 64 + (y.toNat - 128)) * 64 + (z.toNat - 128)) * 64 + (w.toNat - 128)
        if isCont y && isCont z && isCont w && decide (0x10000 ≤ v) && decide (v < 0x110000) then some (v, 4) else none
      | _ => none

/-- The UTF-8 encoding of a scalar value. -/
def encode (v : Nat) : Buf :=
  if v < 128 then [v.toUInt8]
  else if v < 2048 then [(192 + v / 64).toUInt8, (128 + v % 64).toUInt8]
  else if v < 65536 then [(224 + v / 4096).toUInt8, (128 + v / 64 % 64).toUInt8, (128 + v % 64).toUInt8]
  else [(240 + v / 262144).toUInt8, (128 + v / 4096 % 64).toUInt8, (128 + v / 64 % 64).toUInt8, (128 + v % 64).toUInt8]

/-- `str::as_bytes`. -/
def utf8 (s : Str) : Buf := s.flatMap fun c => encode c.toNat

/-- `core::str::from_utf8`; the number bounds the characters. -/
def fromUtf8 : Nat → Buf → Option Str
  | _, [] => some []
  | 0, _ :: _ => none
  | fuel + 1, x :: xs =>
    match decode (x :: xs) with
    | some (v, n) => (fromUtf8 fuel ((x :: xs).drop n)).map (Char.ofNat v :: ·)
    | none => none

/-- The syntax trees. `cls neg ranges` is a set of scalar values; `rep r min max greedy`; `cap name r` a named group.
Groups without a name are not kept: nothing reads what they capture. -/
inductive Re where
  | eps
  | cls (neg : Bool) (ranges : List (Nat × Nat))
  | bol | eol
  | cat (r s : Re) | alt (r s : Re)
  | rep (r : Re) (min : Nat) (max : Option Nat) (greedy : Bool)
  | cap (name : Str) (r : Re)
  deriving DecidableEq, Repr

/-- The set of one character. -/
def Re.char (c : Char) : Re := .cls false [(c.toNat, c.toNat)]

/-! ## Matching -/

/-- Is a scalar value in one of the ranges? -/
def inRanges (ranges : List (Nat × Nat)) (c : Nat) : Bool := ranges.any fun r => decide (r.1 ≤ c) && decide (c ≤ r.2)

/-- The other case of an ASCII letter. -/
def otherCase (c : Nat) : Nat := if 65 ≤ c ∧ c ≤ 90 then c + 32 else if 97 ≤ c ∧ c ≤ 122 then c - 32 else c

/-- Is a scalar value in the class, with or without regard to case? -/
def inClass (ic : Bool) (neg : Bool) (ranges : List (Nat × Nat)) (c : Nat) : Bool :=
  (inRanges ranges c || (ic && inRanges ranges (otherCase c))) != neg

/-- `^` with `multi_line`. -/
def atBol (b : Buf) (i : Nat) : Bool := i == 0 || b[i - 1]? == some LF

/-- `$` with `multi_line`. -/
def atEol (b : Buf) (i : Nat) : Bool := b.length ≤ i || b[i]? == some LF

/-- What the named groups matched, the oldest first. -/
abbrev Caps := List (Str × Nat × Nat)

/-- Up to `n` optional iterations from a position, in order of preference. An iteration which consumes nothing is the last. -/
def iterOpt (body : Nat → List (Nat × Caps)) (greedy : Bool) : Nat → Nat → Caps → List (Nat × Caps)
  | 0, i, cs => [(i, cs)]
  | n + 1, i, cs =>
    let more := (body i).flatMap fun x =>
      if x.1 ≤ i then [(x.1, cs ++ x.2)] else iterOpt body greedy n x.1 (cs ++ x.2)
    if greedy then more ++ [(i, cs)] else (i, cs) :: more

/-- `n` iterations which must take place, then up to `m` others. -/
def iterReq (body : Nat → List (Nat × Caps)) (greedy : Bool) (m : Nat → Nat) : Nat → Nat → Caps → List (Nat × Caps)
  | 0, i, cs => iterOpt body greedy (m i) i cs
  | n + 1, i, cs => (body i).flatMap fun x => iterReq body greedy m n x.1 (cs ++ x.2)

/-- The ends of the matches which start at `i` and end at or before `hi`, in order of preference, with what the groups
matched. -/
def Re.ends (ic : Bool) (b : Buf) (hi : Nat) : Re → Nat → List (Nat × Caps)
  | .eps, i => [(i, [])]
  | .cls neg ranges, i =>
    match decode (b.drop i) with
    | some (c, n) => if inClass ic neg ranges c && decide (i + n ≤ hi) then [(i + n, [])] else []
    | none => []
  | .bol, i => if atBol b i then [(i, [])] else []
  | .eol, i => if atEol b i then [(i, [])] else []
  | .cat r s, i => (r.ends ic b hi i).flatMap fun x => (s.ends ic b hi x.1).map fun y => (y.1, x.2 ++ y.2)
  | .alt r s, i => r.ends ic b hi i ++ s.ends ic b hi i
  | .rep r min max greedy, i =>
    iterReq (r.ends ic b hi) greedy (fun j => match max with | some m => m - min | none => hi + 1 - j) min i []
  | .cap name r, i => (r.ends ic b hi i).map fun x => (x.1, x.2 ++ [(name, i, x.1)])

/-- A match: its bounds, and what the named groups matched. -/
structure Hit where
  start : Nat
  stop : Nat
  caps : Caps
  deriving DecidableEq, Repr

/-- `Captures::get_group` by name: the last iteration counts. -/
def Hit.group (h : Hit) (name : Str) : Option (Nat × Nat) := (h.caps.reverse.find? fun x => x.1 == name).map Prod.snd

/-- The first match which starts at one of `p, p + 1, …, p + n`. -/
def findFrom (ic : Bool) (b : Buf) (hi : Nat) (re : Re) : Nat → Nat → Option Hit
  | n, p =>
    match re.ends ic b hi p with
    | (e, cs) :: _ => some ⟨p, e, cs⟩
    | [] =>
      match n with
      | 0 => none
      | n + 1 => findFrom ic b hi re n (p + 1)

/-- `meta::Regex::find` and `search_captures` for `Input::new(b).range(lo..hi).anchored(…)`. -/
def find (ic : Bool) (re : Re) (b : Buf) (lo hi : Nat) (anchored : Bool) : Option Hit :=
  if lo > hi then none else findFrom ic b hi re (if anchored then 0 else hi - lo) lo

/-! ## Syntax -/

/-- An open group: its name, and the alternatives and the sequence so far, both reversed. -/
structure Frame where
  name : Option Str
  alts : List Re
  seq : List Re
  deriving DecidableEq, Repr

/-- Inside brackets: at the front; between items; after a character; after a character and `-`; after `\`; after `[`;
inside `[:name:]`, and after its second colon. -/
inductive ClsSt where
  | fresh | idle | char (c : Nat) | dash (c : Nat) | esc | dashEsc (c : Nat) | brk | posix (name : Str) | posixEnd (name : Str)
  deriving DecidableEq, Repr

/-- Where the parser is: between items; after `\`; after `(`, `(?`, `(?P`; in the name of a group; after `[`; inside
brackets; inside `{m` and `{m,n`. -/
inductive Mode where
  | normal | esc | paren | parenQ | parenP | name (acc : Str)
  | clsOpen | cls (neg : Bool) (ranges : List (Nat × Nat)) (st : ClsSt)
  | count (m : Option Nat) | count2 (m : Nat) (n : Option Nat)
  deriving DecidableEq, Repr

/-- The state of the parser; `lazy` tells that the last item is a repetition which a `?` would make lazy. -/
structure PSt where
  mode : Mode
  lazy : Bool
  top : Frame
  stack : List Frame
  deriving DecidableEq, Repr

/-- The items of a sequence, given in reverse. -/
def seqRe : List Re → Re
  | [] => .eps
  | [r] => r
  | r :: rs => .cat (seqRe rs) r

/-- The alternatives, given in reverse. -/
def altRe : List Re → Re → Re
  | [], r => r
  | a :: as, r => .alt (altRe as a) r

/-- The content of a group. -/
def Frame.re (f : Frame) : Re := altRe f.alts (seqRe f.seq)

/-- Add an item to the sequence. -/
def PSt.push (st : PSt) (r : Re) : PSt := { st with mode := .normal, lazy := false, top := { st.top with seq := r :: st.top.seq } }

/-- Repeat the last item: there must be one. -/
def PSt.repeat_ (st : PSt) (min : Nat) (max : Option Nat) : Option PSt :=
  match st.top.seq with
  | [] => none
  | r :: rs => some { st with mode := .normal, lazy := true, top := { st.top with seq := .rep r min max true :: rs } }

/-- `?` after a repetition. -/
def PSt.makeLazy (st : PSt) : Option PSt :=
  match st.top.seq with
  | .rep r min max _ :: rs => some { st with lazy := false, top := { st.top with seq := .rep r min max false :: rs } }
  | _ => none

/-- Open a group. -/
def PSt.open_ (st : PSt) (name : Option Str) : PSt := ⟨.normal, false, ⟨name, [], []⟩, st.top :: st.stack⟩

/-- A group without a name is its content, one with a name captures it. -/
def capRe : Option Str → Re → Re
  | none, r => r
  | some n, r => .cap n r

/-- Close a group. -/
def PSt.close (st : PSt) : Option PSt :=
  match st.stack with
  | [] => none
  | f :: fs => some ⟨.normal, false, { f with seq := capRe st.top.name st.top.re :: f.seq }, fs⟩

/-- The ranges of `\d`, `\w`, `\s`. -/
def perl (c : Char) : Option (List (Nat × Nat)) :=
  if c = 'd' then some [(48, 57)]
  else if c = 'w' then some [(48, 57), (65, 90), (95, 95), (97, 122)]
  else if c = 's' then some [(9, 13), (32, 32)]
  else none

/-- The character which an escape stands for: a line feed, a tabulator, a carriage return, or punctuation which may be
escaped (`regex_syntax::is_escapeable_character`; here the meta characters, `regex_syntax::is_meta_character`). -/
def escaped (c : Char) : Option Char :=
  if c = 'n' then some '\n' else if c = 't' then some '\t' else if c = 'r' then some '\r'
  else if "\\.+*?()|[]{}^$#&-~".toList.contains c then some c else none

/-- An escape outside of brackets. -/
def escRe (c : Char) : Option Re :=
  match perl c with
  | some rs => some (.cls false rs)
  | none =>
    match perl c.toLower with
    | some rs => some (.cls true rs)
    | none => (escaped c).map Re.char

/-- `[:name:]`. -/
def posixRanges (name : Str) : Option (List (Nat × Nat)) :=
  if name = "alpha".toList then some [(65, 90), (97, 122)]
  else if name = "digit".toList then some [(48, 57)]
  else if name = "alnum".toList then some [(48, 57), (65, 90), (97, 122)]
  else if name = "upper".toList then some [(65, 90)]
  else if name = "lower".toList then some [(97, 122)]
  else if name = "xdigit".toList then some [(48, 57), (65, 70), (97, 102)]
  else if name = "space".toList then some [(9, 13), (32, 32)]
  else none

/-- One character inside brackets: the ranges and where we are then, or `none` for the ranges when the class is closed. -/
def clsStep (ranges : List (Nat × Nat)) (st : ClsSt) (c : Char) : Option (List (Nat × Nat) × Option ClsSt) :=
  let v := c.toNat
  match st with
  | .fresh =>
    if c = ']' ∨ c = '-' then some (ranges, some (.char v))
    else if c = '\\' then some (ranges, some .esc)
    else if c = '[' then some (ranges, some .brk)
    else if c = '&' ∨ c = '~' then none
    else some (ranges, some (.char v))
  | .idle =>
    if c = ']' then some (ranges, none)
    else if c = '\\' then some (ranges, some .esc)
    else if c = '[' then some (ranges, some .brk)
    else if c = '&' ∨ c = '~' ∨ c = '-' then none
    else some (ranges, some (.char v))
  | .char a =>
    if c = ']' then some ((a, a) :: ranges, none)
    else if c = '-' then some (ranges, some (.dash a))
    else if c = '\\' then some ((a, a) :: ranges, some .esc)
    else if c = '[' then some ((a, a) :: ranges, some .brk)
    else if c = '&' ∨ c = '~' then none
    else some ((a, a) :: ranges, some (.char v))
  | .dash a =>
    if c = ']' then some ((45, 45) :: (a, a) :: ranges, none)
    else if c = '\\' then some (ranges, some (.dashEsc a))
    else if c = '[' ∨ c = '&' ∨ c = '~' ∨ c = '-' then none
    else if a ≤ v then some ((a, v) :: ranges, some .idle) else none
  | .esc =>
    match perl c with
    | some rs => some (rs ++ ranges, some .idle)
    | none => (escaped c).map fun d => (ranges, some (.char d.toNat))
  | .dashEsc a =>
    match escaped c with
    | some d => if a ≤ d.toNat then some ((a, d.toNat) :: ranges, some .idle) else none
    | none => none
  | .brk => if c = ':' then some (ranges, some (.posix [])) else none
  | .posix n => if c = ':' then some (ranges, some (.posixEnd n)) else some (ranges, some (.posix (n ++ [c])))
  | .posixEnd n => if c = ']' then (posixRanges n).map fun rs => (rs ++ ranges, some .idle) else none

/-- A character of the name of a group. -/
def nameChar (first : Bool) (c : Char) : Bool :=
  c == '_' || (decide ('a' ≤ c) && decide (c ≤ 'z')) || (decide ('A' ≤ c) && decide (c ≤ 'Z')) ||
    (!first && decide ('0' ≤ c) && decide (c ≤ '9'))

/-- A decimal digit. -/
def digit (c : Char) : Option Nat := if 48 ≤ c.toNat ∧ c.toNat ≤ 57 then some (c.toNat - 48) else none

/-- One character between items, other than `?`. -/
def itemStep (st : PSt) (c : Char) : Option PSt :=
  if c = '\\' then some { st with mode := .esc }
  else if c = '.' then some (st.push (.cls true [(10, 10)]))
  else if c = '^' then some (st.push .bol)
  else if c = '$' then some (st.push .eol)
  else if c = '*' then st.repeat_ 0 none
  else if c = '+' then st.repeat_ 1 none
  else if c = '{' then if st.top.seq.isEmpty then none else some { st with mode := .count none }
  else if c = '|' then some { st with top := { st.top with alts := seqRe st.top.seq :: st.top.alts, seq := [] } }
  else if c = '(' then some { st with mode := .paren }
  else if c = ')' then st.close
  else if c = '[' then some { st with mode := .clsOpen }
  else some (st.push (.char c))

/-- One character between items. -/
def normalStep (st : PSt) (c : Char) : Option PSt :=
  if c = '?' then if st.lazy then st.makeLazy else st.repeat_ 0 (some 1)
  else itemStep { st with lazy := false } c

/-- One character of the source. -/
def step (st : PSt) (c : Char) : Option PSt :=
  match st.mode with
  | .normal => normalStep st c
  | .esc => (escRe c).map st.push
  | .paren => if c = '?' then some { st with mode := .parenQ } else normalStep (st.open_ none) c
  | .parenQ =>
    if c = ':' then some (st.open_ none)
    else if c = 'P' then some { st with mode := .parenP }
    else if c = '<' then some { st with mode := .name [] }
    else none
  | .parenP => if c = '<' then some { st with mode := .name [] } else none
  | .name acc =>
    if c = '>' then if acc.isEmpty then none else some (st.open_ (some acc))
    else if nameChar acc.isEmpty c then some { st with mode := .name (acc ++ [c]) } else none
  | .clsOpen =>
    if c = '^' then some { st with mode := .cls true [] .fresh }
    else (clsStep [] .fresh c).map fun x => { st with mode := .cls false x.1 (x.2.getD .idle) }
  | .cls neg ranges cst =>
    match clsStep ranges cst c with
    | none => none
    | some (rs, some cst') => some { st with mode := .cls neg rs cst' }
    | some (rs, none) => some (st.push (.cls neg rs.reverse))
  | .count m =>
    match digit c, m with
    | some d, _ => some { st with mode := .count (some (m.getD 0 * 10 + d)) }
    | none, none => none
    | none, some m =>
      if c = '}' then st.repeat_ m (some m)
      else if c = ',' then some { st with mode := .count2 m none }
      else none
  | .count2 m n =>
    match digit c with
    | some d => some { st with mode := .count2 m (some (n.getD 0 * 10 + d)) }
    | none =>
      if c = '}' then
        match n with
        | none => st.repeat_ m none
        | some n => if m ≤ n then st.repeat_ m (some n) else none
      else none

/-- The state at the start. -/
def init : PSt := ⟨.normal, false, ⟨none, [], []⟩, []⟩

/-- Read a text from a state. -/
def steps : PSt → Str → Option PSt
  | st, [] => some st
  | st, c :: cs => (step st c).bind fun st' => steps st' cs

/-- The names of the groups. -/
def Re.names : Re → List Str
  | .eps | .cls _ _ | .bol | .eol => []
  | .cat r s | .alt r s => r.names ++ s.names
  | .rep r _ _ _ => r.names
  | .cap n r => r.names ++ [n]

/-- The state at the end: every group and every class is closed. -/
def finish (st : PSt) : Option Re :=
  if st.mode = .normal ∧ st.stack = [] then some st.top.re else none

/-- `Builder::build`: a name may be given to one group only. -/
def parse (s : Str) : Option Re :=
  match (steps init s).bind finish with
  | none => none
  | some re => if re.names.Nodup then some re else none

/-- `regex_syntax::escape_into`. -/
def escape (s : Str) : Str :=
  s.flatMap fun c => if "\\.+*?()|[]{}^$#&-~".toList.contains c then ['\\', c] else [c]

/-! ## The engine as the matchers use it -/

/-- What the matchers need of the crate: `Builder::build` with `case_insensitive`, and `search_captures` on a range of the
buffer. -/
structure Engine where
  Prog : Type
  build : Bool → Str → Option Prog
  search : Prog → Buf → Nat → Nat → Bool → Option Hit

/-- The engine for the fragment above. -/
def engine : Engine where
  Prog := Bool × Re
  build ic s := (parse s).map fun r => (ic, r)
  search p b lo hi anchored := find p.1 p.2 b lo hi anchored

end Litcheck.Regex
