import Verif.Model.Program
import Verif.Model.BoolExpr

/-!
# What is a directive of a check file, and what are the parts of a pattern

Independent of the lexer: directives are described by what is written, and they are looked for line by line.
-/

namespace Litcheck.LexSpec

/-- White space. -/
def ws (c : Char) : Bool := BParse.isWs c

/-- White space of ASCII, without the vertical tab. -/
def asciiWs (c : Char) : Bool := c == ' ' || c == '\t' || c == '\n' || c == '\x0c' || c == '\r'

/-- The lines of a text: they are separated by line feeds. -/
def lines : Str → List Str
  | [] => [[]]
  | c :: r =>
    if c = '\n' then [] :: lines r
    else match lines r with
      | l :: ls => (c :: l) :: ls
      | [] => [[c]]

/-- What kind of directive it is; a count is given by its digits. -/
inductive Head where
  | comment | kind (k : Kind) | count (digits : Str)
  deriving DecidableEq, Repr

/-- A directive: its prefix, its kind, how many modifiers it has, and what is written after the colon. -/
structure Directive where
  pfx : Str
  head : Head
  mods : Nat
  text : Str
  deriving DecidableEq, Repr

/-- What is written after the prefix. -/
def word : Kind → Option Str
  | .plain => some []
  | .next => some "-NEXT".toList
  | .same => some "-SAME".toList
  | .not => some "-NOT".toList
  | .dag => some "-DAG".toList
  | .label => some "-LABEL".toList
  | .empty => some "-EMPTY".toList
  | .count _ => none

/-- `n` times a comma and `LITERAL`, with white space around. -/
inductive MoreMods : Nat → Str → Prop
  | nil : MoreMods 0 []
  | cons {n t w1 w2 w3} : w1.all ws → w2.all ws → w3.all ws → MoreMods n t →
      MoreMods (n + 1) (w1 ++ ',' :: (w2 ++ "LITERAL".toList ++ (w3 ++ t)))

/-- A list of `n` modifiers in braces, or nothing. -/
inductive Mods : Nat → Str → Prop
  | none : Mods 0 []
  | some {n w t} : w.all ws → MoreMods n t → Mods (n + 1) ('{' :: (w ++ "LITERAL".toList ++ (t ++ ['}'])))

/-- The line `s` begins with the directive `d`: `checks` are the prefixes of checks and `comments` those of comments. -/
inductive Begins (checks comments : List Str) : Str → Directive → Prop
  | comment {p t} : p ∈ comments → Begins checks comments (p ++ ':' :: t) ⟨p, .comment, 0, t⟩
  | kind {p k w n m t} : p ∈ checks → word k = some w → Mods n m →
      Begins checks comments (p ++ (w ++ (m ++ ':' :: t))) ⟨p, .kind k, n, t⟩
  | count {p ds n m t} : p ∈ checks → ds ≠ [] → ds.all Char.isDigit → Mods n m →
      Begins checks comments (p ++ ("-COUNT-".toList ++ (ds ++ (m ++ ':' :: t)))) ⟨p, .count ds, n, t⟩

/-- What may be written after the prefix of a check, before the digits of a count. -/
def words : List Str :=
  ["-NEXT".toList, "-SAME".toList, "-NOT".toList, "-DAG".toList, "-LABEL".toList, "-EMPTY".toList, "-COUNT-".toList]

/-- The prefixes cannot be mistaken for each other: none is a prefix of a check and of a comment, and if one is longer by `x` than another then
`x` does not begin like what may follow a prefix. (`CHECK` and `CHECK-FOO` are fine.) -/
def Unambiguous (checks comments : List Str) : Prop :=
  (∀ p ∈ checks, p ∉ comments) ∧
  ∀ p q x, (p ∈ checks ∨ p ∈ comments) → (q ∈ checks ∨ q ∈ comments) → q = p ++ x → x ≠ [] →
    x.head? ≠ some ':' ∧ x.head? ≠ some '{' ∧ ∀ w ∈ words, ¬ w <+: x ∧ ¬ x <+: w

/-- The prefixes, unless none are given. -/
def orElse (ps : List Str) (dflt : List Str) : List Str := if ps = [] then dflt else ps

/-- No white space in prefixes. -/
def NoSpace (ps : List Str) : Prop := ∀ p ∈ ps, ∀ c ∈ p, ws c = false

/-- No list of modifiers goes on on the next line. -/
def ModsOnOneLine (s : Str) : Prop := ∀ a m b n, s = a ++ (m ++ b) → Mods n m → '\n' ∉ m

/-- A directive may begin after `a` in a line: `a` is empty or ends with white space. If `fresh`, `a` may not be all white space. -/
def Place (fresh : Bool) (a : Str) : Prop :=
  a = [] ∨ ((∃ a' c, a = a' ++ [c] ∧ ws c) ∧ (fresh = true → ¬ a.all asciiWs))

/-- The directives of the lines, in order: of each line the leftmost one. `fresh` tells that all lines since the last line with a
directive, or since the beginning, were blank: then a directive that is the first thing on an indented line is passed over. -/
inductive Recognised (checks comments : List Str) : Bool → List Str → List Directive → Prop
  | nil {fresh} : Recognised checks comments fresh [] []
  | blank {l ls ds} : l.all asciiWs → Recognised checks comments true ls ds → Recognised checks comments true (l :: ls) ds
  | none {fresh l ls ds} : (fresh = true → ¬ l.all asciiWs) →
      (∀ a b, l = a ++ b → Place fresh a → ∀ d, ¬ Begins checks comments b d) →
      Recognised checks comments false ls ds → Recognised checks comments fresh (l :: ls) ds
  | some {fresh a b ls d ds} : (fresh = true → ¬ (a ++ b).all asciiWs) → Place fresh a → Begins checks comments b d →
      (∀ a' b', a ++ b = a' ++ b' → a'.length < a.length → Place fresh a' → ∀ d', ¬ Begins checks comments b' d') →
      Recognised checks comments true ls ds → Recognised checks comments fresh ((a ++ b) :: ls) (d :: ds)

/-- The directives of the lines as documented: of each line the leftmost one. -/
inductive Documented (checks comments : List Str) : List Str → List Directive → Prop
  | nil : Documented checks comments [] []
  | none {l ls ds} : (∀ a b, l = a ++ b → Place false a → ∀ d, ¬ Begins checks comments b d) →
      Documented checks comments ls ds → Documented checks comments (l :: ls) ds
  | some {a b ls d ds} : Place false a → Begins checks comments b d →
      (∀ a' b', a ++ b = a' ++ b' → a'.length < a.length → Place false a' → ∀ d', ¬ Begins checks comments b' d') →
      Documented checks comments ls ds → Documented checks comments ((a ++ b) :: ls) (d :: ds)

/-- A part of a pattern: text, a regular expression, or a match block, numeric or not. -/
inductive Seg where
  | text (s : Str) | regex (s : Str) | block (numeric : Bool) (s : Str)
  deriving DecidableEq, Repr

/-- How a part is written. -/
def Seg.src : Seg → Str
  | .text s => s
  | .regex s => '{' :: '{' :: (s ++ ['}', '}'])
  | .block true s => '[' :: '[' :: '#' :: (s ++ [']', ']'])
  | .block false s => '[' :: '[' :: (s ++ [']', ']'])

/-- A block begins at the front of the text: `{{`, or `[[` if there is no third bracket. -/
def Opens (s : Str) : Prop :=
  (∃ r, s = '{' :: '{' :: r) ∨ (∃ r, s = '[' :: '[' :: r ∧ ∀ r', r ≠ '[' :: r')

/-- In `a ++ b`, `b` is the first place with the property. -/
def First (P : Str → Str → Prop) (a b : Str) : Prop :=
  P a b ∧ ∀ a1 a2, a = a1 ++ a2 → a2 ≠ [] → ¬ P a1 (a2 ++ b)

/-- Nowhere in the text is the property true. -/
def Never (P : Str → Str → Prop) (s : Str) : Prop := ∀ a b, s = a ++ b → ¬ P a b

/-- The inside of a set of characters in a regular expression: no closing bracket unless after a backslash. -/
inductive InSet : Str → Prop
  | nil : InSet []
  | char {c r} : c ≠ ']' → c ≠ '\\' → InSet r → InSet (c :: r)
  | esc {c r} : c ≠ '\n' → InSet r → InSet ('\\' :: c :: r)

/-- The brackets at the end of the text belong to a set in a regular expression: `[[:name:]]`, or `[...]]` with one set inside. -/
def SetEnd (s : Str) : Prop :=
  (∃ x name, s = x ++ ("[[:".toList ++ (name ++ ":]]".toList)) ∧ name ≠ [] ∧ ∀ c ∈ name, 'a' ≤ c ∧ c ≤ 'z') ∨
  (∃ x u, s = x ++ '[' :: (u ++ [']', ']']) ∧ u ≠ [] ∧ InSet u)

/-- A regular expression ends here. -/
def RegexEnd (_ b : Str) : Prop := ∃ r, b = '}' :: '}' :: r

/-- A match block ends here, `a` being its beginning: two brackets which do not belong to a set. -/
def BlockEnd (a b : Str) : Prop := (∃ r, b = ']' :: ']' :: r) ∧ ¬ SetEnd (a ++ [']', ']'])

/-- What is left open at the end of a pattern. -/
inductive Open where
  | regex | block (numeric : Bool)
  deriving DecidableEq, Repr

/-- The parts of a pattern, and what is left open at its end. -/
inductive Split : Str → List Seg → Option Open → Prop
  | nil : Split [] [] none
  | text {s rest segs u} : s ≠ [] → (∀ a b, s = a ++ b → b ≠ [] → ¬ Opens (b ++ rest)) → (rest = [] ∨ Opens rest) →
      Split rest segs u → Split (s ++ rest) (.text s :: segs) u
  | regex {s rest segs u} : First RegexEnd s ('}' :: '}' :: rest) → Split rest segs u →
      Split ((Seg.regex s).src ++ rest) (.regex s :: segs) u
  | numeric {s rest segs u} : First BlockEnd s (']' :: ']' :: rest) → Split rest segs u →
      Split ((Seg.block true s).src ++ rest) (.block true s :: segs) u
  | block {s rest segs u} : (∀ r, s ≠ '#' :: r) → (∀ r, s ≠ '[' :: r) → First BlockEnd s (']' :: ']' :: rest) → Split rest segs u →
      Split ((Seg.block false s).src ++ rest) (.block false s :: segs) u
  | openRegex {s} : Never RegexEnd s → Split ('{' :: '{' :: s) [] (some .regex)
  | openNumeric {s} : Never BlockEnd s → Split ('[' :: '[' :: '#' :: s) [] (some (.block true))
  | openBlock {s} : (∀ r, s ≠ '#' :: r) → (∀ r, s ≠ '[' :: r) → Never BlockEnd s → Split ('[' :: '[' :: s) [] (some (.block false))

end Litcheck.LexSpec
