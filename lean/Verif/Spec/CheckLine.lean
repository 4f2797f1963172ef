import Verif.Spec.Lexer
import Verif.Spec.Number
import Verif.Model.Grammar
import Verif.Model.Parser

/-!
# What a directive of a check file means

Relations between what is written and the check line; the types of the results are those of the model.
-/

namespace Litcheck.LexSpec

open Lex (Token Part CPat CLine Match)

/-- A letter or digit of ASCII, or an underscore. -/
def wordChar (c : Char) : Bool := c.isAlphanum || c == '_'

/-- Words with a meaning; all others are names. -/
def wordToken (s : Str) : Token :=
  if s = "LITERAL".toList then .literal
  else if s = "LINE".toList then .line
  else if s = "add".toList then .op .add
  else if s = "sub".toList then .op .sub
  else if s = "mul".toList then .op .mul
  else if s = "div".toList then .op .div
  else if s = "min".toList then .op .min
  else if s = "max".toList then .op .max
  else .ident s

/-- The tokens of one character; and whether white space may follow, given whether it might precede. -/
inductive Symbol : Bool → Char → Token → Bool → Prop
  | hash (b) : Symbol b '#' .hash false
  | percent (b) : Symbol b '%' .percent false
  | dot (b) : Symbol b '.' .dot false
  | at_ (b) : Symbol b '@' .at_ false
  | dollar (b) : Symbol b '$' .dollar false
  | comma (b) : Symbol b ',' .comma b
  | plus (b) : Symbol b '+' .plus true
  | minus (b) : Symbol b '-' .minus true
  | lparen (b) : Symbol b '(' .lparen true
  | rparen (b) : Symbol b ')' .rparen true

/-- A character does not begin the text. -/
def Not1 (p : Char → Bool) (r : Str) : Prop := ∀ c ∈ r.head?, p c = false

/-- A number at the front of the text, its value and the rest: as many digits as there are. A value above the greatest signed 128-bit integer
is none. -/
inductive NumberAt : Str → Nat → Str → Prop
  | dec {ds r} : ds ≠ [] → ds.all Char.isDigit → Not1 Char.isDigit r → (∀ t, ds ++ r ≠ '0' :: 'x' :: t) → (∀ t, ds ++ r ≠ '0' :: 'b' :: t) →
      Spec.positional 10 ds < 2 ^ 127 → NumberAt (ds ++ r) (Spec.positional 10 ds) r
  | hex {ds r} : ds ≠ [] → (∀ c ∈ ds, Spec.IsHex .any c) → (∀ c ∈ r.head?, ¬ Spec.IsHex .any c) →
      Spec.positional 16 ds < 2 ^ 127 → NumberAt ('0' :: 'x' :: (ds ++ r)) (Spec.positional 16 ds) r
  | bin {ds r} : ds ≠ [] → (∀ c ∈ ds, c = '0' ∨ c = '1') → (∀ c ∈ r.head?, c ≠ '0' ∧ c ≠ '1') →
      Spec.positional 2 ds < 2 ^ 127 → NumberAt ('0' :: 'b' :: (ds ++ r)) (Spec.positional 2 ds) r

/-- The tokens of the inside of a match block. The flag tells whether white space is skipped. In a block that is not numeric, everything
after the first colon is a regular expression. -/
inductive Lexes (numeric : Bool) : Bool → Str → List Token → Prop
  | nil {b} : Lexes numeric b [] []
  | space {c r ts} : asciiWs c = true → Lexes numeric true r ts → Lexes numeric true (c :: r) ts
  | symbol {b c t b' r ts} : Symbol b c t b' → Lexes numeric b' r ts → Lexes numeric b (c :: r) (t :: ts)
  | equals {b r ts} : Lexes numeric true r ts → Lexes numeric b ('=' :: '=' :: r) (.equals :: ts)
  | colon {b r ts} : numeric = true → Lexes numeric true r ts → Lexes numeric b (':' :: r) (.colon :: ts)
  | pattern {b r} : numeric = false → Lexes numeric b (':' :: r) [.colon, .raw r]
  | word {b c w r ts} : (c.isAlpha || c == '_') = true → w.all wordChar → Not1 wordChar r → Lexes numeric true r ts →
      Lexes numeric b (c :: (w ++ r)) (wordToken (c :: w) :: ts)
  | number {b s n r ts} : NumberAt s n r → Lexes numeric true r ts → Lexes numeric b s (.num n :: ts)

/-- Text without white space at both ends. -/
def Trimmed (s t : Str) : Prop :=
  ∃ a b, s = a ++ (t ++ b) ∧ a.all ws ∧ b.all ws ∧ Not1 ws t ∧ Not1 ws t.reverse

/-- One space less at the front, if there is one. -/
def lessSpace : Str → Str
  | ' ' :: r => r
  | r => r

/-- The text of a pattern: in strict mode one space is dropped at the front, otherwise all white space. -/
def patternOf (strict : Bool) (s : Str) : Str := if strict then lessSpace s else s.dropWhile asciiWs

/-- The literal text of a directive with a modifier. -/
def literalOf (strict : Bool) (s : Str) : Str := if strict then lessSpace s else s.dropWhile ws

/-- What becomes of text between blocks. `first`: before all blocks; `last`: after all of them. White space alone is dropped before the
first block and after the last one. -/
def TextPart (first last : Bool) (s : Str) (ps : List Part) : Prop :=
  let blank := if last then s.all ws else first && s.all asciiWs
  ps = if blank then [] else [.literal (if first then lessSpace s else s)]

/-- The parts of a pattern. -/
inductive Parts : Bool → List Seg → List Part → Prop
  | nil {first} : Parts first [] []
  | text {first s segs ps qs} : TextPart first (decide (segs = [])) s ps → Parts first segs qs → Parts first (.text s :: segs) (ps ++ qs)
  | regex {first s t segs qs} : Trimmed s t → Parts false segs qs → Parts first (.regex s :: segs) (.regex t :: qs)
  | block {first nm s ts m segs qs} : Lexes nm true s ts → Lex.G.IsMatch ((if nm then [.hash] else []) ++ ts) m → Parts false segs qs →
      Parts first (.block nm s :: segs) (.match_ m :: qs)

/-- The kind of check of a directive. A count is a number from 1 to 255. -/
inductive KindOf : Head → Kind → Prop
  | kind {k w} : word k = some w → KindOf (.kind k) k
  | count {ds} : 1 ≤ Spec.positional 10 ds → Spec.positional 10 ds ≤ 255 → KindOf (.count ds) (.count (Spec.positional 10 ds))

/-- The pattern of the parts: only `CHECK-EMPTY` has none, and it must have none. -/
inductive PatternOf : Kind → List Part → CPat → Prop
  | empty : PatternOf .empty [] .empty
  | literal {k s} : k ≠ .empty → PatternOf k [.literal s] (.literal s)
  | regex {k s} : k ≠ .empty → PatternOf k [.regex s] (.regex s)
  | parts {k ps} : k ≠ .empty → ps ≠ [] → (∀ s, ps ≠ [.literal s]) → (∀ s, ps ≠ [.regex s]) → PatternOf k ps (.match_ ps)

/-- What a directive means. -/
inductive Reads (strict : Bool) : Directive → CLine → Prop
  | literal {d k} : KindOf d.head k → d.mods ≠ 0 → k ≠ .empty → Reads strict d ⟨k, true, .literal (literalOf strict d.text)⟩
  | pattern {d k segs ps p} : KindOf d.head k → d.mods = 0 → Split (patternOf strict d.text) segs none → Parts true segs ps →
      PatternOf k ps p → Reads strict d ⟨k, false, p⟩

/-- The directives that are checks. -/
def checkDirectives (ds : List Directive) : List Directive := ds.filter fun d => d.head != .comment

end Litcheck.LexSpec
