import Verif.Spec.CheckLine

/-!
# How numeric expressions are written

Expressions as text: `+` and `-` associate to the left, `NAME(x, y)` is a call of an operator, and there are parentheses.
-/

namespace Litcheck.LexSpec

open Lex (VarName Expr Match Op)

/-- Spaces and tabs. -/
def Blanks (s : Str) : Prop := ∀ c ∈ s, c = ' ' ∨ c = '\t'

/-- A name: a letter or an underscore, then letters, digits and underscores; and no word with a meaning of its own. -/
def Name (s : Str) : Prop :=
  (∃ c r, s = c :: r ∧ (c.isAlpha || c == '_') = true ∧ r.all wordChar) ∧ wordToken s = .ident s

/-- The name of an operator. -/
def opName : Op → Str
  | .add => "add".toList
  | .sub => "sub".toList
  | .mul => "mul".toList
  | .div => "div".toList
  | .min => "min".toList
  | .max => "max".toList

/-- A variable. -/
inductive VarText : Str → VarName → Prop
  | user {s} : Name s → VarText s (.user s)
  | global {s} : Name s → VarText ('$' :: s) (.global s)
  | pseudo {s} : Name s → VarText ('@' :: s) (.pseudo s)
  | line : VarText "@LINE".toList (.pseudo "LINE".toList)

/-- A number without sign: decimal, hexadecimal or binary. -/
inductive NumberText : Str → Nat → Prop
  | dec {ds} : ds ≠ [] → ds.all Char.isDigit → Spec.positional 10 ds < 2 ^ 127 → NumberText ds (Spec.positional 10 ds)
  | hex {ds} : ds ≠ [] → (∀ c ∈ ds, Spec.IsHex .any c) → Spec.positional 16 ds < 2 ^ 127 → NumberText ('0' :: 'x' :: ds) (Spec.positional 16 ds)
  | bin {ds} : ds ≠ [] → (∀ c ∈ ds, c = '0' ∨ c = '1') → Spec.positional 2 ds < 2 ^ 127 → NumberText ('0' :: 'b' :: ds) (Spec.positional 2 ds)

mutual
/-- A sum: from left to right. -/
inductive SumText : Str → Expr → Prop
  | add {s t w v x y} : SumText s x → Blanks w → Blanks v → TermText t y → SumText (s ++ (w ++ '+' :: (v ++ t))) (.bin .add x y)
  | sub {s t w v x y} : SumText s x → Blanks w → Blanks v → TermText t y → SumText (s ++ (w ++ '-' :: (v ++ t))) (.bin .sub x y)
  | term {s x} : TermText s x → SumText s x

/-- An operand. -/
inductive TermText : Str → Expr → Prop
  | num {s n} : NumberText s n → TermText s (.num n)
  | neg {w s n} : Blanks w → NumberText s n → TermText ('-' :: (w ++ s)) (.num (-n))
  | var {s v} : VarText s v → TermText s (.var v)
  | paren {w v s x} : Blanks w → Blanks v → SumText s x → TermText ('(' :: (w ++ (s ++ (v ++ [')'])))) x
  | call {o w0 w1 w2 w3 w4 s t x y} : Blanks w0 → Blanks w1 → Blanks w2 → Blanks w3 → Blanks w4 → SumText s x → SumText t y →
      TermText (opName o ++ (w0 ++ '(' :: (w1 ++ (s ++ (w2 ++ ',' :: (w3 ++ (t ++ (w4 ++ [')'])))))))) (.bin o x y)
end

/-- What is between `[[#` and `]]`, after a format: nothing; `==` and a sum; or a variable and a colon, perhaps with a sum to be matched. -/
inductive AfterFormat : Str → Option VarName → Option Expr → Prop
  | nothing : AfterFormat [] none none
  | eq {w s v e} : Blanks w → Blanks v → SumText s e → AfterFormat ("==".toList ++ (w ++ (s ++ v))) none (some e)
  | capture {s w v x} : VarText s x → Blanks w → Blanks v → AfterFormat (s ++ (w ++ ':' :: v)) (some x) none
  | captureEq {s w w1 w2 v x t e} : VarText s x → Blanks w → Blanks w1 → Blanks w2 → Blanks v → SumText t e →
      AfterFormat (s ++ (w ++ ':' :: (w1 ++ ("==".toList ++ (w2 ++ (t ++ v)))))) (some x) (some e)
  | captureExpr {s w w1 v x t e} : VarText s x → Blanks w → Blanks w1 → Blanks v → SumText t e →
      AfterFormat (s ++ (w ++ ':' :: (w1 ++ (t ++ v)))) (some x) (some e)
  | var {s v x} : VarText s x → Blanks v → AfterFormat (s ++ v) none (some (.var x))

/-- The precision: a decimal number up to 255; 0 if none is given. -/
def PrecisionText (s : Str) (n : Nat) : Prop :=
  (s = [] ∧ n = 0) ∨ ∃ ds, s = '.' :: ds ∧ ds ≠ [] ∧ ds.all Char.isDigit ∧ n = Spec.positional 10 ds ∧ n ≤ 255

/-- A format: `%`, perhaps `#`, perhaps a precision, and a letter; with `#` the letter must be `x` or `X`. -/
inductive FormatText : Str → NumFmt → Prop
  | unsigned {p n} : PrecisionText p n → FormatText ('%' :: (p ++ ['u'])) (.unsigned n)
  | signed {p n} : PrecisionText p n → FormatText ('%' :: (p ++ ['d'])) (.signed n)
  | lower {p n} : PrecisionText p n → FormatText ('%' :: (p ++ ['x'])) (.hex n false .any)
  | upper {p n} : PrecisionText p n → FormatText ('%' :: (p ++ ['X'])) (.hex n false .upper)
  | lowerPrefix {p n} : PrecisionText p n → FormatText ('%' :: '#' :: (p ++ ['x'])) (.hex n true .any)
  | upperPrefix {p n} : PrecisionText p n → FormatText ('%' :: '#' :: (p ++ ['X'])) (.hex n true .upper)

/-- What is between `[[#` and `]]`. -/
inductive BlockText : Str → Match → Prop
  | plain {w s c e} : Blanks w → AfterFormat s c e → BlockText (w ++ s) (.numeric none c e)
  | format {w0 f fmt w w' s c e} : Blanks w0 → FormatText f fmt → Blanks w → Blanks w' → AfterFormat s c e →
      BlockText (w0 ++ (f ++ (w ++ ',' :: (w' ++ s)))) (.numeric (some fmt) c e)

end Litcheck.LexSpec
