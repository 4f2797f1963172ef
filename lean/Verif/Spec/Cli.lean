import Verif.Model.Cli
import Verif.Spec.Number
import Verif.Spec.Pattern

/-!
# What a user expects of the variables defined on the command line

`-D NAME=TEXT` defines a text, `-D #NAME=EXPRESSION` a number. The texts of the tokens of an expression, how they are put one after the other, what a
numeric definition looks like, and the value of an expression whose variables may be defined by expressions.
-/

namespace Litcheck.CliSpec
open Litcheck.Cli Litcheck.Spec Litcheck.PatternSpec
open Litcheck.Lex (Expr VarName Op Token)
open Litcheck.Smart (keyOf)

/-- A letter. -/
def Letter (c : Char) : Prop := ('a' ≤ c ∧ c ≤ 'z') ∨ ('A' ≤ c ∧ c ≤ 'Z')

/-- A character of a name. -/
def NameChar (c : Char) : Prop := c = '_' ∨ Letter c ∨ IsDec c

/-- A name: `[A-Za-z_][A-Za-z0-9_]*`. -/
def IsName (s : Str) : Prop := ∃ c cs, s = c :: cs ∧ (c = '_' ∨ Letter c) ∧ ∀ d ∈ cs, NameChar d

/-- Spaces and tabs. -/
def Blank (s : Str) : Prop := ∀ c ∈ s, c = ' ' ∨ c = '\t'

/-- The functions. -/
def functions : List (Str × Op) :=
  [("add".toList, .add), ("sub".toList, .sub), ("mul".toList, .mul), ("div".toList, .div), ("min".toList, .min), ("max".toList, .max)]

/-- The signs. -/
def signs : List (Str × Tok) :=
  [(['('], .tok .lparen), ([')'], .tok .rparen), (['#'], .tok .hash), (['$'], .tok .dollar), (['%'], .tok .percent), (['@'], .tok .at_),
   ([','], .tok .comma), (['.'], .tok .dot), ([':'], .tok .colon), (['+'], .tok .plus), (['-'], .tok .minus), (['='], .eq),
   (['=', '='], .tok .equals)]

/-- How a token is written. -/
inductive Spells : Str → Tok → Prop
  | number {ds} : ds ≠ [] → (∀ c ∈ ds, IsDec c) → positional 10 ds < 2 ^ 127 → Spells ds (.tok (.num (positional 10 ds)))
  | negative {ds} : ds ≠ [] → (∀ c ∈ ds, IsDec c) → positional 10 ds ≤ 2 ^ 127 → Spells ('-' :: ds) (.tok (.num (-(positional 10 ds))))
  | name {w} : IsName w → (∀ o, (w, o) ∉ functions) → Spells w (.tok (.ident w))
  | function {w o} : (w, o) ∈ functions → Spells w (.tok (.op o))
  | sign {w t} : (w, t) ∈ signs → Spells w t

/-- The character cannot continue the token: a number goes on with every digit, and so does a minus, which then becomes the sign of the number; a
word goes on with every character of a name. -/
def Ends : Tok → Char → Prop
  | .tok (.num _), c => ¬ IsDec c
  | .tok .minus, c => ¬ IsDec c
  | .tok (.ident _), c => ¬ NameChar c
  | .tok (.op _), c => ¬ NameChar c
  | .eq, c => c ≠ '='
  | _, _ => True

/-- The text is these tokens, with spaces and tabs between them. -/
inductive Written : Str → List Tok → Prop
  | done {ws} : Blank ws → Written ws []
  | token {ws w r t ts} : Blank ws → Spells w t → (∀ c r', r = c :: r' → Ends t c) → Written r ts → Written (ws ++ (w ++ r)) (t :: ts)

/-- A precision: a point and a number. -/
inductive Precision : List Tok → Prop
  | none : Precision []
  | some {n : Nat} : n ≤ 255 → Precision [.tok .dot, .tok (.num n)]

/-- What may follow the percent sign of a format: `#`, a precision, a letter, each of them optional. -/
def Format (ts : List Tok) : Prop :=
  ∃ h p s, ts = h ++ (p ++ s) ∧ (h = [] ∨ h = [.tok .hash]) ∧ Precision p ∧
    (s = [] ∨ ∃ c, (c = 'u' ∨ c = 'd' ∨ c = 'x' ∨ c = 'X') ∧ s = [.tok (.ident [c])])

/-- A numeric definition: `#NAME=EXPRESSION` or `#%FORMAT,NAME=EXPRESSION`. -/
inductive IsDef : List Tok → Str → Expr → Prop
  | plain {x ts e} : Lex.G.IsExpr ts e → IsDef (.tok .hash :: .tok (.ident x) :: .eq :: ts.map .tok) x e
  | format {fs x ts e} : Format fs → Lex.G.IsExpr ts e →
      IsDef (.tok .hash :: .tok .percent :: (fs ++ .tok .comma :: .tok (.ident x) :: .eq :: ts.map .tok)) x e

/-- The value and the format of an expression on a line of the check file, where a variable may hold an expression; `inDef` if the expression is
that of a definition, where `@LINE` is `dline`. -/
inductive CellValue (line dline : Nat) (env : Bindings Cell) (asked : Option NumFmt) : Bool → Expr → Int → Option NumFmt → Prop
  | num {d} (n) : CellValue line dline env asked d (.num n) n none
  | line {d : Bool} : CellValue line dline env asked d (.var (.pseudo "LINE".toList)) ((if d then dline else line : Nat)) none
  | var {d x n f} : env.get (keyOf x) = .ok (some (.val (.num n f))) → CellValue line dline env asked d (.var x) n f
  | defined {d x e n f} : env.get (keyOf x) = .ok (some (.expr e)) → CellValue line dline env asked true e n f →
      CellValue line dline env asked d (.var x) n f
  | bin {d op l r lv lf rv rf x v g} : CellValue line dline env asked d l lv lf → CellValue line dline env asked d r rv rf →
      Exact op lv rv x → Reduced op x v → ResultFormat asked lf rf g → CellValue line dline env asked d (.bin op l r) v g

/-- The variables of an expression. -/
def varsOf : Expr → List VarName
  | .num _ => []
  | .var v => [v]
  | .bin _ l r => varsOf l ++ varsOf r

/-- The name of a variable without its sigil. -/
def nameOf : VarName → Str
  | .user s | .global s | .pseudo s => s

/-- No definition needs itself: names are defined once, and an expression names no variable which is defined there or later. -/
def Ordered : List (Str × Def) → Prop
  | [] => True
  | d :: ds => d.1 ∉ ds.map Prod.fst ∧
      (∀ e, d.2 = .num e → ∀ v ∈ varsOf e, nameOf v ∉ (d :: ds).map Prod.fst) ∧ Ordered ds

/-- The environments of a run: a variable has a value which matching has bound, or what the last definition of its name says. -/
def Holding (defs : List (Str × Def)) (env : Bindings Cell) : Prop :=
  ∀ n : VName, (∀ s, n ≠ .pseudo s) →
    (∃ v, env.get n = .ok (some (.val v))) ∨
    env.get n = .ok ((defs.reverse.find? fun d => d.1 == n.sym.toList).map fun d => d.2.cell)

/-- A constant expression and its value: numbers only, and no result which does not fit. -/
inductive Constant : Expr → Int → Prop
  | num (n) : Constant (.num n) n
  | bin {op l r x y z} : Constant l x → Constant r y → Exact op x y z → Fits z → Constant (.bin op l r) z

/-- The variables `vars` are those of `env`, where constant expressions have been replaced by their values. -/
def Evaluated (env : Bindings Cell) (vars : Smart.Vars) : Prop :=
  ∀ n : VName, (∀ s, n ≠ .pseudo s) →
    (∃ v, env.get n = .ok (some (.val v)) ∧ vars.get n = .ok (some v)) ∨
    (env.get n = .ok none ∧ vars.get n = .ok none) ∨
    (∃ e v, Constant e v ∧ env.get n = .ok (some (.expr e)) ∧ vars.get n = .ok (some (.num v none)))

end Litcheck.CliSpec
