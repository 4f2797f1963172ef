import Verif.Spec.Regex
import Verif.Spec.Number
import Verif.Spec.Literal
import Verif.Model.Smart
import Verif.Model.Parser
import Verif.Model.Text

/-!
# Specification: what does a pattern with regular expressions and variables match?

A pattern is a sequence of parts. Every part matches some bytes of the input in an environment and leaves an environment;
a pattern matches when its parts match one after the other. From the model it uses the syntax of patterns and
expressions, the environments, and the text of a number in a format (`Num.display`, see C20, C21).
Two points where the documentation and the program differ are parameters (`Reading`).
-/

namespace Litcheck.PatternSpec
open Litcheck.Smart Litcheck.Spec Litcheck.RegexSpec
open Litcheck.Regex (utf8)
open Litcheck.Lex (Part Match CPat VarName Expr Op)

/-- How a part is read: which texts of variables stand for themselves (the others are read as regular expressions), and must
the number matched by `[[#X: e]]` be the value of `e`? -/
structure Reading where
  literal : Str → Bool
  enforce : Bool

/-- The reading of the documentation: all texts stand for themselves, and constraints hold. -/
def documented : Reading := ⟨fun _ => true, true⟩

/-- A text without any character which is special in a regular expression. -/
def plainText (t : Str) : Bool := t.all fun c => !"\\.+*?()|[]{}^$".toList.contains c

/-- The reading which the program guarantees: only plain texts stand for themselves, and constraints are not enforced. -/
def weak : Reading := ⟨plainText, false⟩

/-- The format of a number which has none. -/
def plainFormat : NumFmt := .unsigned 0

/-- The exact result of an operator. Division is towards zero, and not by zero. -/
def Exact : Op → Int → Int → Int → Prop
  | .add, l, r, x => x = l + r
  | .sub, l, r, x => x = l - r
  | .mul, l, r, x => x = l * r
  | .div, l, r, x => r ≠ 0 ∧ x = l.tdiv r
  | .min, l, r, x => (l ≤ r ∧ x = l) ∨ (r ≤ l ∧ x = r)
  | .max, l, r, x => (l ≤ r ∧ x = r) ∨ (r ≤ l ∧ x = l)

/-- A number of 128 bits. -/
def Fits (x : Int) : Prop := -(2 ^ 127) ≤ x ∧ x < 2 ^ 127

/-- The value `v` kept of an exact result `x`: a sum, a difference or a product which does not fit is reduced to 128 bits. A
quotient which does not fit has none. -/
def Reduced (op : Op) (x v : Int) : Prop :=
  (op = .min ∨ op = .max ∨ Fits x → v = x) ∧ (¬ (op = .min ∨ op = .max ∨ Fits x) → op ≠ .div ∧ Fits v ∧ (2 ^ 128 : Int) ∣ x - v)

/-- The format of a result: that of the operands if they agree (`Num.inferFormat`, C22), otherwise the one asked for. -/
def ResultFormat (asked lf rf g : Option NumFmt) : Prop :=
  if lf = none ∧ rf = none ∧ asked = none then g = none else g ≠ none ∧ g = (Num.inferFormat lf rf).orElse fun _ => asked

/-- The value and the format of an expression, on a line of the check file. -/
inductive Value (line : Nat) (env : Vars) (asked : Option NumFmt) : Expr → Int → Option NumFmt → Prop
  | num (n) : Value line env asked (.num n) n none
  | line : Value line env asked (.var (.pseudo "LINE".toList)) line none
  | var {x n f} : env.get (keyOf x) = .ok (some (.num n f)) → Value line env asked (.var x) n f
  | bin {op l r lv lf rv rf x v g} : Value line env asked l lv lf → Value line env asked r rv rf → Exact op lv rv x → Reduced op x v →
      ResultFormat asked lf rf g → Value line env asked (.bin op l r) v g

/-- The value of an expression in the arithmetic of the integers. -/
inductive ExactValue (line : Nat) (env : Vars) : Expr → Int → Prop
  | num (n) : ExactValue line env (.num n) n
  | line : ExactValue line env (.var (.pseudo "LINE".toList)) line
  | var {x n f} : env.get (keyOf x) = .ok (some (.num n f)) → ExactValue line env (.var x) n
  | bin {op l r lv rv x} : ExactValue line env l lv → ExactValue line env r rv → Exact op lv rv x → ExactValue line env (.bin op l r) x

/-- All results which are computed for the expression have 128 bits. -/
def AllFit (line : Nat) (env : Vars) : Expr → Prop
  | .bin op l r => AllFit line env l ∧ AllFit line env r ∧ ∀ x, ExactValue line env (.bin op l r) x → Fits x
  | _ => True

/-- The text which stands for an expression. -/
inductive Text (line : Nat) (env : Vars) (asked : Option NumFmt) : Expr → Str → Prop
  | str {x s} : env.get (keyOf x) = .ok (some (.str s)) → Text line env asked (.var x) s
  | num {e v g} : Value line env asked e v g → Text line env asked e (Num.display v ((asked.orElse fun _ => g).getD plainFormat))

/-- The bytes `i ≤ x < j` match the regular expression with this source. -/
def AsRegex (ic : Bool) (b : Buf) (src : Str) (i j : Nat) : Prop := ∃ r, Regex.parse src = some r ∧ RegexSpec.Matches ic b r i j

/-- The text which a substitution puts into the pattern. -/
def Stands (rd : Reading) (ic : Bool) (b : Buf) (t : Str) (i j : Nat) : Prop :=
  if rd.literal t = true then Occurs ic (utf8 t) b i j else AsRegex ic b t i j

/-- A literal of a pattern: verbatim or, unless whitespace is strict, with blanks in place of other horizontal whitespace. -/
def Spaced (strict : Bool) (s s' : Str) : Prop :=
  s' = s ∨ (strict = false ∧ s' = s.map fun c => if isNonCanonicalHorizontalWhitespace c then ' ' else c)

/-- What matching depends on, but for the environment: the reading, `--ignore-case`, `--strict-whitespace`, the line of the check. -/
structure Ctx where
  rd : Reading
  ic : Bool
  strict : Bool
  line : Nat

/-- The part matches the bytes `i ≤ x < j` in `env` and leaves `env'`. -/
def PartMatches (cx : Ctx) (b : Buf) (env : Vars) (i j : Nat) (env' : Vars) : Part → Prop
  | .literal s => env' = env ∧ ∃ s', Spaced cx.strict s s' ∧ Occurs cx.ic (utf8 s') b i j
  | .regex s => env' = env ∧ AsRegex cx.ic b s i j
  | .match_ (.substitution x (some s)) =>
    AsRegex cx.ic b s i j ∧ ∃ t, utf8 t = sliceOf b i j ∧ env' = env.insert (keyOf x) (.str t)
  | .match_ (.substitution x none) => env' = env ∧ ∃ t, Text cx.line env none (.var x) t ∧ Stands cx.rd cx.ic b t i j
  | .match_ (.numeric f none none) => env' = env ∧ ∃ t, MatchesFormat t (f.getD plainFormat) ∧ Occurs cx.ic (utf8 t) b i j
  | .match_ (.numeric f none (some e)) => env' = env ∧ ∃ t, Text cx.line env f e t ∧ Stands cx.rd cx.ic b t i j
  | .match_ (.numeric f (some x) e?) =>
    ∃ t v f', utf8 t = sliceOf b i j ∧ MatchesFormat t (f.getD plainFormat) ∧ Denotes t v (f.getD plainFormat) ∧
      f'.getD plainFormat = f.getD plainFormat ∧ env' = env.insert (keyOf x) (.num v f') ∧
      ∀ e, e? = some e → ∃ w g, Value cx.line env none e w g ∧ (cx.rd.enforce = true → v = w)

/-- The parts match one after the other. -/
inductive PartsMatch (cx : Ctx) (b : Buf) : Vars → List Part → Nat → Nat → Vars → Prop
  | nil {env i} : PartsMatch cx b env [] i i env
  | cons {env i p ps k env' j env''} : PartMatches cx b env i k env' p → PartsMatch cx b env' ps k j env'' →
      PartsMatch cx b env (p :: ps) i j env''

/-- The parts of a pattern. -/
def partsOf : CPat → List Part
  | .empty => []
  | .literal s => [.literal s]
  | .regex s => [.regex s]
  | .match_ ps => ps

/-- The meaning of a pattern. -/
def meaning (cx : Ctx) (p : CPat) : Meaning Vars := fun env b i j env' => PartsMatch cx b env (partsOf p) i j env'

end Litcheck.PatternSpec
