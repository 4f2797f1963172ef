import Verif.Spec.Text
import Verif.Spec.Script
import Verif.Spec.Pattern

/-!
# Specification: horizontal white space without `--strict-whitespace`

`filecheck/src/lib.rs:168-173`: "a space will match a tab".
-/

namespace Litcheck.Spec
open Litcheck.Lex (Part Match CPat CLine)

/-- The same part, but for which horizontal white space literal text has. -/
def SpacePart : Part → Part → Prop
  | .literal s, .literal t => SameUpToSpace s t
  | x, y => x = y

/-- Text, or what is replaced by the value of a variable or an expression. -/
def TextOrUse : Part → Prop
  | .literal _ => True
  | .match_ (.substitution _ none) => True
  | .match_ (.numeric _ _ (some _)) => True
  | _ => False

/-- Not only white space. -/
def Shows : Part → Prop
  | .literal s => ¬ ScriptSpec.Blank s
  | _ => True

/-- The same pattern, but for which horizontal white space the text has. -/
inductive SpacePattern : CPat → CPat → Prop
  | text {s t : Str} : SameUpToSpace s t → ¬ ScriptSpec.Blank s → SpacePattern (.literal s) (.literal t)
  | parts {ps qs : List Part} : List.Forall₂ SpacePart ps qs → (∀ x ∈ ps, TextOrUse x) → (∃ x ∈ ps, Shows x) →
      SpacePattern (.match_ ps) (.match_ qs)

/-- The same check line, but for which horizontal white space the text of its pattern has, unless it is a `CHECK-NOT` or `CHECK-DAG` line or
has a regular expression. -/
def SpaceCheck (l l' : CLine) : Prop :=
  l' = l ∨ (l'.kind = l.kind ∧ l'.literal = l.literal ∧ l.kind ≠ .not ∧ l.kind ≠ .dag ∧ SpacePattern l.pattern l'.pattern)

/-- The same `CHECK-NOT` or `CHECK-DAG` line, but for which horizontal white space its text has. -/
def SpaceSet (l l' : CLine) : Prop :=
  l'.kind = l.kind ∧ l'.literal = l.literal ∧ (l.kind = .not ∨ l.kind = .dag) ∧
    ∃ s t, l.pattern = .literal s ∧ l'.pattern = .literal t ∧ SameUpToSpace s t

/-- The texts of the lines of the kind `k`, if they change at all, are all the patterns there are, and texts which were different stay
different, and equal ones equal. -/
def KeepsApart (k : Kind) (imp : List Str) (ls ls' : List CLine) : Prop :=
  (∀ (i : Nat) (l l' : CLine), ls[i]? = some l → ls'[i]? = some l' → l.kind = k → l' = l) ∨
  ((k = .not → imp = []) ∧ (∀ l ∈ ls, l.kind = k → ∃ s, l.pattern = .literal s) ∧
    ∀ (i j : Nat) (l l' m m' : CLine), ls[i]? = some l → ls'[i]? = some l' → ls[j]? = some m → ls'[j]? = some m' → l.kind = k → m.kind = k →
      (l.pattern = m.pattern ↔ l'.pattern = m'.pattern))

end Litcheck.Spec
