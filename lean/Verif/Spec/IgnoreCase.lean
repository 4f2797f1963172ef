import Verif.Spec.Literal
import Verif.Spec.Pattern

/-!
# Specification: `--ignore-case`

`filecheck/src/lib.rs:193-195`: "Disable case-sensitive matching". What is the same but for the case of ASCII letters, and which check
lines the claim is about.
-/

namespace Litcheck.Spec
open Litcheck.Lex (Part Match CPat CLine)

/-- The same input but for the case of ASCII letters. -/
def SameInput (b b' : Buf) : Prop := List.Forall₂ (SameLetter true) b b'

/-- The same character, or the same ASCII letter in different case. -/
def EitherCase (c d : Char) : Prop :=
  c = d ∨ (65 ≤ c.toNat ∧ c.toNat ≤ 90 ∧ d.toNat = c.toNat + 32) ∨ (65 ≤ d.toNat ∧ d.toNat ≤ 90 ∧ c.toNat = d.toNat + 32)

/-- The same text but for the case of ASCII letters. -/
def SameText (s t : Str) : Prop := List.Forall₂ EitherCase s t

/-- `[[X:…]]`, `[[#X:]]`, `[[#X: …]]`. -/
def Captures : Part → Prop
  | .match_ (.substitution _ (some _)) => True
  | .match_ (.numeric _ (some _) _) => True
  | _ => False

/-- Text, or `{{…}}`. -/
def TextOrRegex : Part → Prop
  | .match_ _ => False
  | _ => True

/-- `{{…}}`. -/
def IsRegex : Part → Prop
  | .regex _ => True
  | _ => False

/-- A check line which captures no variable; `CHECK-NOT` and `CHECK-DAG` lines also use none, and every `CHECK-DAG` line has a regular
expression. -/
def CaseFree (l : CLine) : Prop :=
  match l.kind with
  | .not => ∀ x ∈ PatternSpec.partsOf l.pattern, TextOrRegex x
  | .dag => (∀ x ∈ PatternSpec.partsOf l.pattern, TextOrRegex x) ∧ ∃ x ∈ PatternSpec.partsOf l.pattern, IsRegex x
  | _ => ∀ x ∈ PatternSpec.partsOf l.pattern, ¬ Captures x

/-- The same check line, except that, unless it is a `CHECK-NOT` or `CHECK-DAG`, the case of letters may differ if the pattern is only text. -/
def SameCheck (l l' : CLine) : Prop :=
  l' = l ∨ (l'.kind = l.kind ∧ l'.literal = l.literal ∧ l.kind ≠ .not ∧ l.kind ≠ .dag ∧
    ∃ s s', l.pattern = .literal s ∧ l'.pattern = .literal s' ∧ SameText s s')

/-- The same `CHECK-NOT` line, except that the case of letters of its text may differ. -/
def SameNot (l l' : CLine) : Prop :=
  l'.kind = l.kind ∧ l'.literal = l.literal ∧ l.kind = .not ∧ ∃ s s', l.pattern = .literal s ∧ l'.pattern = .literal s' ∧ SameText s s'

end Litcheck.Spec
