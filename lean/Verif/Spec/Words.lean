import Verif.Spec.Pattern

/-!
# Specification: patterns of words

A word is a text, or the use of a variable or an expression which stands for a plain text. The rest of the pattern, after the
last use, has no uses. (What the matcher finds in general depends on where it goes on after a failed attempt: C70.)
-/

namespace Litcheck.PatternSpec
open Litcheck.Smart Litcheck.Spec
open Litcheck.Lex (Part Match CPat VarName Expr Op)

/-- The text overlaps itself: a proper suffix is also a prefix. -/
def Bordered (ic : Bool) (w : Buf) : Prop := ∃ d, 0 < d ∧ d < w.length ∧ OccursAt ic (w.take (w.length - d)) w d

/-- The part stands for this text: it is this literal, or it inserts the value of a variable or of an expression, which is
this plain text. In a build which checks for overflow there must be none. -/
inductive WordOf (strict checked : Bool) (line : Nat) (env : Vars) : Part → Str → Prop
  | lit {s : Str} : (strict = true ∨ ∀ c ∈ s, isNonCanonicalHorizontalWhitespace c = false) → WordOf strict checked line env (.literal s) s
  | use {x t} : Text line env none (.var x) t → plainText t = true → WordOf strict checked line env (.match_ (.substitution x none)) t
  | expr {f e t} : Text line env f e t → plainText t = true → (checked = true → AllFit line env e) →
      WordOf strict checked line env (.match_ (.numeric f none (some e))) t

/-- A part which captures a string or nothing. -/
def NoNumber (p : Part) : Prop := ∀ f x e, p ≠ .match_ (.numeric f (some x) e)

/-- A part which captures something. -/
def Captures (p : Part) : Prop := (∃ x s, p = .match_ (.substitution x (some s))) ∨ ∃ f x e, p = .match_ (.numeric f (some x) e)

/-- A match is reported which starts first, or there is none. -/
def FirstOrNone (μ : Meaning Vars) (b : Buf) (lo hi : Nat) (env : Vars) (m : MatchResult) : Prop :=
  (∃ i, m.info = some i ∧ m.isOk = true ∧ ∀ s e env', lo ≤ s → e ≤ hi → μ env b s e env' → i.start ≤ s) ∨
  (m.isOk = false ∧ ∀ s e env', lo ≤ s → e ≤ hi → ¬ μ env b s e env')

end Litcheck.PatternSpec
