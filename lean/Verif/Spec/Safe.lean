import Verif.Spec.Pattern

/-!
# Specification: expressions which can be evaluated without aborting

A division may be by zero, and in a build with checks for overflow the results of the other operators must fit in 128 bits.
-/

namespace Litcheck.PatternSpec
open Litcheck.Smart
open Litcheck.Lex (Part Match CPat VarName Expr Op)

/-- There is no division, and if overflow is checked no exact sum, difference or product overflows, whatever the values of the variables. -/
def Safe (checked : Bool) (line : Nat) : Expr → Prop
  | .bin op l r => Safe checked line l ∧ Safe checked line r ∧ op ≠ .div ∧
      (checked = true → op ≠ .min → op ≠ .max → ∀ env x, ExactValue line env (.bin op l r) x → Fits x)
  | _ => True

/-- The expressions of the part are safe. -/
def SafePart (checked : Bool) (line : Nat) : Part → Prop
  | .match_ (.numeric _ _ (some e)) => Safe checked line e
  | _ => True

end Litcheck.PatternSpec
