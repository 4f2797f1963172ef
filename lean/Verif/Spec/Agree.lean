import Verif.Props.Variables

/-!
# What a check file can see of the variables

`needs` (`Verif/Props/Variables.lean`) are the variables whose values a part of a pattern asks for: `[[X]]`, and those of numeric expressions.
-/

namespace Litcheck.AgreeSpec
open Litcheck.Smart PatternSpec
open Litcheck.Lex (CPat CLine VarName)

/-- A check file asks for the value of a variable. -/
def Asks (ls : List CLine) (x : VarName) : Prop := ∃ l ∈ ls, ∃ p ∈ partsOf l.pattern, x ∈ needs p

/-- Two environments have the same values for the variables of `S`: bound, and on the command line. -/
structure Agree (S : VarName → Prop) (e e' : Vars) : Prop where
  user : ∀ s, S (.user s) → e'.bound (.user (String.ofList s)) = e.bound (.user (String.ofList s)) ∧ e'.system (String.ofList s) = e.system (String.ofList s)
  global : ∀ s, S (.global s) → e'.global (String.ofList s) = e.global (String.ofList s) ∧ e'.system (String.ofList s) = e.system (String.ofList s)

end Litcheck.AgreeSpec
