import Verif.Spec.Lexer
import Verif.Model.Execute

/-!
# Reading what `lit` prints

What somebody (or a script) gets out of the report: the groups of tests, the total, and the rows of the table. Nothing here refers
to how the report is made.
-/

namespace Litcheck.ReportSpec

/-- Does the line begin a group? If so, what its title is. -/
def title (l : Str) : Option Str :=
  if "******************** ".toList.isPrefixOf l then some (l.drop 21) else none

/-- The groups of a report: the title, and the names on the lines below it, up to the first empty line. -/
def groups : List Str → List (Str × List Str)
  | [] => []
  | l :: ls =>
    match title l with
    | some h => (h, (ls.takeWhile fun x => !x.isEmpty).map (·.drop 2)) :: groups ls
    | none => groups ls

/-- What is written after `Total Discovered Tests: `. -/
def total (ls : List Str) : Option Str :=
  (ls.find? fun l => "Total Discovered Tests: ".toList.isPrefixOf l).map (·.drop 24)

/-- Without the blanks at the end. -/
def trimEnd (s : Str) : Str := (s.reverse.dropWhile (· == ' ')).reverse

/-- A row `  label: count (…%)`. -/
def row (l : Str) : Str × Str :=
  (trimEnd ((l.drop 2).takeWhile (· != ':')),
    ((((l.drop 2).dropWhile (· != ':')).drop 1).dropWhile (· == ' ')).takeWhile (· != ' '))

/-- The rows below the total. -/
def table (ls : List Str) : List (Str × Str) :=
  (((ls.dropWhile fun l => !"Total Discovered Tests: ".toList.isPrefixOf l).drop 1).filter fun l => !l.isEmpty).map row

end Litcheck.ReportSpec
