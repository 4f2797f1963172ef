import Verif.Spec.Lexer

/-!
# Reading the listings of `lit`

What somebody (or a script) gets out of what `show-tests` and `show-suites` print.
-/

namespace Litcheck.ListingSpec

/-- A line of `show-tests`: the name of the test and its format. -/
def test (l : Str) : Str × Str :=
  let r := l.reverse.drop 1
  ((((r.dropWhile (· != '=')).drop " (format=".toList.length).reverse.drop 2),
    (r.takeWhile (· != '=')).reverse)

/-- The tests listed by `show-tests`, which begins with a title. -/
def tests (ls : List Str) : List (Str × Str) := ((ls.drop 1).filter fun l => !l.isEmpty).map test

/-- A line of `show-suites` which begins a suite: its name and the number of its tests. -/
def suite (l : Str) : Option (Str × Str) :=
  if "  * ".toList.isPrefixOf l then
    let r := (l.drop 4).reverse.drop " tests".toList.length
    some (((r.dropWhile (· != ' ')).drop " - ".toList.length).reverse, (r.takeWhile (· != ' ')).reverse)
  else none

/-- The suites listed by `show-suites`. -/
def suites (ls : List Str) : List (Str × Str) := ls.filterMap suite

end Litcheck.ListingSpec
