import Verif.Model.Regex

/-!
# Specification: which bytes does a regular expression match?

The usual inductive reading of a regular expression. From the model it uses the syntax trees, the decoding of UTF-8 and
the membership in a class; it says nothing about preferences, searching or the parser.
-/

namespace Litcheck.RegexSpec
open Litcheck.Regex

/-- `n` matches in a row, with what their groups matched. -/
inductive Iter (R : Nat → Nat → Caps → Prop) : Nat → Nat → Nat → Caps → Prop
  | zero {i} : Iter R 0 i i []
  | succ {n i k j c d} : R i k c → Iter R n k j d → Iter R (n + 1) i j (c ++ d)

/-- `Lang ic b r i j c`: the bytes `i ≤ x < j` of `b` match `r`, and its named groups match `c`. -/
def Lang (ic : Bool) (b : Buf) : Re → Nat → Nat → Caps → Prop
  | .eps, i, j, c => j = i ∧ c = []
  | .cls neg ranges, i, j, c => ∃ v n, decode (b.drop i) = some (v, n) ∧ inClass ic neg ranges v = true ∧ j = i + n ∧ c = []
  | .bol, i, j, c => (i = 0 ∨ b[i - 1]? = some LF) ∧ j = i ∧ c = []
  | .eol, i, j, c => (b.length ≤ i ∨ b[i]? = some LF) ∧ j = i ∧ c = []
  | .cat r s, i, j, c => ∃ k c1 c2, Lang ic b r i k c1 ∧ Lang ic b s k j c2 ∧ c = c1 ++ c2
  | .alt r s, i, j, c => Lang ic b r i j c ∨ Lang ic b s i j c
  | .rep r min max _, i, j, c => ∃ n, min ≤ n ∧ (∀ m, max = some m → n ≤ m ∨ n = min) ∧ Iter (Lang ic b r) n i j c
  | .cap name r, i, j, c => ∃ d, Lang ic b r i j d ∧ c = d ++ [(name, i, j)]

/-- The bytes `i ≤ x < j` match `r`. -/
def Matches (ic : Bool) (b : Buf) (r : Re) (i j : Nat) : Prop := ∃ c, Lang ic b r i j c

end Litcheck.RegexSpec
