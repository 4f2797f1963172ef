import Verif.Model.Number

/-!
# What the numeric formats mean

`%u`, `%d`, `%x`, `%X` with an optional `#` and precision.
-/

namespace Litcheck.Spec

/-- The numbers which a format is for and which a 128-bit value can hold. (The documentation of `%u` promises any
unsigned 128-bit integer; see `C21_unsigned_refuted`.) -/
def InFormatRange (v : Int) : NumFmt → Prop
  | .unsigned _ => 0 ≤ v ∧ v < 2 ^ 64
  | .signed _ => -(2 ^ 127) ≤ v ∧ v < 2 ^ 127
  | .hex _ _ _ => 0 ≤ v ∧ v < 2 ^ 127

/-- A decimal digit. -/
def IsDec (c : Char) : Prop := '0' ≤ c ∧ c ≤ '9'

/-- A hexadecimal digit of the casing (`num.rs:365`: `[A-Fa-f0-9]`, `[A-F0-9]`, `[a-f0-9]`). -/
def IsHex : Casing → Char → Prop
  | .any, c => IsDec c ∨ ('a' ≤ c ∧ c ≤ 'f') ∨ ('A' ≤ c ∧ c ≤ 'F')
  | .upper, c => IsDec c ∨ ('A' ≤ c ∧ c ≤ 'F')
  | .lower, c => IsDec c ∨ ('a' ≤ c ∧ c ≤ 'f')

/-- At least as many digits as the precision, and at least one; at most `most`. -/
def DigitCount (p most n : Nat) : Prop := 1 ≤ n ∧ p ≤ n ∧ n ≤ most

/-- The texts which the regular expression of a format (`num.rs:450-486` `pattern_nocapture`) matches as a whole. -/
def MatchesFormat (s : List Char) : NumFmt → Prop
  | .unsigned p => (∀ c ∈ s, IsDec c) ∧ DigitCount p 39 s.length
  | .signed p => ∃ sign ds, s = sign ++ ds ∧ (sign = [] ∨ sign = ['-'] ∨ sign = ['+']) ∧ (∀ c ∈ ds, IsDec c) ∧
      DigitCount p 39 ds.length
  | .hex p pre c => ∃ ds, s = (if pre then ['0', 'x'] else []) ++ ds ∧ (∀ x ∈ ds, IsHex c x) ∧
      DigitCount p 32 ds.length

/-- The value of a digit, by position in the alphabet. -/
def digitValue (c : Char) : Nat :=
  if c ≤ '9' then c.toNat - '0'.toNat else if c ≤ 'F' then c.toNat - 'A'.toNat + 10 else c.toNat - 'a'.toNat + 10

/-- The number which digits denote in a base: positional notation. -/
def positional (base : Nat) : List Char → Nat
  | [] => 0
  | c :: cs => digitValue c * base ^ cs.length + positional base cs

/-- The number which a text denotes in a format. -/
def Denotes (s : List Char) (v : Int) : NumFmt → Prop
  | .unsigned _ => v = positional 10 s
  | .signed _ => ∃ sign ds, s = sign ++ ds ∧ (∀ c ∈ ds, IsDec c) ∧
      ((sign = ['-'] ∧ v = -(positional 10 ds : Int)) ∨ ((sign = [] ∨ sign = ['+']) ∧ v = positional 10 ds))
  | .hex _ pre _ => ∃ ds, s = (if pre then ['0', 'x'] else []) ++ ds ∧ v = positional 16 ds

end Litcheck.Spec
