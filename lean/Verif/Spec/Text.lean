import Verif.Spec.Lines
import Mathlib.Data.List.Forall2

/-!
# Characters and ranges, as a user sees them
-/

namespace Litcheck.Spec

/-- Horizontal white space: the tabulator and the Unicode category `Space_Separator` (Zs). -/
def horizontalSpaces : List Nat :=
  [0x09, 0x20, 0xA0, 0x1680, 0x2000, 0x2001, 0x2002, 0x2003, 0x2004, 0x2005, 0x2006, 0x2007, 0x2008, 0x2009, 0x200A,
   0x202F, 0x205F, 0x3000]

/-- `c` is horizontal white space. -/
def HSpace (c : Char) : Prop := c.toNat ∈ horizontalSpaces

/-- The texts differ only in which horizontal white space stands at a position. -/
def SameUpToSpace (a b : List Char) : Prop := List.Forall₂ (fun x y => x = y ∨ HSpace x ∧ HSpace y) a b

/-- `i` is in the half-open range. -/
def InRange (lo hi i : Nat) : Prop := lo ≤ i ∧ i < hi

/-- `n` is the last line feed before `pos`. -/
def LastLFBefore (b : Buf) (pos n : Nat) : Prop := n < pos ∧ IsLF b n ∧ NoLF b (n + 1) pos

/-- Each carriage return which stands directly before a line feed is removed. -/
def crlfToLf : Buf → Buf
  | 13 :: 10 :: xs => 10 :: crlfToLf xs
  | x :: xs => x :: crlfToLf xs
  | [] => []

/-- One line feed at the very end is removed. -/
def dropFinalLf (b : Buf) : Buf := if b.getLast? = some 10 then b.dropLast else b

end Litcheck.Spec
