import Verif.Spec.Lines

/-!
# Texts with line tables and edits, as a user of a source file sees them
-/

namespace Litcheck.Spec

/-- `t` lists, in increasing order, the offset 0 and every offset just after a line feed. -/
def LineTable (b : Buf) (t : List Nat) : Prop :=
  t.Pairwise (· < ·) ∧ ∀ o, o ∈ t ↔ o = 0 ∨ ∃ i, IsLF b i ∧ o = i + 1

/-- The byte continues a UTF-8 character. -/
def Continues (x : UInt8) : Prop := 128 ≤ x ∧ x < 192

/-- What is needed of UTF-8: a text does not begin inside a character, and an ASCII byte is a whole character. -/
structure TextOk (b : Buf) : Prop where
  first : ∀ x : UInt8, b[0]? = some x → ¬ Continues x
  ascii : ∀ (i : Nat) (x y : UInt8), b[i]? = some x → x < 128 → b[i + 1]? = some y → ¬ Continues y

/-- Offset `o` is not inside a character. -/
def AtChar (b : Buf) (o : Nat) : Prop := o ≤ b.length ∧ ∀ x, b[o]? = some x → ¬ Continues x

/-- Offset `o` is in line `line`, `column` bytes after its beginning (both from 0). -/
def IsPos (b : Buf) (o line column : Nat) : Prop :=
  lfCount b 0 o = line ∧ column ≤ o ∧ (o - column = 0 ∨ IsLF b (o - column - 1)) ∧ NoLF b (o - column) o

/-- The text after bytes `lo ≤ i < hi` are replaced by `new`. -/
def replaced (b : Buf) (lo hi : Nat) (new : Buf) : Buf := b.take lo ++ new ++ b.drop hi

end Litcheck.Spec
