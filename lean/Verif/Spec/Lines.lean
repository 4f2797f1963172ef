import Verif.Model.Base

/-!
# Specification vocabulary: bytes and lines of an input

Nothing here refers to the model of the program; `Buf` is a list of bytes.
-/

namespace Litcheck.Spec

/-- The bytes of `b` at offsets `lo ≤ i < hi`. -/
def between (b : Buf) (lo hi : Nat) : Buf := (b.take hi).drop lo

/-- Byte `i` of the buffer is a line feed. -/
def IsLF (b : Buf) (i : Nat) : Prop := b[i]? = some 10

/-- There is no line feed at any offset `lo ≤ i < hi`. -/
def NoLF (b : Buf) (lo hi : Nat) : Prop := ∀ i, lo ≤ i → i < hi → ¬ IsLF b i

/-- `n` is the first line feed at or after `pos`. -/
def FirstLF (b : Buf) (pos n : Nat) : Prop := pos ≤ n ∧ IsLF b n ∧ NoLF b pos n

/-- The line ending convention of the input, decided by its first line ending: the first line feed is
not preceded by a carriage return. -/
def LFMode (b : Buf) : Prop := ∀ n, FirstLF b 0 n → n = 0 ∨ b[n - 1]? ≠ some 13

/-- Number of line feeds at offsets `lo ≤ i < hi`. -/
def lfCount (b : Buf) (lo hi : Nat) : Nat := (between b lo hi).count 10

end Litcheck.Spec
