import Verif.Model.Position
import Verif.Model.Range

/-!
# Parts of source files: `SourceSpan` and `Span` (`core/src/diagnostics/span.rs`)

A `usize` has 64 bits. `checked` says whether arithmetic is checked for overflow.
-/

namespace Litcheck.Spans
open Litcheck.Position (Res)

/-- `SourceSpan`, `core/src/diagnostics/span.rs:331-336`: a source id, and two `u32`. -/
structure Span where
  source : Nat
  start : Nat
  stop : Nat
  deriving DecidableEq, Repr

/-- `x as u32`. -/
def toU32 (n : Nat) : Nat := n % 2 ^ 32

/-- `SourceSpan::from_range_unchecked`, `span.rs:388-394`. -/
def fromRangeUnchecked (id s e : Nat) : Span := ⟨id, toU32 s, toU32 e⟩

/-- `SourceSpan::try_from_range`, `span.rs:373-383`. -/
def tryFromRange (id s e : Nat) : Option Span :=
  if s > 2 ^ 32 - 1 ∨ e > 2 ^ 32 - 1 then none else some (fromRangeUnchecked id s e)

/-- `SourceSpan::at`, `span.rs:363-370`. -/
def at_ (id off : Nat) : Span := ⟨id, off, off⟩

/-- `Span::at`, `span.rs:117-123`: `expect` panics for an offset which is not a `u32`. -/
def spanAt (id off : Nat) : Res Span := if off < 2 ^ 32 then .ok (at_ id off) else .panic

/-- `SourceSpan::len`, `span.rs:431-433`: the subtraction of two `usize`. -/
def len (checked : Bool) (x : Span) : Res Nat :=
  if x.start ≤ x.stop then .ok (x.stop - x.start) else if checked then .panic else .ok (x.stop + 2 ^ 64 - x.start)

/-- `SourceSpan::is_empty`, `span.rs:436-438`. -/
def isEmpty (checked : Bool) (x : Span) : Res Bool := (len checked x).bind fun n => .ok (n == 0)

/-- `SourceSpan::into_range` and `into_slice_index`, `span.rs:442-450`, and the conversions to `Range`,
`span.rs:462-474`: `Range::new` asserts that the start is not after the end. -/
def intoRange (x : Span) : P Rng := Rng.new x.start x.stop

/-- The conversions to the ranges of the standard library, `span.rs:476-486`. -/
def intoStd (x : Span) : Nat × Nat := (x.start, x.stop)

/-- `Index<SourceSpan> for [u8]`, `span.rs:488-495`: slicing panics if the start is after the end, or the end behind the text. -/
def index (b : Buf) (x : Span) : Res Buf := if x.start ≤ x.stop ∧ x.stop ≤ b.length then .ok (sliceOf b x.start x.stop) else .panic

/-- `RangeBounds<ByteIndex> for SourceSpan`, `span.rs:497-507`, and `RangeBounds::contains` of the standard library. -/
def contains (x : Span) (i : Nat) : Bool := decide (x.start ≤ i) && decide (i < x.stop)

/-- `Span::shift`, `span.rs:194-197`. -/
def shift (checked : Bool) (x : Span) (d : Int) : Res Span :=
  (Position.Byte.addOffset checked x.start d).bind fun s => (Position.Byte.addOffset checked x.stop d).bind fun e => .ok ⟨x.source, s, e⟩

/-- `Span::extend`, `span.rs:201-203`. -/
def extend (checked : Bool) (x : Span) (d : Int) : Res Span := (Position.Byte.addOffset checked x.stop d).bind fun e => .ok ⟨x.source, x.start, e⟩

/-- `Span<T>`, `span.rs:55-58`. -/
structure Spanned (α : Type) where
  span : Span
  spanned : α

/-- `PartialEq for Span<T>`, `span.rs:281-286`. -/
def Spanned.same {α : Type} [BEq α] (x y : Spanned α) : Bool := x.spanned == y.spanned

/-- `Ord for Span<T>`, `span.rs:295-299`. -/
def Spanned.order {α : Type} [Ord α] (x y : Spanned α) : Ordering := compare x.spanned y.spanned

/-- `Span::map`, `span.rs:154-162`. -/
def Spanned.map {α β : Type} (x : Spanned α) (f : α → β) : Spanned β := ⟨x.span, f x.spanned⟩

/-- `Span::with_span`, `span.rs:134-137`. -/
def Spanned.withSpan {α : Type} (x : Spanned α) (s : Span) : Spanned α := { x with span := s }

end Litcheck.Spans
