import Verif.Model.Base

/-!
# `core/src/range.rs`
-/

namespace Litcheck

/-- `core/src/range.rs:36-39` `Range<T>`, at `T = usize`. -/
structure Rng where
  start : Nat
  stop : Nat
  deriving DecidableEq, Repr

namespace Rng

/-- `core/src/range.rs:63-73` `Range::new`: asserts `start <= end`. -/
def new (s e : Nat) : P Rng :=
  if s ≤ e then .ok ⟨s, e⟩ else .error .assertFailed

/-- `core/src/range.rs:81-83` `Range::is_empty`. -/
def isEmpty (r : Rng) : Bool := !(decide (r.start < r.stop))

/-- `core/src/range.rs:85-92` `Range::contains` (half open, via `RangeBounds::contains`). -/
def contains (r : Rng) (i : Nat) : Bool := decide (r.start ≤ i) && decide (i < r.stop)

/-- `core/src/range.rs:96-98` `Range::len`: `end - start`; overflow panics in debug builds, and
wraps in release builds (not modelled: every range built by `new` has `start <= end`). -/
def len (r : Rng) : P Nat := if r.start ≤ r.stop then .ok (r.stop - r.start) else .error .assertFailed

/-- `core/src/range.rs:20` `NumericRangeBound::ONE`, as written in the source: `const ONE: Self = 0`. -/
def numericOne : Nat := 0

/-- `core/src/range.rs:102-111` `Range::pop_front`. -/
def popFront (r : Rng) : Option Nat × Rng :=
  let item := r.start
  let next := item + numericOne
  if next ≤ r.stop then (some item, { r with start := next }) else (none, r)

/-- `core/src/range.rs:115-123` `Range::pop_back` (`saturating_sub` on unsigned integers is `Nat` subtraction). -/
def popBack (r : Rng) : Option Nat × Rng :=
  if r.start = r.stop then (none, r)
  else
    let item := r.stop - numericOne
    (some item, { r with stop := item })

/-- `core/src/range.rs:129-131` `Range::shrink_front`. -/
def shrinkFront (r : Rng) (n : Nat) : Rng := { r with start := min (r.start + n) r.stop }

/-- `core/src/range.rs:139-142` `Range::truncate`: asserts `len > new_len`. -/
def truncate (r : Rng) (n : Nat) : P Rng := do
  let l ← r.len
  if l > n then .ok { r with stop := r.start + n } else .error .assertFailed

/-- `core/src/range.rs:167-173` `Ord for Range`. -/
def cmp (a b : Rng) : Ordering := (compare a.start b.start).then (compare a.stop b.stop)

end Rng

/-- `core::ops::Bound<usize>`. -/
inductive Bound where
  | included (i : Nat)
  | excluded (i : Nat)
  | unbounded
  deriving DecidableEq, Repr

/-- `core/src/range.rs:222-226`, `244-248`: resolving a start bound. -/
def startOf (b : Bound) (dflt : Nat) : Nat :=
  match b with
  | .included i => i
  | .excluded i => i + 1
  | .unbounded => dflt

/-- `core/src/range.rs:227-231`, `249-253`: resolving an end bound. -/
def endOf (b : Bound) (dflt : Nat) : Nat :=
  match b with
  | .included i => i + 1
  | .excluded i => i
  | .unbounded => dflt

/-- `core/src/range.rs:218-237` `range_from_bounds`: `inl` is `Err(start..end)`.
The inner `Range::new` cannot fail because `start > end` was rejected. -/
def rangeFromBounds (lo hi : Bound) (allowed : Rng) : Except (Nat × Nat) Rng :=
  let s := startOf lo allowed.start
  let e := endOf hi allowed.stop
  if s > e ∨ s < allowed.start ∨ e > allowed.stop then .error (s, e) else .ok ⟨s, e⟩

/-- `core/src/range.rs:239-255` `range_from_bounds_with_defaults`. -/
def rangeFromBoundsWithDefaults (lo hi : Bound) (ds de : Nat) : P Rng :=
  Rng.new (startOf lo ds) (endOf hi de)

end Litcheck
