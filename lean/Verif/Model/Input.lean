import Verif.Model.Cursor
import Verif.Model.Regex

/-!
# The part of an input which is searched: `Input` (`filecheck/src/input.rs`)
-/

namespace Litcheck.Inputs

/-- `Input`, `filecheck/src/input.rs:10-17`. The bounds may be the wrong way round, which `set_start` and `set_bounds` do not prevent. -/
structure Input where
  source : Nat
  buffer : Buf
  start : Nat
  stop : Nat
  anchored : Bool
  crlf : Bool
  deriving DecidableEq

/-- `Input::new`, `input.rs:19-28`. -/
def new (source : Nat) (b : Buf) (crlf : Bool) : Input := ⟨source, b, 0, b.length, false, crlf⟩

/-- `anchored` and `set_anchored`, `input.rs:30-33` and `input.rs:61-63`. -/
def setAnchored (i : Input) (yes : Bool) : Input := { i with anchored := yes }

/-- `bounded`, `input.rs:35-40`. -/
def bounded (i : Input) (lo hi : Bound) : P Input := do
  let r ← Cursor.bounded i.buffer lo hi
  .ok { i with start := r.start, stop := r.stop }

/-- `set_start`, `input.rs:67-69`. -/
def setStart (i : Input) (start : Nat) : Input := { i with start := min start i.buffer.length }

/-- `set_bounds`, `input.rs:74-78`; the argument is made by `Range::new`. -/
def setBounds (i : Input) (r : Rng) : Input := { i with start := min r.start i.buffer.length, stop := min r.stop i.buffer.length }

/-- `is_empty`, `input.rs:83-85`. -/
def isEmpty (i : Input) : Bool := Rng.isEmpty ⟨i.start, i.stop⟩

/-- `as_slice`, `input.rs:109-111`: slicing panics if the bounds are the wrong way round or outside of the buffer. -/
def asSlice (i : Input) : P Buf :=
  if i.start ≤ i.stop ∧ i.stop ≤ i.buffer.length then .ok (sliceOf i.buffer i.start i.stop) else .error .indexOutOfBounds

/-- `peek_byte`, `input.rs:190-198`. -/
def peekByte (i : Input) : P (Nat × UInt8) :=
  if isEmpty i then .ok (i.stop, 0)
  else match i.buffer[i.start]? with
    | some x => .ok (i.start, x)
    | none => .error .indexOutOfBounds

/-- `pop_byte`, `input.rs:179-188`. -/
def popByte (i : Input) : P ((Nat × UInt8) × Input) :=
  if isEmpty i then .ok ((i.stop, 0), i)
  else match i.buffer[i.start]? with
    | some x => .ok ((i.start, x), { i with start := min (i.start + 1) i.stop })
    | none => .error .indexOutOfBounds

/-- `pop`, `input.rs:200-210`. A character is its scalar value; `bstr::decode_utf8` gives none at the end and where there is no UTF-8. -/
def pop (i : Input) : P ((Nat × Nat) × Input) := do
  let b ← asSlice i
  match Regex.decode b with
  | some (c, n) => .ok ((i.start, c), { i with start := i.start + n })
  | none => .ok ((i.start, 0), i)

/-- `peek`, `input.rs:212-215`. -/
def peek (i : Input) : P Nat := do
  let b ← asSlice i
  match Regex.decode b with
  | some (c, _) => .ok c
  | none => .ok 0

/-- A use of an input. -/
inductive Use where
  | anchored (yes : Bool)
  | bounded (lo hi : Bound)
  | setStart (n : Nat)
  | setBounds (r : Rng)
  | popByte
  | pop

/-- The input after it is used, `input.rs:30-78`, `179-188`, `200-210`. -/
def Use.apply (i : Input) : Use → P Input
  | .anchored yes => .ok (Inputs.setAnchored i yes)
  | .bounded lo hi => Inputs.bounded i lo hi
  | .setStart n => .ok (Inputs.setStart i n)
  | .setBounds r => .ok (Inputs.setBounds i r)
  | .popByte => (Inputs.popByte i).map Prod.snd
  | .pop => (Inputs.pop i).map Prod.snd

/-- … after several uses. -/
def useAll (i : Input) : List Use → P Input
  | [] => .ok i
  | u :: us => (u.apply i).bind fun j => useAll j us

end Litcheck.Inputs
