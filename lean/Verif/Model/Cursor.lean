import Verif.Model.Text

/-!
# `filecheck/src/cursor.rs` and the bounds checks of `filecheck/src/input.rs`
-/

namespace Litcheck

/-- `filecheck/src/cursor.rs:21-37` `Cursor` (without the source id, which is only used in
diagnostics, and without the stateless `LookMatcher`). `start..stop` is the field `block`. -/
structure Cursor where
  buf : Buf
  start : Nat
  stop : Nat
  eol : Nat
  crlf : Bool
  deriving DecidableEq, Repr

namespace Cursor

/-- `filecheck/src/cursor.rs:39-50` `Cursor::new`. -/
def new (b : Buf) : P Cursor := do
  let nl ← Newline.next b
  .ok ⟨b, 0, b.length, nl.offset, nl.isCrlf⟩

/-- `range::range_from_bounds(range, 0..buffer.len()).unwrap()` as used in
`filecheck/src/cursor.rs:175,300,313` and `filecheck/src/input.rs:35-40`. -/
def bounded (b : Buf) (lo hi : Bound) : P Rng :=
  match rangeFromBounds lo hi ⟨0, b.length⟩ with
  | .ok r => .ok r
  | .error _ => .error .invalidRange

/-- `filecheck/src/cursor.rs:296-306` `next_newline_in_range`. -/
def nextNewlineInRange (c : Cursor) (lo hi : Bound) : P (Option Nat) := do
  let r ← bounded c.buf lo hi
  .ok (if c.crlf then findNextCrlf c.buf r else findNextLf c.buf r)

/-- `filecheck/src/cursor.rs:309-319` `prev_newline_in_range`. -/
def prevNewlineInRange (c : Cursor) (lo hi : Bound) : P (Option Nat) := do
  let r ← bounded c.buf lo hi
  .ok (if c.crlf then findPrevCrlf c.buf r else findPrevLf c.buf r)

/-- `filecheck/src/cursor.rs:286-288` `next_newline_from`. -/
def nextNewlineFrom (c : Cursor) (offset : Nat) : P (Option Nat) :=
  c.nextNewlineInRange (.included offset) .unbounded

/-- `filecheck/src/cursor.rs:291-293` `prev_newline_from`. -/
def prevNewlineFrom (c : Cursor) (offset : Nat) : P (Option Nat) :=
  c.prevNewlineInRange .unbounded (.excluded offset)

/-- `filecheck/src/cursor.rs:124-128` `reset`. -/
def reset (c : Cursor) : P Cursor := do
  let nl ← Newline.next c.buf
  .ok { c with eol := nl.offset, start := 0, stop := c.buf.length }

/-- `filecheck/src/cursor.rs:131-153` `set_start`. -/
def setStart (c : Cursor) (s : Nat) : P Cursor := do
  let c' : Cursor := { c with start := min s c.stop }
  if s > c.start then
    if c'.start > c'.eol then do
      let nl ← c'.nextNewlineInRange (.included c'.start) (.excluded c'.stop)
      .ok { c' with eol := nl.getD c'.stop }
    else .ok c'
  else if s < c.start then do
    let nl ← c'.nextNewlineInRange (.included c'.start) (.excluded c'.stop)
    .ok { c' with eol := nl.getD c'.stop }
  else .ok c'

/-- `filecheck/src/cursor.rs:162-165` `move_to_end`. -/
def moveToEnd (c : Cursor) : Cursor := { c with start := c.stop, eol := c.stop }

/-- `filecheck/src/cursor.rs:170-177` `set_bounds` (called with a `Range`, i.e. included/excluded bounds). -/
def setBounds (c : Cursor) (r : Rng) : P Cursor := do
  let r ← bounded c.buf (.included r.start) (.excluded r.stop)
  let c' : Cursor := { c with start := r.start, stop := r.stop }
  let nl ← c'.nextNewlineFrom r.start
  .ok { c' with eol := nl.getD c.buf.length }

/-- `filecheck/src/cursor.rs:202-204` `start_of_next_line`. -/
def startOfNextLine (c : Cursor) : P Nat := do
  let nl ← Newline.nextFrom c.buf c.start
  .ok nl.nextLineStart

/-- `regex_automata::util::look::LookMatcher::is_end_lf` / `is_end_crlf` (external crate), as used by
`filecheck/src/cursor.rs:267-273` `is_end_of_line`. Offsets past the end do not occur. -/
def isEndOfLine (c : Cursor) (at_ : Nat) : Bool :=
  if at_ == c.buf.length then true
  else if c.crlf then
    c.buf[at_]? == some CR
      || (c.buf[at_]? == some LF && (at_ == 0 || c.buf[at_ - 1]? != some CR))
  else c.buf[at_]? == some LF

/-- `filecheck/src/cursor.rs:260-262` `at_end_of_line`. -/
def atEndOfLine (c : Cursor) : Bool := c.isEndOfLine c.start

/-- `filecheck/src/cursor.rs:218-220` `search_range`: the bounds of the input to search. -/
def searchRange (c : Cursor) (s e : Nat) : P Rng := bounded c.buf (.included s) (.excluded e)

/-- `filecheck/src/cursor.rs:223-225` `search_block`. -/
def searchBlock (c : Cursor) : P Rng := c.searchRange c.start c.stop

/-- `filecheck/src/cursor.rs:228-231` `search_line`. -/
def searchLine (c : Cursor) : P Rng := c.searchRange c.start c.eol

/-- `filecheck/src/cursor.rs:213-215` `search_to_eof`. -/
def searchToEof (c : Cursor) : P Rng := bounded c.buf (.included c.start) .unbounded

end Cursor

end Litcheck
