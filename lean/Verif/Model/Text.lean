import Verif.Model.Range

/-!
# `core/src/text/mod.rs`
-/

namespace Litcheck

/-- `core/src/text/mod.rs:10-17` `LineEnding`. -/
inductive LineEnding where
  | lf | crlf | none
  deriving DecidableEq, Repr

/-- `core/src/text/mod.rs:21-24` `Newline`. -/
structure Newline where
  offset : Nat
  ty : LineEnding
  deriving DecidableEq, Repr

namespace Newline

/-- `core/src/text/mod.rs:32-38` `Newline::next_line_start`. -/
def nextLineStart (n : Newline) : Nat :=
  match n.ty with
  | .lf => n.offset + 1
  | .crlf => n.offset + 2
  | .none => n.offset

/-- `core/src/text/mod.rs:41-43` `Newline::is_crlf`. -/
def isCrlf (n : Newline) : Bool := n.ty == .crlf

/-- `core/src/text/mod.rs:54-82` `Newline::next_from`; `&buffer[offset..]` panics past the end. -/
def nextFrom (b : Buf) (offset : Nat) : P Newline :=
  if offset > b.length then .error .indexOutOfBounds
  else match memchr LF (b.drop offset) with
    | some i =>
      let index := offset + i
      if index > 0 then
        if b[index - 1]? = some CR then .ok ⟨index - 1, .crlf⟩ else .ok ⟨index, .lf⟩
      else .ok ⟨index, .lf⟩
    | Option.none => .ok ⟨b.length, .none⟩

/-- `core/src/text/mod.rs:46-48` `Newline::next`. -/
def next (b : Buf) : P Newline := nextFrom b 0

/-- `core/src/text/mod.rs:93-120` `Newline::prev_from`, including the `Crlf` label the source gives
to a plain line feed at an index > 0 (line 104). -/
def prevFrom (b : Buf) (offset : Nat) : P Newline :=
  if offset > b.length then .error .indexOutOfBounds
  else match memrchr LF (b.take offset) with
    | some index =>
      if index > 0 then
        if b[index - 1]? = some CR then .ok ⟨index - 1, .crlf⟩ else .ok ⟨index, .crlf⟩
      else .ok ⟨index, .lf⟩
    | Option.none => .ok ⟨0, .none⟩

/-- `core/src/text/mod.rs:85-87` `Newline::prev`: as in the source, searches backwards from offset 0. -/
def prev (b : Buf) : P Newline := prevFrom b 0

end Newline

/-- `core/src/text/mod.rs:123-125` `find_next_lf_or_eof` (the range is valid at every call site). -/
def findNextLf (b : Buf) (r : Rng) : Option Nat :=
  (memchr LF (sliceOf b r.start r.stop)).map (r.start + ·)

/-- `core/src/text/mod.rs:127-139` `find_next_crlf_or_eof`. As in the source, the index found in the
slice is used as an index of the whole buffer (the range start is not added). -/
def findNextCrlf (b : Buf) (r : Rng) : Option Nat :=
  match memchr LF (sliceOf b r.start r.stop) with
  | some 0 => none
  | some (i + 1) => if b[i]? = some CR then some i else none
  | none => none

/-- `core/src/text/mod.rs:141-143` `find_prev_lf_or_eof`. -/
def findPrevLf (b : Buf) (r : Rng) : Option Nat :=
  (memrchr LF (sliceOf b r.start r.stop)).map (r.start + ·)

/-- `core/src/text/mod.rs:145-157` `find_prev_crlf_or_eof` (same missing offset). -/
def findPrevCrlf (b : Buf) (r : Rng) : Option Nat :=
  match memrchr LF (sliceOf b r.start r.stop) with
  | some 0 => none
  | some (i + 1) => if b[i]? = some CR then some i else none
  | none => none

/-- `core/src/text/mod.rs:162-176` `is_char_boundary`. -/
def isCharBoundary (b : Buf) (offset : Nat) : Bool :=
  match b[offset]? with
  | none => offset == b.length
  | some x => decide (x ≤ 0x7f) || decide (x ≥ 0xc0)

/-- `core/src/text/mod.rs:194-206` `is_non_canonical_horizontal_whitespace`. -/
def isNonCanonicalHorizontalWhitespace (c : Char) : Bool :=
  let n := c.toNat
  n == 0x9 || n == 0xA0 || n == 0x1680 || (decide (0x2000 ≤ n) && decide (n ≤ 0x200A))
    || n == 0x202F || n == 0x205F || n == 0x3000

/-- `core/src/text/mod.rs:178-191` `canonicalize_horizontal_whitespace` on the characters of the
string (`str::replace` with a char predicate and a one-char replacement is a character map). -/
def canonicalizeHorizontalWhitespace (s : List Char) (strict : Bool) : List Char :=
  if strict then s
  else if s.any isNonCanonicalHorizontalWhitespace then
    s.map (fun c => if isNonCanonicalHorizontalWhitespace c then ' ' else c)
  else s

end Litcheck
