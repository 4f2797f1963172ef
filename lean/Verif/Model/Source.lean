import Verif.Model.Line

/-!
# Source files: `core/src/diagnostics/source_file.rs`

The content is the UTF-8 bytes of the text. The language and the uri of a file play no part here and are left out.
`usize`/`u32` values are natural numbers, except in the shifting of line starts, where the saturating and wrapping
32-bit arithmetic of the code is kept.
-/

namespace Litcheck

/-- A UTF-8 continuation byte. -/
def isCont (x : UInt8) : Bool := 0x80 ≤ x && x < 0xC0

/-- `str::is_char_boundary` (standard library). -/
def strBoundary (b : Buf) (i : Nat) : Bool :=
  i == 0 || i == b.length || (match b[i]? with | some x => !isCont x | none => false)

/-- `str::get(s..e)` (standard library). -/
def strGet (b : Buf) (s e : Nat) : Option Buf :=
  if s ≤ e ∧ e ≤ b.length ∧ strBoundary b s = true ∧ strBoundary b e = true then some (sliceOf b s e) else none

/-- `str::chars().count()` of valid UTF-8 (standard library). -/
def charCount (b : Buf) : Nat := b.countP fun x => !isCont x

/-- `<[T]>::binary_search` on a strictly increasing slice (standard library): the index of the element, or where it
would be inserted. -/
def binarySearch (xs : List Nat) (x : Nat) : Except Nat Nat :=
  match xs.findIdx? (· == x) with
  | some i => .ok i
  | none => .error (xs.countP (· < x))

/-- `source_file.rs:785-800` `compute_line_starts`. -/
def computeLineStarts (text : Buf) (textOffset : Option Nat) : List Nat :=
  (match textOffset with | some _ => [] | none => [0]) ++
    (memchrIter LF text).map fun offset => textOffset.getD 0 + (offset + 1)

/-- `SourceContent`, `source_file.rs:430-442`. -/
structure Source where
  content : Buf
  lineStarts : List Nat
  version : Int
  deriving DecidableEq, Repr

/-- `Position`, `selection.rs:49-56`: zero-based line and column (in bytes). -/
structure Position where
  line : Nat
  character : Nat
  deriving DecidableEq, Repr

/-- The derived order of `Position`, `selection.rs:52`. -/
def Position.le (a b : Position) : Bool := a.line < b.line || (a.line == b.line && a.character ≤ b.character)

/-- `Selection`, `selection.rs:6-10`. -/
structure Selection where
  start : Position
  stop : Position
  deriving DecidableEq, Repr

/-- `Selection::new`, `selection.rs:14-23`. -/
def Selection.new (a b : Position) : Selection := if a.le b then ⟨a, b⟩ else ⟨b, a⟩

/-- `SourceContentUpdateError`, `source_file.rs:494-500`. -/
inductive UpdateError where
  | invalidSelectionStart (p : Position)
  | invalidSelectionEnd (p : Position)
  deriving DecidableEq, Repr

/-- `text.len() as i32`. -/
def asI32 (n : Nat) : Int := Int.bmod n (2 ^ 32)

/-- `i32::saturating_sub_unsigned`. -/
def satSubUnsigned (x : Int) (n : Nat) : Int := max (x - n) (-2147483648)

/-- `u32::saturating_add_signed`. -/
def satAddSigned (n : Nat) (d : Int) : Nat := (min (max (n + d) 0) 4294967295).toNat

namespace Source

/-- `SourceContent::new`, `source_file.rs:509-532`. -/
def new (content : Buf) : P Source :=
  if content.length < 2 ^ 32 - 1 then .ok ⟨content, computeLineStarts content none, 0⟩ else .error .assertFailed

/-- `line_start`, `source_file.rs:628-630`. -/
def lineStart (s : Source) (i : Nat) : Option Nat := s.lineStarts[i]?

/-- `line_range`, `source_file.rs:643-649`. -/
def lineRange (s : Source) (i : Nat) : Option (Nat × Nat) :=
  match s.lineStart i with
  | none => none
  | some a =>
    match s.lineStart (i + 1) with
    | some b => some (a, b)
    | none => some (a, s.content.length)

/-- `line_index`, `source_file.rs:652-657`; the subtraction panics on underflow (debug builds). -/
def lineIndex (s : Source) (byteIndex : Nat) : P Nat :=
  match binarySearch s.lineStarts byteIndex with
  | .ok line => .ok line
  | .error next => if next = 0 then .error .assertFailed else .ok (next - 1)

/-- `line_column_to_offset`, `source_file.rs:662-679`. -/
def lineColumnToOffset (s : Source) (line column : Nat) : P (Option Nat) :=
  match s.lineRange line with
  | none => .ok none
  | some (a, b) =>
    match strGet s.content a b with
    | none => .error .unwrapNone
    | some src =>
      if src.length < column then .ok none
      else if strBoundary src column then .ok (some (a + (src.take column).length))
      else .error .indexOutOfBounds

/-- `location`, `source_file.rs:683-695`: one-based line and column. -/
def location (s : Source) (byteIndex : Nat) : P (Option (Nat × Nat)) := do
  let line ← s.lineIndex byteIndex
  match s.lineStart line with
  | none => .ok none
  | some a =>
    match strGet s.content a byteIndex with
    | none => .ok none
    | some src => .ok (some (line + 1, charCount src + 1))

/-- `select`, `source_file.rs:608-615`; `Selection::canonicalize`, `selection.rs:25-29`, is `Selection.new`. -/
def select (s : Source) (sel : Selection) : P (Option Buf) := do
  let sel := Selection.new sel.start sel.stop
  match ← s.lineColumnToOffset sel.start.line sel.start.character with
  | none => .ok none
  | some a =>
    match ← s.lineColumnToOffset sel.stop.line sel.stop.character with
    | none => .ok none
    | some b =>
      match strGet s.content a b with
      | none => .error .indexOutOfBounds
      | some x => .ok (some x)

/-- The indices `splice_start..=end` removed from the line table, `source_file.rs:725-751`, as their number. -/
def deletion (lineStarts : List Nat) (sel : Selection) : Nat :=
  if sel.start.line == sel.stop.line then 0
  else
    let endLine := if lineStarts.isEmpty then sel.stop.line else min sel.stop.line (lineStarts.length - 1)
    if sel.start.line + 1 ≤ endLine then endLine + 1 - (sel.start.line + 1) else 0

/-- `update`, `source_file.rs:703-782`, with a selection: `Vec::splice` then the shift of the line starts after the
added ones. `splice` panics when its start is beyond the end of the table. -/
def updateRange (s : Source) (text : Buf) (sel : Selection) (version : Int) : P (Except UpdateError Source) := do
  match ← s.lineColumnToOffset sel.start.line sel.start.character with
  | none => .ok (.error (.invalidSelectionStart sel.start))
  | some start =>
    match ← s.lineColumnToOffset sel.stop.line sel.stop.character with
    | none => .ok (.error (.invalidSelectionEnd sel.stop))
    | some stop =>
      if stop < start then .error .assertFailed else
      let content := s.content.take start ++ text ++ s.content.drop stop
      let added := computeLineStarts text (some start)
      let spliceStart := sel.start.line + 1
      if s.lineStarts.length < spliceStart then .error .indexOutOfBounds else
      let spliced := s.lineStarts.take spliceStart ++ added ++
        s.lineStarts.drop (spliceStart + deletion s.lineStarts sel)
      let diff := satSubUnsigned (asI32 text.length) (stop - start)
      let keep := spliceStart + added.length
      let shifted := if diff ≠ 0 then spliced.take keep ++ (spliced.drop keep).map (satAddSigned · diff) else spliced
      .ok (.ok ⟨content, shifted, version⟩)

/-- `update`, `source_file.rs:703-782`. -/
def update (s : Source) (text : Buf) (sel : Option Selection) (version : Int) : P (Except UpdateError Source) :=
  match sel with
  | some sel => s.updateRange text sel version
  | none => .ok (.ok ⟨text, computeLineStarts text none, version⟩)

/-- `read_span`, `source_file.rs:78-86`: where the excerpt begins. -/
def readStart (s : Source) (offset before : Nat) : P Nat :=
  if before > 0 then do
    let line ← s.lineIndex offset
    pure ((s.lineStart (line - before)).getD 0)
  else pure offset

/-- `read_span`, `source_file.rs:87-97`: where the excerpt ends. -/
def readStop (s : Source) (stop after : Nat) : P Nat :=
  if after > 0 then do
    let line ← s.lineIndex stop
    pure (match s.lineRange (line + after) with | some (_, b) => b | none => s.content.length)
  else pure stop

/-- `<SourceFile as miette::SourceCode>::read_span`, `source_file.rs:67-103`: the offset and length shown for a span,
with the given numbers of context lines. `u32` overflows (`OutOfBounds`) are not modelled. -/
def readSpan (s : Source) (offset len before after : Nat) : P (Nat × Nat) := do
  let start' ← s.readStart offset before
  let stop' ← s.readStop (offset + len) after
  pure (start', if start' ≤ stop' then stop' - start' else start' - stop')

end Source

end Litcheck
