import Verif.Model.Cursor

/-!
# Uses of a cursor: positions, guards, and histories (`filecheck/src/cursor.rs`)

The operations themselves are in `Model/Cursor`.
-/

namespace Litcheck.Cursors

/-- `CursorPosition`, `filecheck/src/cursor.rs:5-9`. -/
structure Pos where
  start : Nat
  stop : Nat
  eol : Nat
  deriving DecidableEq, Repr

/-- `Cursor::position`, `cursor.rs:76-81`. -/
def position (c : Cursor) : Pos := ⟨c.start, c.stop, c.eol⟩

/-- `Cursor::move_to`, `cursor.rs:156-159`. -/
def moveTo (c : Cursor) (p : Pos) : Cursor := { c with start := p.start, stop := p.stop, eol := p.eol }

/-- `CursorGuard::save`, `cursor.rs:333-336`: what becomes of the guarded cursor `g` when the guard's cursor is `c`. -/
def save (g c : Cursor) : Cursor := { g with start := c.start, stop := c.stop, eol := c.eol }

/-- `Cursor::consume_newline`, `cursor.rs:185-195`: `debug` says whether debug assertions are compiled. -/
def consumeNewline (debug : Bool) (c : Cursor) : P Cursor :=
  if debug && !c.atEndOfLine then .error .assertFailed
  else c.startOfNextLine.map fun s => { c with start := min s c.stop }

/-- A use of a cursor. A guard (`cursor.rs:53-55`, `322-332`) is used in the place of the cursor until it is saved or dropped. -/
inductive Use where
  | position
  /-- to the position which was asked for `k` positions ago -/
  | moveTo (k : Nat)
  | reset
  | setStart (n : Nat)
  | moveToEnd
  | setBounds (r : Rng)
  | consumeNewline
  | protect
  | save
  | drop
  deriving DecidableEq

/-- A cursor (or guard) in use, the cursors which are guarded, and the positions which were asked for. -/
structure History where
  cur : Cursor
  guarded : List Cursor
  saved : List Pos
  deriving DecidableEq

/-- One use, `cursor.rs:53-55`, `76-81`, `124-195`, `322-336`. -/
def Use.apply (debug : Bool) (h : History) : Use → P History
  | .position => .ok { h with saved := Cursors.position h.cur :: h.saved }
  | .moveTo k => .ok (match h.saved[k]? with | some p => { h with cur := Cursors.moveTo h.cur p } | none => h)
  | .reset => h.cur.reset.map fun c => { h with cur := c }
  | .setStart n => (h.cur.setStart n).map fun c => { h with cur := c }
  | .moveToEnd => .ok { h with cur := h.cur.moveToEnd }
  | .setBounds r => (h.cur.setBounds r).map fun c => { h with cur := c }
  | .consumeNewline => (Cursors.consumeNewline debug h.cur).map fun c => { h with cur := c }
  | .protect => .ok { h with guarded := h.cur :: h.guarded }
  | .save => .ok (match h.guarded with | g :: gs => { h with cur := Cursors.save g h.cur, guarded := gs } | [] => h)
  | .drop => .ok (match h.guarded with | g :: gs => { h with cur := g, guarded := gs } | [] => h)

/-- … several uses. -/
def useAll (debug : Bool) (h : History) : List Use → P History
  | [] => .ok h
  | u :: us => (u.apply debug h).bind fun h' => useAll debug h' us

/-- The uses of a new cursor on a text, `cursor.rs:39-50`. -/
def uses (debug : Bool) (b : Buf) (us : List Use) : P History := (Cursor.new b).bind fun c => useAll debug ⟨c, [], []⟩ us

end Litcheck.Cursors
