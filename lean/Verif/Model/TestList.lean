import Verif.Model.Base

/-!
# The list of tests (`lit/src/test/list.rs`)

A `TestList` is an intrusive linked list together with a separately maintained length.
The linked list itself (`intrusive_collections::LinkedList`, external crate) is modelled
by `List α`, its cursor by a position `Option Nat` (`none` is the null object); `α` stands
for `Arc<Test>`.  A `usize` subtraction below zero panics, as in a debug build.
-/

namespace Litcheck

/-! ### `intrusive_collections::linked_list::CursorMut` (external crate, documented behaviour) -/
namespace LL

/-- `Cursor::move_next`: the null object is followed by the first element, the last element by the null object. -/
def next (n : Nat) : Option Nat → Option Nat
  | none => if n = 0 then none else some 0
  | some i => if i + 1 < n then some (i + 1) else none

/-- `Cursor::move_prev`: the mirror image of `next`. -/
def prev (n : Nat) : Option Nat → Option Nat
  | none => if n = 0 then none else some (n - 1)
  | some 0 => none
  | some (i + 1) => some i

/-- `CursorMut::remove`: removes the element under the cursor, which moves to the next one. -/
def remove {α : Type} (l : List α) : Option Nat → Option α × List α × Option Nat
  | none => (none, l, none)
  | some i => (l[i]?, l.eraseIdx i, if i + 1 < l.length then some i else none)

/-- `CursorMut::insert_after` / `splice_after`: at the null object this is the front of the list. -/
def spliceAfter {α : Type} (l xs : List α) : Option Nat → List α
  | none => xs ++ l
  | some i => l.take (i + 1) ++ xs ++ l.drop (i + 1)

/-- `CursorMut::insert_before` / `splice_before`: at the null object this is the back of the list.
The cursor stays on its element, whose position shifts. -/
def spliceBefore {α : Type} (l xs : List α) : Option Nat → List α × Option Nat
  | none => (l ++ xs, none)
  | some i => (l.take i ++ xs ++ l.drop i, some (i + xs.length))

/-- `CursorMut::split_after`: (what stays, what is split off); at the null object the whole
list is split off. -/
def splitAfter {α : Type} (l : List α) : Option Nat → List α × List α
  | none => ([], l)
  | some i => (l.take (i + 1), l.drop (i + 1))

end LL

/-- `TestList`, lit/src/test/list.rs:11-15. -/
structure TestList (α : Type) where
  len : Nat
  tests : List α
  deriving DecidableEq, Repr

/-- `TestCursorMut`, lit/src/test/list.rs:88-92, together with the list it borrows. -/
structure TCursor (α : Type) where
  len : Nat
  pos : Nat
  tests : List α
  cur : Option Nat
  deriving DecidableEq, Repr

/-- `usize` subtraction. -/
def subUsize (a b : Nat) : P Nat := if b ≤ a then pure (a - b) else throw .assertFailed

namespace TestList
variable {α : Type}

/-- `TestList::default`, lit/src/test/list.rs:11. -/
def empty : TestList α := ⟨0, []⟩

/-- `TestList::is_empty`, lit/src/test/list.rs:17-19: asks the linked list, not the counter. -/
def isEmpty (t : TestList α) : Bool := t.tests.isEmpty

/-- `TestList::front_mut`, lit/src/test/list.rs:35-41. -/
def frontMut (t : TestList α) : TCursor α := ⟨t.len, 0, t.tests, LL.next t.tests.length none⟩

/-- `TestList::back_mut`, lit/src/test/list.rs:44-50: the position is 0 here too. -/
def backMut (t : TestList α) : TCursor α := ⟨t.len, 0, t.tests, LL.prev t.tests.length none⟩

/-- `TestList::pop_front`, lit/src/test/list.rs:52-58. -/
def popFront (t : TestList α) : P (Option α × TestList α) :=
  match t.tests with
  | [] => pure (none, t)
  | x :: xs => do
    let len ← subUsize t.len 1
    pure (some x, ⟨len, xs⟩)

/-- `TestList::pop_back`, lit/src/test/list.rs:60-66. -/
def popBack (t : TestList α) : P (Option α × TestList α) :=
  match t.tests.getLast? with
  | none => pure (none, t)
  | some x => do
    let len ← subUsize t.len 1
    pure (some x, ⟨len, t.tests.dropLast⟩)

/-- `TestList::clear`, lit/src/test/list.rs:68-71. -/
def clear (_t : TestList α) : TestList α := ⟨0, []⟩

/-- `TestList::push_back`, lit/src/test/list.rs:77-80. -/
def pushBack (t : TestList α) (x : α) : TestList α := ⟨t.len + 1, t.tests ++ [x]⟩

/-- `TestList::append`, lit/src/test/list.rs:82-85: splices after the cursor at the back, which is
the null object when the list is empty. -/
def append (t u : TestList α) : TestList α :=
  ⟨t.len + u.len, LL.spliceAfter t.tests u.tests (LL.prev t.tests.length none)⟩

end TestList

namespace TCursor
variable {α : Type}

/-- `TestCursorMut::is_null`, lit/src/test/list.rs:94-96. -/
def isNull (c : TCursor α) : Bool := c.cur.isNone

/-- `TestCursorMut::get`, lit/src/test/list.rs:99-101. -/
def get (c : TCursor α) : Option α := c.cur.bind (fun i => c.tests[i]?)

/-- The list behind the cursor once the borrow ends. -/
def list (c : TCursor α) : TestList α := ⟨c.len, c.tests⟩

/-- `TestCursorMut::move_next`, lit/src/test/list.rs:103-112. -/
def moveNext (c : TCursor α) : P (TCursor α) :=
  if c.pos = c.len then
    if c.cur.isNone then
      pure { c with cur := LL.next c.tests.length c.cur, pos := 0 }
    else throw .assertFailed
  else pure { c with cur := LL.next c.tests.length c.cur, pos := c.pos + 1 }

/-- `TestCursorMut::move_prev`, lit/src/test/list.rs:115-127. -/
def movePrev (c : TCursor α) : P (TCursor α) :=
  if c.pos = c.len then
    if c.cur.isNone then
      pure { c with cur := LL.prev c.tests.length c.cur, pos := c.len - 1 }
    else throw .assertFailed
  else if c.pos = 0 then
    pure { c with cur := LL.prev c.tests.length c.cur, pos := c.len }
  else pure { c with cur := LL.prev c.tests.length c.cur, pos := c.pos - 1 }

/-- `TestCursorMut::remove`, lit/src/test/list.rs:130-136. -/
def remove (c : TCursor α) : P (Option α × TCursor α) :=
  match LL.remove c.tests c.cur with
  | (none, l, i) => pure (none, { c with tests := l, cur := i })
  | (some x, l, i) => do
    let len ← subUsize c.len 1
    pure (some x, { c with len := len, tests := l, cur := i })

/-- `TestCursorMut::insert_after`, lit/src/test/list.rs:139-145. -/
def insertAfter (c : TCursor α) (x : α) : TCursor α :=
  { len := c.len + 1
    pos := if c.pos = c.len then c.pos + 1 else c.pos
    tests := LL.spliceAfter c.tests [x] c.cur
    cur := c.cur }

/-- `TestCursorMut::insert_before`, lit/src/test/list.rs:148-152. -/
def insertBefore (c : TCursor α) (x : α) : TCursor α :=
  { len := c.len + 1
    pos := c.pos + 1
    tests := (LL.spliceBefore c.tests [x] c.cur).1
    cur := (LL.spliceBefore c.tests [x] c.cur).2 }

/-- `TestCursorMut::split_after`, lit/src/test/list.rs:154-172: (what is split off, the cursor). -/
def splitAfter (c : TCursor α) : P (TestList α × TCursor α) :=
  if c.len = 0 then pure (TestList.empty, c)
  else if c.pos = c.len then
    pure (⟨c.len, (LL.splitAfter c.tests c.cur).2⟩,
      { c with len := 0, pos := 0, tests := (LL.splitAfter c.tests c.cur).1 })
  else do
    let rest ← subUsize c.len (c.pos + 1)
    pure (⟨rest, (LL.splitAfter c.tests c.cur).2⟩,
      { c with len := c.pos + 1, tests := (LL.splitAfter c.tests c.cur).1 })

/-- `TestCursorMut::splice_after`, lit/src/test/list.rs:175-181: at the null object the position moves
by one, whatever the number of tests spliced. -/
def spliceAfter (c : TCursor α) (u : TestList α) : TCursor α :=
  { len := c.len + u.len
    pos := if c.pos = c.len then c.pos + 1 else c.pos
    tests := LL.spliceAfter c.tests u.tests c.cur
    cur := c.cur }

/-- `TestCursorMut::splice_before`, lit/src/test/list.rs:184-188: the position moves by one, whatever
the number of tests spliced. -/
def spliceBefore (c : TCursor α) (u : TestList α) : TCursor α :=
  { len := c.len + u.len
    pos := c.pos + 1
    tests := (LL.spliceBefore c.tests u.tests c.cur).1
    cur := (LL.spliceBefore c.tests u.tests c.cur).2 }

end TCursor

/-- `Iter`, lit/src/test/list.rs:209-212: the indices still to be produced, and a shared cursor. -/
structure TIter (α : Type) where
  start : Nat
  stop : Nat
  tests : List α
  cur : Option Nat
  deriving DecidableEq, Repr

/-- `TestList::iter`, lit/src/test/list.rs:73-75, and `Iter::new`, lit/src/test/list.rs:214-219. -/
def TestList.iter {α : Type} (t : TestList α) : TIter α :=
  ⟨0, t.len, t.tests, LL.next t.tests.length none⟩

namespace TIter
variable {α : Type}

/-- `Iter::len`, lit/src/test/list.rs:224-226. -/
def len (it : TIter α) : Nat := it.stop - it.start

/-- `Iter::next`, lit/src/test/list.rs:231-236. -/
def next (it : TIter α) : Option α × TIter α :=
  if it.start < it.stop then
    (it.cur.bind (fun i => it.tests[i]?),
      { it with start := it.start + 1, cur := LL.next it.tests.length it.cur })
  else (none, it)

/-- `Iter::next_back`, lit/src/test/list.rs:239-244: the same cursor, which stands at the front. -/
def nextBack (it : TIter α) : Option α × TIter α :=
  if it.start < it.stop then
    (it.cur.bind (fun i => it.tests[i]?),
      { it with stop := it.stop - 1, cur := LL.prev it.tests.length it.cur })
  else (none, it)

end TIter

namespace TestList
variable {α : Type}

/-- The loop `for _ in 0..index { cursor.move_next(); }` of `Drain::split_at`. -/
def advance : Nat → TCursor α → P (TCursor α)
  | 0, c => pure c
  | n + 1, c => do
    let c ← c.moveNext
    advance n c

/-- `Drain::split_at`, lit/src/test/list.rs:285-297 (a `Drain` is just the list it consumes). -/
def splitAt (t : TestList α) (index : Nat) : P (TestList α × TestList α) :=
  if t.isEmpty then pure (t, empty)
  else if index < t.len then do
    let c ← advance index t.frontMut
    if c.isNull then throw .assertFailed
    else do
      let (right, c) ← c.splitAfter
      pure (c.list, right)
  else throw .assertFailed

/-- `Drain::split`, lit/src/test/list.rs:302-311. -/
def split (t : TestList α) : P (TestList α × Option (TestList α)) :=
  if t.len < 2 then pure (t, none)
  else do
    let (a, b) ← t.splitAt (t.len / 2)
    pure (a, some b)

/-- Consuming a `Drain` from the front, lit/src/test/list.rs:266-268: `next` until it yields nothing.
(`fuel` bounds the recursion; `C45_drain` shows the list's own length suffices.) -/
def drain : Nat → TestList α → P (List α)
  | 0, _ => pure []
  | n + 1, t => do
    let (x, t) ← t.popFront
    match x with
    | none => pure []
    | some x => do
      let xs ← drain n t
      pure (x :: xs)

end TestList

/-- How a parallel run splits its work: at a leaf the piece is consumed sequentially. -/
inductive Splits where
  | leaf
  | node (l r : Splits)
  deriving DecidableEq, Repr

namespace TestList
variable {α : Type}

/-- `rayon::iter::plumbing::bridge` (external crate), reached through `drive` and `drive_unindexed`,
lit/src/test/list.rs:323-328,336-341: a piece believed to hold `len` items is cut at `len / 2` when
the scheduler decides to split (which it may only do while `len / 2 >= 1`), and the two halves are
believed to hold `len / 2` and `len - len / 2` items.  The scheduler's decisions are the
tree; the result is the sequence of tests in the order in which the pieces are joined. -/
def bridge : Splits → Nat → TestList α → P (List α)
  | .leaf, _, t => drain (t.tests.length + 1) t
  | .node l r, len, t =>
    if len / 2 ≥ 1 then do
      let (a, b) ← t.splitAt (len / 2)
      let xs ← bridge l (len / 2) a
      let ys ← bridge r (len - len / 2) b
      pure (xs ++ ys)
    else drain (t.tests.length + 1) t

/-- `rayon::iter::plumbing::bridge_unindexed` (external crate): splits with `Drain::split`, as often as
the scheduler likes. -/
def bridgeUnindexed : Splits → TestList α → P (List α)
  | .leaf, t => drain (t.tests.length + 1) t
  | .node l r, t => do
    let (a, b) ← t.split
    match b with
    | none => drain (a.tests.length + 1) a
    | some b => do
      let xs ← bridgeUnindexed l a
      let ys ← bridgeUnindexed r b
      pure (xs ++ ys)

end TestList
end Litcheck
