/-!
# What a list of tests should do

Written against plain sequences only; nothing here mentions the model.
-/

namespace Litcheck.ListSpec
variable {α : Type}

/-- Operations on a double-ended list. -/
inductive Op (α : Type) where
  | push (x : α)
  | popFront
  | popBack
  | append (ys : List α)
  | clear

/-- What each operation returns and leaves, on a plain sequence. -/
def step : Op α → List α → Option α × List α
  | .push x, l => (none, l ++ [x])
  | .popFront, l => (l.head?, l.tail)
  | .popBack, l => (l.getLast?, l.dropLast)
  | .append ys, l => (none, l ++ ys)
  | .clear, _ => (none, [])

/-- A history of operations: everything returned, and what is left. -/
def run : List (Op α) → List α → List (Option α) × List α
  | [], l => ([], l)
  | o :: os, l => ((step o l).1 :: (run os (step o l).2).1, (run os (step o l).2).2)

/-- Operations through an editing cursor.  A cursor on a sequence of `n` elements stands at a
position `0 .. n`; position `n` is the gap behind the last and before the first element. -/
inductive COp (α : Type) where
  | next
  | prev
  | remove
  | insertAfter (x : α)
  | insertBefore (x : α)
  | splitAfter

/-- What a cursor operation returns (a removed element, or the elements split off). -/
inductive Ret (α : Type) where
  | nothing
  | elem (x : Option α)
  | piece (l : List α)

/-- What each cursor operation does to the sequence and the position. -/
def cstep : COp α → List α × Nat → Ret α × List α × Nat
  | .next, (l, i) => (.nothing, l, if i = l.length then 0 else i + 1)
  | .prev, (l, i) => (.nothing, l, if i = 0 then l.length else i - 1)
  | .remove, (l, i) => (.elem l[i]?, l.eraseIdx i, i)
  | .insertAfter x, (l, i) =>
    if i = l.length then (.nothing, x :: l, i + 1)
    else (.nothing, l.take (i + 1) ++ x :: l.drop (i + 1), i)
  | .insertBefore x, (l, i) => (.nothing, l.take i ++ x :: l.drop i, i + 1)
  | .splitAfter, (l, i) =>
    if i = l.length then (.piece l, [], 0)
    else (.piece (l.drop (i + 1)), l.take (i + 1), i)

/-- A history of cursor operations. -/
def crun : List (COp α) → List α × Nat → List (Ret α) × List α × Nat
  | [], s => ([], s)
  | o :: os, s => ((cstep o s).1 :: (crun os (cstep o s).2).1, (crun os (cstep o s).2).2)

end Litcheck.ListSpec
