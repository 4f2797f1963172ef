import Verif.Model.Text

/-!
# `@LINE` and reading of inputs
-/

namespace Litcheck

/-- `memchr::memchr_iter` (external crate): the indices of all occurrences. -/
def memchrIter (x : UInt8) (b : Buf) : List Nat := (List.range b.length).filter fun i => b[i]? == some x

/-- `filecheck/src/context.rs:45-49` `pseudo_line_for_offset`. -/
def pseudoLineForOffset (file : Buf) (offset : Nat) : Nat :=
  (memchrIter LF (file.take (min file.length offset))).length + 1

/-- `BufRead::lines` (standard library): split at line feeds, one carriage return before a line feed is removed too;
a last line without line feed counts if it is not empty. `cur` is the line read so far. -/
def bufLines : Buf → Buf → List Buf
  | [], cur => if cur.isEmpty then [] else [cur]
  | x :: xs, cur =>
    if x == LF then (if cur.getLast? == some CR then cur.dropLast else cur) :: bufLines xs []
    else bufLines xs (cur ++ [x])

/-- `core/src/input.rs:140-168` `Input::read_to_string` of a file with these bytes (valid UTF-8; i/o errors are not
modelled): the lines are joined with line feeds unless `strict`. -/
def readToString (content : Buf) (strict : Bool) : Buf :=
  if strict then content
  else (bufLines content []).zipIdx.foldl (fun acc x => (if x.2 > 0 then acc ++ [LF] else acc) ++ x.1) []

end Litcheck
