import Verif.Model.Sets

/-!
# The value of `@LINE`: `filecheck/src/context.rs:44-49`

Tokens carry no positions in the model of the lexer. Here the positions of the patterns are kept, as the text which is left there. The name after an `@` lies
between its pattern's beginning and the end of the line.
-/

namespace Litcheck.Lex

/-- The text from the pattern of each check on, in the order in which `Lexer::tokenize` (`filecheck/src/parse/lexer/mod.rs:177-255`) meets them; the steps are those
of `tokens`. -/
def rests (cfg : Cfg) : Nat → Bool → Str → List Str
  | 0, _, _ => []
  | _ + 1, _, [] => []
  | n + 1, bol, c :: r =>
    if c = '\x00' then []
    else
      let ws := (c :: r).takeWhile isAsciiWs
      match search cfg (if ws = [] then bol else ws.getLast? == some '\n') ((c :: r).dropWhile isAsciiWs) with
      | none => []
      | some h => (if h.ty = .comment then [] else [h.rest]) ++ rests cfg n false (h.rest.dropWhile (· != '\n'))

/-- `pseudo_line_for_offset`, `filecheck/src/context.rs:44-49`. The code counts in bytes; a line feed is one byte, and offsets of tokens are
between characters. -/
def pseudoLine (text : Str) (offset : Nat) : Nat := (text.take (min text.length offset)).count '\n' + 1

/-- The value of `@LINE` for each check: `searcher.rs:635-637` (`filecheck/src/pattern/matcher/matchers/smart/searcher.rs:635-637`) passes the offset of the name to `pseudo_line_for_offset`; here it is the
offset of the pattern. -/
def checkLines (cfg : Cfg) (text : Str) : List Nat :=
  (rests cfg (text.length + 1) true text).map fun r => pseudoLine text (text.length - r.length)

end Litcheck.Lex

namespace Litcheck.Sets

open Litcheck.Smart Litcheck.Pattern

/-- `Test::verify`, `filecheck/src/test/mod.rs:96-113`, with the value of `@LINE` taken from the text. -/
def verifyCheckFile (run : Run) (imp : List Str) (cfg : Lex.Cfg) (allowUnused : Bool) (text : Str) (env : Smart.Vars) (b : Buf) :
    Except Lex.PErr (P Verdict) :=
  verifyText { run with lineOf := fun i => (Lex.checkLines cfg text)[i]?.getD 0 } imp cfg allowUnused text env b

end Litcheck.Sets
