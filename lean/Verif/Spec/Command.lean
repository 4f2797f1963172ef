import Verif.Model.Command

/-!
# What the `filecheck` command is given
-/

namespace Litcheck.CommandSpec
open Litcheck.Command

/-- The text which a path stands for: `-` is the standard input. -/
def Given (w : World) (path text : Str) : Prop :=
  (path = ['-'] ∧ w.stdin = some text) ∨ (path ≠ ['-'] ∧ w.file path = some text)

/-- The texts of the check file and of the input, which is read after it. There is nothing left of the standard input when it was read. -/
def GivenBoth (w : World) (checkFile inputFile check input : Str) : Prop :=
  Given w checkFile check ∧ ((checkFile = ['-'] ∧ inputFile = ['-'] ∧ input = []) ∨ (¬ (checkFile = ['-'] ∧ inputFile = ['-']) ∧ Given w inputFile input))

/-- The prefix was accepted on the command line; `alnum` are the letters and digits. -/
def Accepted (alnum : Char → Bool) (p : Str) : Prop :=
  (∃ c r, p = c :: r ∧ c.isAlpha = true) ∧ ∀ c ∈ p, alnum c = true ∨ c = '_' ∨ c = '-'

/-- The prefixes are as the command line admits them, and each is given once. -/
structure OptionsOk (alnum : Char → Bool) (o : Options) : Prop where
  check : ∀ p ∈ o.checkPrefixes, Accepted alnum p
  comment : ∀ p ∈ o.commentPrefixes, Accepted alnum p
  once : o.checkPrefixes.Nodup

/-- `o'` is `o` with the prefixes in another order, or given several times. -/
structure SameUpToOrder (o o' : Options) : Prop where
  check : ∀ p, p ∈ o'.checkPrefixes ↔ p ∈ o.checkPrefixes
  comment : ∀ p, p ∈ o'.commentPrefixes ↔ p ∈ o.commentPrefixes
  rest : o' = { o with checkPrefixes := o'.checkPrefixes, commentPrefixes := o'.commentPrefixes }

/-- Somewhere in the text there is a directive with this prefix: at the start of a line, or after white space, and before a colon, a modifier or the rest of the name. -/
def Mentions (text p : Str) : Prop :=
  ∃ a c b, text = a ++ (p ++ c :: b) ∧ (c = ':' ∨ c = '{' ∨ c = '-') ∧ (a = [] ∨ ∃ a' x, a = a' ++ [x] ∧ BParse.isWs x = true)

end Litcheck.CommandSpec
