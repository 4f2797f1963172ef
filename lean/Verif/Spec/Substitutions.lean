import Verif.Model.Substitutions

/-!
# What substituting means, independently of how the code does it
-/

namespace Litcheck.SubSpec

/-- The value last given to `k` in a history of definitions. -/
def lastOf (k : Str) (defs : List (Str × Str)) : Option Str :=
  (defs.reverse.find? fun kv => kv.1 == k).map (·.2)

/-- The definitions made by the DEFINE and REDEFINE directives among the commands, in order. -/
def definitions (cmds : List Cmd) : List (Str × Str) :=
  cmds.filterMap fun
    | .run _ => none
    | .subst d => some (d.key, d.value)

/-- No text `needle` in `s`. -/
def Free (needle s : Str) : Prop := ¬∃ a b, s = a ++ needle ++ b

/-- `Replaced k r s t`: `t` is `s` with the occurrences of `k`, taken from left to right, replaced by `r`. -/
inductive Replaced (k r : Str) : Str → Str → Prop
  | done (s : Str) : Free k s → Replaced k r s s
  | next (a s t : Str) : (∀ b c, a ++ k = b ++ k ++ c → c = []) → Replaced k r s t →
      Replaced k r (a ++ k ++ s) (a ++ r ++ t)

/-- `ReplacedEach kvs s t`: `t` is `s` with the keys replaced, one after the other. -/
inductive ReplacedEach : List (Str × Str) → Str → Str → Prop
  | nil (s : Str) : ReplacedEach [] s s
  | cons (k r s t u : Str) (kvs : List (Str × Str)) : Replaced k r s t → ReplacedEach kvs t u →
      ReplacedEach ((k, r) :: kvs) s u

/-- The regular expression `p` matches just the text `k`, and the template `r` stands for itself. -/
def LiteralFor (rx : SubRx) (p r k : Str) : Prop :=
  rx.compiles p = true ∧
  ∀ s, (Free k s → rx.replaceAll p r s = none) ∧ (¬Free k s → ∃ t, rx.replaceAll p r s = some t ∧ Replaced k r s t)

/-- `text` cut at its escaped percent signs, read from left to right. -/
def Pieces (text : Str) (ps : List Str) : Prop :=
  text = ['%', '%'].intercalate ps ∧ ps ≠ [] ∧ (∀ p ∈ ps, Free ['%', '%'] p) ∧
  ∀ p ∈ ps.dropLast, p.getLast? ≠ some '%'

end Litcheck.SubSpec
