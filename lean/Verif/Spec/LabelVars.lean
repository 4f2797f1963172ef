import Verif.Model.Parser

/-! What it means that the pattern of a check line mentions a variable. -/

namespace Litcheck.Lex

/-- `[[X]]`, `[[X:…]]`, and numeric blocks with a variable (`[[#X:]]`) or an expression (`[[#X]]`, `[[#@LINE]]`, `[[#1+2]]`);
not text, `{{…}}` and numeric blocks which only ask for a number (`[[#]]`, `[[#%x]]`). -/
def MentionsVar : Part → Prop
  | .literal _ | .regex _ => False
  | .match_ (.substitution _ _) => True
  | .match_ (.numeric _ cap e) => cap ≠ none ∨ e ≠ none

end Litcheck.Lex
