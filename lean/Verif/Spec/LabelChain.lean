import Verif.Spec.Labels

/-!
# Specification: labels which are found one after the other
-/

namespace Litcheck.Spec
variable {E : Type}

/-- The labels occur in this order, each at or after the end of the line of the one before; the first one
at or after `pos`. -/
inductive LabelChain (b : Buf) (env : E) : Nat → List (Meaning E) → Prop
  | nil {pos} : LabelChain b env pos []
  | cons {pos m ms s e eol} : LabelAt m env b pos s e → LineEnd b s eol → LabelChain b env eol ms →
      LabelChain b env pos (m :: ms)

/-- The `CHECK-LABEL` lines of a check file. -/
def labelLines (lines : List (Line E)) : List (Line E) := lines.filter fun l => l.kind == .label

end Litcheck.Spec
