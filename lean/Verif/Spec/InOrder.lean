import Verif.Spec.Literal

/-!
# Specification: literals which occur in order
-/

namespace Litcheck.Spec

/-- The literals occur in the buffer in this order, without overlapping, at or after `pos`. -/
inductive InOrder (ignoreCase : Bool) (b : Buf) : Nat → List Buf → Prop
  | nil {pos} : InOrder ignoreCase b pos []
  | cons {pos s e lit lits} : pos ≤ s → Occurs ignoreCase lit b s e → InOrder ignoreCase b e lits →
      InOrder ignoreCase b pos (lit :: lits)

end Litcheck.Spec
