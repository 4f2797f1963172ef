import Verif.Spec.Check

/-!
# Specification: occurrences of literals
-/

namespace Litcheck.Spec

/-- The two bytes are equal, or, when case is ignored, they are the same ASCII letter in different case. -/
def SameLetter (ignoreCase : Bool) (x y : UInt8) : Prop :=
  x = y ∨ (ignoreCase = true ∧
    ((65 ≤ x.toNat ∧ x.toNat ≤ 90 ∧ y.toNat = x.toNat + 32) ∨ (65 ≤ y.toNat ∧ y.toNat ≤ 90 ∧ x.toNat = y.toNat + 32)))

/-- The literal occurs in the buffer at offset `s`. -/
def OccursAt (ignoreCase : Bool) (lit b : Buf) (s : Nat) : Prop :=
  ∀ i x, lit[i]? = some x → ∃ y, b[s + i]? = some y ∧ SameLetter ignoreCase x y

/-- The literal occurs in the buffer at `s ≤ i < e`. -/
def Occurs (ignoreCase : Bool) (lit b : Buf) (s e : Nat) : Prop :=
  e = s + lit.length ∧ OccursAt ignoreCase lit b s

/-- The meaning of a literal pattern: it matches where it occurs, and binds nothing. -/
def litMeaning {E : Type} (ignoreCase : Bool) (lit : Buf) : Meaning E :=
  fun env b s e env' => env' = env ∧ Occurs ignoreCase lit b s e

end Litcheck.Spec
