import Verif.Spec.Check

/-!
# Specification: inputs divided into blocks by labels
-/

namespace Litcheck.Spec
variable {E : Type}

/-- `n` is the last line feed before `pos`. -/
def LastLF (b : Buf) (pos n : Nat) : Prop := n < pos ∧ IsLF b n ∧ NoLF b (n + 1) pos

/-- The end of the line which contains `pos`. -/
def LineEnd (b : Buf) (pos e : Nat) : Prop := FirstLF b pos e ∨ (NoLF b pos b.length ∧ e = b.length)

/-- The end of the line before the one which contains `pos` (the start of the input if there is none). -/
def PrevLineEnd (b : Buf) (pos e : Nat) : Prop := LastLF b pos e ∨ (NoLF b 0 pos ∧ e = 0)

/-- A label is found at `s ≤ i < e`, at or after `from_`: its match is not empty and lies on one line. -/
def LabelAt (m : Meaning E) (env : E) (b : Buf) (from_ s e : Nat) : Prop :=
  from_ ≤ s ∧ s < e ∧ e ≤ b.length ∧ NoLF b s e ∧ ∃ env', m env b s e env'

/-- `Blocks b enter env0 lo env ds rest`: the block which starts at `lo`, whose directives are `ds`, and the
labelled blocks `rest` which follow it are satisfied.  The block ends at the end of the line before the
next label; the block of a label starts at the end of the line of the label.  `enter` is what happens to
the variables at the start of a block, and labels are matched in `env0`. -/
inductive Blocks (b : Buf) (enter : E → E) (env0 : E) :
    Nat → E → List (Directive E) → List (Meaning E × List (Directive E)) → Prop
  | last {lo env ds pos' env'} : Run b b.length lo (enter env) [] ds pos' env' → Blocks b enter env0 lo env ds []
  | label {lo env ds m ds' rest s e hi eol pos' env'} : LabelAt m env0 b lo s e → PrevLineEnd b s hi → lo ≤ hi →
      Run b hi lo (enter env) [] ds pos' env' → LineEnd b s eol → Blocks b enter env0 eol env' ds' rest →
      Blocks b enter env0 lo env ds ((m, ds') :: rest)

/-- The whole input: the directives before the first label (none if the list starts with a label, in which
case nothing is required of the input before that label), and the labelled blocks. -/
inductive Satisfied (b : Buf) (enter : E → E) (env0 : E) :
    List (Directive E) → List (Meaning E × List (Directive E)) → Prop
  | head {ds rest} : ds ≠ [] → Blocks b enter env0 0 env0 ds rest → Satisfied b enter env0 ds rest
  | noHead {m ds rest s e eol} : LabelAt m env0 b 0 s e → LineEnd b s eol → Blocks b enter env0 eol env0 ds rest →
      Satisfied b enter env0 [] ((m, ds) :: rest)

end Litcheck.Spec
