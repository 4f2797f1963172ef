import Verif.Model.Program
import Verif.Spec.Lines

/-!
# Specification: how the lines of a check file are divided

`Line` and `Kind` are the parsed directives of the check file.
-/

namespace Litcheck.Spec
variable {E : Type}

/-- The lines before the first `CHECK-LABEL`, and, for each `CHECK-LABEL`, the lines which follow it up to
the next one. -/
def splitLabels : List (Line E) → List (Line E) × List (Line E × List (Line E))
  | [] => ([], [])
  | l :: ls =>
    if l.kind = .label then ([], (l, (splitLabels ls).1) :: (splitLabels ls).2)
    else (l :: (splitLabels ls).1, (splitLabels ls).2)

/-- Every line which is not a `CHECK-NOT` is followed by the implicit `CHECK-NOT`, if there is one. -/
def withImplicit (imp : Option (Line E)) (l : Line E) : List (Line E) :=
  if l.kind = .not then [l] else l :: imp.toList

/-- The lines before the first label, with the implicit `CHECK-NOT` in every gap. -/
def headLines (imp : Option (Line E)) (lines : List (Line E)) : List (Line E) :=
  imp.toList ++ (splitLabels lines).1.flatMap (withImplicit imp)

/-- The block of the lines before the first label, if there are any. -/
def headBlocks (ls : List (Line E)) : List (Option (Line E) × List (Line E)) :=
  if ls.isEmpty then [] else [(none, ls)]

/-- The directives which do not look at the lines of the input: `CHECK`, `CHECK-COUNT`, `CHECK-DAG` and `CHECK-NOT`. -/
def FreeOfLines (k : Kind) : Prop := k = .plain ∨ k = .not ∨ k = .dag ∨ ∃ n, k = .count n

/-- The first line of the input does not end with CRLF, or no directive of the check file looks at the lines of the input. -/
def Readable (kinds : List Kind) (b : Buf) : Prop := LFMode b ∨ ∀ k ∈ kinds, FreeOfLines k

end Litcheck.Spec
