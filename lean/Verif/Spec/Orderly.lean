import Verif.Model.Program

/-!
# Specification: arrangements of directives which cannot disturb the checker
-/

namespace Litcheck.Spec

/-- A `CHECK-DAG` group, alone or with the `CHECK` or `CHECK-COUNT` line after it, which is directly followed by a `CHECK-NOT`, is not followed by
anything but `CHECK-NOT` lines. -/
def DagsBeforeNots (ks : List Kind) : Prop :=
  ∀ pre opt post, ks = pre ++ Kind.dag :: (opt ++ Kind.not :: post) → (opt = [] ∨ opt = [.plain] ∨ ∃ n, opt = [.count n]) →
    ∀ k ∈ post, k = .not

/-- The directives which a block may have. `last`: the block is the last of the check file; `lineEnd`: the block ends with a whole line (it is the
last one, or it begins with a label). -/
structure Orderly (last lineEnd : Bool) (ks : List Kind) : Prop where
  dags : DagsBeforeNots ks
  next : Kind.next ∈ ks ∨ Kind.empty ∈ ks → last = true
  same : Kind.same ∈ ks → lineEnd = true

/-- The same, of a whole check file: the directives of its lines in order. `imp`: there are `--implicit-check-not` patterns. -/
structure OrderlyFile (imp : Bool) (ks : List Kind) : Prop where
  /-- `CHECK-NEXT` and `CHECK-EMPTY` only after the last label. -/
  next : ∀ a k c, ks = a ++ k :: c → k = .next ∨ k = .empty → Kind.label ∉ c
  /-- `CHECK-SAME` not before the first label. -/
  same : ∀ a c, ks = a ++ Kind.same :: c → Kind.label ∈ a ∨ Kind.label ∉ c
  /-- Between a `CHECK-DAG` group with a `CHECK-NOT` after it and the next label there is nothing more. -/
  dags : ∀ pre opt post, ks = pre ++ Kind.dag :: (opt ++ Kind.not :: post) → (opt = [] ∨ opt = [.plain] ∨ ∃ n, opt = [.count n]) →
    ∀ a k c, post = a ++ k :: c → Kind.label ∉ a ++ [k] → k = .not
  implicit : imp = true → Kind.dag ∉ ks
  count : Kind.count 0 ∉ ks

end Litcheck.Spec
