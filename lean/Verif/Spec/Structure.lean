import Verif.Spec.Matching
import Verif.Model.Check

/-!
# Specification: which lines of a check file a compiled group holds

`GroupOf sc g ls`: the group `g` holds exactly the lines `ls`, each once, in this order.  The only thing which
is looked up is the compiled pattern of the lines (`sc` for sets of `CHECK-NOT` and `CHECK-DAG` lines).
-/

namespace Litcheck.Spec
variable {E : Type}

/-- The rule of a line which is neither a `CHECK-NOT` nor a `CHECK-DAG` nor a `CHECK-LABEL`: the kind of the
rule is the kind of the line, and its pattern is the pattern of the line. -/
inductive RuleOf : Rule E → Line E → Prop
  | plain {l} : l.kind = .plain → RuleOf (.plain l.pat) l
  | next {l} : l.kind = .next → RuleOf (.next l.pat) l
  | same {l} : l.kind = .same → RuleOf (.same l.pat) l
  | empty {l} : l.kind = .empty → RuleOf (.empty l.pat.pspan) l

mutual
/-- The lines of a group. -/
inductive GroupOf (sc : SetCompiler E) : Group E → List (Line E) → Prop
  /-- a set of `CHECK-NOT` lines -/
  | never {p ls} : ls ≠ [] → (∀ l ∈ ls, l.kind = .not) → sc.nots ls = .ok (some p) → GroupOf sc (.never p) ls
  /-- a set of `CHECK-DAG` lines -/
  | unordered {d ls} : ls ≠ [] → (∀ l ∈ ls, l.kind = .dag) → sc.dags ls = .ok (some d) → GroupOf sc (.unordered d) ls
  /-- a set of `CHECK-DAG` lines and the line which follows it -/
  | bounded {d ls g ls'} : ls ≠ [] → (∀ l ∈ ls, l.kind = .dag) → sc.dags ls = .ok (some d) → GroupOf sc g ls' →
      GroupOf sc (.bounded d g) (ls ++ ls')
  | ordered {rules ls} : ls ≠ [] → List.Forall₂ RuleOf rules ls → GroupOf sc (.ordered rules) ls
  | repeated {n l} : l.kind = .count n → GroupOf sc (.repeated (.plain l.pat) n) [l]
  | tree {t ls} : TreeOf sc t ls → GroupOf sc (.tree t) ls
/-- The lines of a tree, from left to right. -/
inductive TreeOf (sc : SetCompiler E) : Tree E → List (Line E) → Prop
  | matchAll {g ls} : GroupOf sc g ls → TreeOf sc (.matchAll g) ls
  | matchAround {root left right ls l r} : ls ≠ [] → (∀ l ∈ ls, l.kind = .not) → sc.nots ls = .ok (some root) →
      TreeOf sc left l → TreeOf sc right r → TreeOf sc (.matchAround root left right) (l ++ ls ++ r)
  | matchBefore {root left ls l} : ls ≠ [] → (∀ l ∈ ls, l.kind = .not) → sc.nots ls = .ok (some root) →
      TreeOf sc left l → TreeOf sc (.matchBefore root left) (l ++ ls)
  | matchAfter {root right ls r} : ls ≠ [] → (∀ l ∈ ls, l.kind = .not) → sc.nots ls = .ok (some root) →
      TreeOf sc right r → TreeOf sc (.matchAfter root right) (ls ++ r)
end

/-- The lines of a list of groups. -/
def GroupsOf (sc : SetCompiler E) (gs : List (Group E)) (ls : List (Line E)) : Prop :=
  ∃ lss, List.Forall₂ (GroupOf sc) gs lss ∧ ls = lss.flatten

/-- The blocks of lines of a compiled program. -/
inductive ProgramOf (sc : SetCompiler E) : List (Section E) → List (Option (Line E) × List (Line E)) → Prop
  | nil : ProgramOf sc [] []
  | block {l ls gs prog bs} : GroupsOf sc gs ls → ProgramOf sc prog bs →
      ProgramOf sc (.block l.pat gs :: prog) ((some l, ls) :: bs)
  | groups {ls gs prog bs} : GroupsOf sc gs ls → ProgramOf sc prog bs →
      ProgramOf sc (gs.map .group ++ prog) ((none, ls) :: bs)

/-- The lines of a check file, from its blocks. -/
def allLines (blocks : List (Option (Line E) × List (Line E))) : List (Line E) :=
  blocks.flatMap fun x => x.1.toList ++ x.2

end Litcheck.Spec
