import Verif.Spec.Matching

/-!
# Specification: an input satisfies a check file

One layout for all the properties C01, C03 – C09 and C53 together.
-/

namespace Litcheck.Spec
variable {E : Type}

/-- The input satisfies the blocks of a check file: `region k` is the part of the input which belongs to block `k`, `lab k` the place
of its label, `place k i` the place where its line `i` is matched, `envs k i` the variables before it. -/
structure Satisfies (mean : Line E → Meaning E) (b : Buf) (enter : E → E) (env : E) (blocks : List (Option (Line E) × List (Line E)))
    (region lab : Nat → Nat × Nat) (place : Nat → Nat → Nat × Nat) (envs : Nat → Nat → E) : Prop where
  /-- every line which requires a match has one, in the region of its block -/
  matching : Matching mean b blocks region place
  /-- C01: matches are in the order of the lines -/
  order : ∀ k blk i j, blocks[k]? = some blk → i < j → Pos blk.2 i → Pos blk.2 j → ¬ DagRun blk.2 i j → (place k i).2 ≤ (place k j).1
  /-- C03: a `CHECK-NEXT` is matched on the next line -/
  next : ∀ k blk i l p, blocks[k]? = some blk → blk.2[i]? = some l → l.kind = .next → EndBefore blk.2 (place k) (region k).1 i p →
    p ≤ (place k i).1 ∧ lfCount b p (place k i).1 = 1 ∧ NoLF b (place k i).1 (place k i).2
  /-- C04: a `CHECK-SAME` is matched on the same line -/
  same : ∀ k blk i l p, blocks[k]? = some blk → blk.2[i]? = some l → l.kind = .same → EndBefore blk.2 (place k) (region k).1 i p →
    p ≤ (place k i).1 ∧ NoLF b p (place k i).2
  /-- C05: the line of a `CHECK-EMPTY` is empty -/
  empty : ∀ k blk i l p, blocks[k]? = some blk → blk.2[i]? = some l → l.kind = .empty → EndBefore blk.2 (place k) (region k).1 i p →
    EmptyNext b p (place k i).1 ∧ (place k i).2 = (place k i).1
  /-- C06: a `CHECK-NOT` pattern does not occur between the matches around it -/
  absent : ∀ k blk i l p n, blocks[k]? = some blk → blk.2[i]? = some l → l.kind = .not → EndBefore blk.2 (place k) (region k).1 i p →
    StartAfter blk.2 (place k) (region k).2 i n → Absent (mean l) b p n
  /-- C07: a `CHECK-COUNT-n` is matched `n` times -/
  count : ∀ k blk i l n p, blocks[k]? = some blk → blk.2[i]? = some l → l.kind = .count n → EndBefore blk.2 (place k) (region k).1 i p →
    Chain (mean l) b (region k).2 n p (envs k i) (place k i).1 (place k i).2 (envs k (i + 1))
  /-- C08: matches do not overlap -/
  disjoint : ∀ k blk i j, blocks[k]? = some blk → i ≠ j → Pos blk.2 i → Pos blk.2 j → Disjoint (place k i) (place k j)
  /-- C09: the label of a block is on the line before its region -/
  label : ∀ k l ls, blocks[k]? = some (some l, ls) → LabelAt (mean l) env b 0 (lab k).1 (lab k).2 ∧ LineEnd b (lab k).1 (region k).1
  /-- C09: a region stops before the line of the next label -/
  stop : ∀ k l ls, blocks[k + 1]? = some (some l, ls) → (region k).1 ≤ (lab (k + 1)).1 ∧ PrevLineEnd b (lab (k + 1)).1 (region k).2
  /-- C09: the first region starts where the input starts, unless it has a label -/
  first : ∀ ls, blocks[0]? = some (none, ls) → (region 0).1 = 0
  /-- C09: the last region stops where the input stops -/
  last : ∀ k, k + 1 = blocks.length → (region k).2 = b.length
  /-- C53: the variables at the start of the first block -/
  entry : envs 0 0 = enter env
  /-- C53: a further block starts with the variables left by the last line of the block before -/
  chain : ∀ k blk blk', blocks[k]? = some blk → blocks[k + 1]? = some blk' → envs (k + 1) 0 = enter (envs k blk.2.length)
  /-- C53: a line is matched with the variables left by the line before it -/
  vars : ∀ k blk i l, blocks[k]? = some blk → blk.2[i]? = some l → l.kind = .plain ∨ l.kind = .next ∨ l.kind = .same →
    mean l (envs k i) b (place k i).1 (place k i).2 (envs k (i + 1))
  /-- C53: the other lines bind no variables -/
  keep : ∀ k blk i l, blocks[k]? = some blk → blk.2[i]? = some l → l.kind = .not ∨ l.kind = .empty → envs k (i + 1) = envs k i
  /-- C53: a group of `CHECK-DAG` lines binds no variables if none of its lines does -/
  dags : ∀ k blk i l, blocks[k]? = some blk → blk.2[i]? = some l → l.kind = .dag →
    (∀ j l', blk.2[j]? = some l' → SameDags blk.2 i j → BindsNothing (mean l')) → envs k (i + 1) = envs k i
  /-- C53: the lines of a group of `CHECK-DAG` lines are matched with the variables left by the match before, in the order of their places -/
  groups : ∀ k blk i n, blocks[k]? = some blk → WholeGroup blk.2 i n → ∃ order : List Nat, order.Perm (List.range' i n) ∧
    order.Pairwise (fun p q => (place k p).2 ≤ (place k q).1) ∧
    InTurn (blk.2.map mean) b (place k) order (envs k i) (envs k (i + n))

end Litcheck.Spec
