import Verif.Spec.Placement
import Verif.Spec.Program

/-!
# Specification: where the lines of a check file are matched

The lines of a check file are divided into blocks by the `CHECK-LABEL` lines (`fileBlocks`).  `region k` is
the part of the input which belongs to block `k`, and `place k i` the span of the input where line `i` of
block `k` is matched.
-/

namespace Litcheck.Spec
variable {E : Type}

/-- The blocks of a check file: each with its `CHECK-LABEL` line, if it has one, and its other lines. -/
def fileBlocks (imp : Option (Line E)) (lines : List (Line E)) : List (Option (Line E) × List (Line E)) :=
  headBlocks (headLines imp lines) ++ (splitLabels lines).2.map (fun x => (some x.1, imp.toList ++ x.2))

/-- Line number `i` requires a match (it is not a `CHECK-NOT`). -/
def Pos (ls : List (Line E)) (i : Nat) : Prop := ∃ l, ls[i]? = some l ∧ l.kind ≠ .not

/-- Lines number `i` to `j` are consecutive `CHECK-DAG` lines. -/
def DagRun (ls : List (Line E)) (i j : Nat) : Prop := ∀ k, i ≤ k → k ≤ j → ∃ l, ls[k]? = some l ∧ l.kind = .dag

/-- Lines number `i` and `j` are of one group of consecutive `CHECK-DAG` lines. -/
def SameDags (ls : List (Line E)) (i j : Nat) : Prop := (i ≤ j ∧ DagRun ls i j) ∨ (j ≤ i ∧ DagRun ls j i)

/-- The lines with the numbers `i`, …, `i + n - 1` are all the `CHECK-DAG` lines of a group. -/
def WholeGroup (ls : List (Line E)) (i n : Nat) : Prop :=
  (∀ k, k < n → ∃ l, ls[i + k]? = some l ∧ l.kind = .dag) ∧ (∀ j l, i = j + 1 → ls[j]? = some l → l.kind ≠ .dag) ∧
  ∀ l, ls[i + n]? = some l → l.kind ≠ .dag

/-- `p` is the end of what was matched before line `i` (the start `lo` of the block if nothing was). -/
def EndBefore (ls : List (Line E)) (place : Nat → Nat × Nat) (lo i p : Nat) : Prop :=
  lo ≤ p ∧ (∀ j, j < i → Pos ls j → (place j).2 ≤ p) ∧ (p = lo ∨ ∃ j, j < i ∧ Pos ls j ∧ (place j).2 = p)

/-- `n` is the start of the next match after line `i` (the end `hi` of the block if there is none). -/
def StartAfter (ls : List (Line E)) (place : Nat → Nat × Nat) (hi i n : Nat) : Prop :=
  n ≤ hi ∧ (∀ j, i < j → Pos ls j → n ≤ (place j).1) ∧ (n = hi ∨ ∃ j, i < j ∧ Pos ls j ∧ (place j).1 = n)

/-- The pattern of a line, which is not a `CHECK-NOT` or a `CHECK-EMPTY`, matches the span. -/
def Hit (mean : Line E → Meaning E) (b : Buf) (l : Line E) (sp : Nat × Nat) : Prop :=
  match l.kind with
  | .count n => ∃ env env', Chain (mean l) b b.length n 0 env sp.1 sp.2 env'
  | _ => ∃ env env', mean l env b sp.1 sp.2 env'

/-- Every block has its region, the regions follow each other, and every line which requires a match is
matched inside the region of its block. -/
structure Matching (mean : Line E → Meaning E) (b : Buf) (blocks : List (Option (Line E) × List (Line E)))
    (region : Nat → Nat × Nat) (place : Nat → Nat → Nat × Nat) : Prop where
  ok : ∀ k blk, blocks[k]? = some blk → (region k).1 ≤ (region k).2 ∧ (region k).2 ≤ b.length
  apart : ∀ k k', k < k' → k' < blocks.length → (region k).2 ≤ (region k').1
  inside : ∀ k blk i, blocks[k]? = some blk → Pos blk.2 i →
    (region k).1 ≤ (place k i).1 ∧ (place k i).1 ≤ (place k i).2 ∧ (place k i).2 ≤ (region k).2
  hit : ∀ k blk i l, blocks[k]? = some blk → blk.2[i]? = some l → l.kind ≠ .not → l.kind ≠ .empty →
    Hit mean b l (place k i)

end Litcheck.Spec
