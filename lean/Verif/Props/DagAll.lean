import Verif.Proofs.DagAll

/-! # Groups of `CHECK-DAG` with literals: nothing is left out of the results -/

namespace Litcheck

open Spec

variable {E : Type}

/-- Some text for the example. -/
def dagExample : List (Buf × Nat) := [("ab".toUTF8.toList, 0), ("zz".toUTF8.toList, 1), ("a".toUTF8.toList, 2)]

/-- **C08**: a group of distinct non-empty literals is searched to its end, and every pattern is accounted for: `found` are matches of different
patterns, which do not overlap and lie inside the region searched, each being an occurrence of its pattern; and the results are
these matches and one failure for each of the patterns that were not found, no more and no fewer. -/
theorem C08_dag_accounted {lits : List (Buf × Nat)} (hne : ∀ x ∈ lits, x.1 ≠ []) (hl : lits ≠ []) (b : Buf) (r : Rng) (env : E) :
    ∃ ms pos env', (litDag lits : Dag E).run b r env = some (ms, pos, env') ∧
      ∃ found : List Info,
        (∀ i ∈ found, r.start ≤ i.start ∧ i.start < i.stop ∧ i.stop ≤ r.stop ∧
          ∃ x, lits[i.pid]? = some x ∧ Occurs false x.1 b i.start i.stop) ∧
        found.Pairwise (fun i j => i.stop ≤ j.start) ∧ (found.map Info.pid).Nodup ∧ found.length ≤ lits.length ∧
        ms.Perm (found.map .ok ++ List.replicate (lits.length - found.length) matchNone) := by
  have hpos : 0 < lits.length := List.length_pos_iff.2 hl
  obtain ⟨ms, pos, found, e, h1, v, h2, h3⟩ := visitLoop_all hne (b := b) (stop := r.stop) (lo := r.start) (r.stop - r.start + 1) r.start []
    ⟨Nat.le_refl _, by simp, by simp, by simp⟩ (by simpa using hpos) (by omega)
  refine ⟨ms, pos, env, ?_, found, ?_, v.sorted, v.pids, h2, h3⟩
  · rw [List.map_nil] at h1
    simp only [litDag, h1, Option.map_some]
  · intro i hi
    obtain ⟨h4, h5, h6, h7, h8⟩ := v.each i hi
    exact ⟨h4, h5, h7, h8⟩

/-- Two of three patterns are found, and there is one failure. -/
example : (∀ x ∈ dagExample, x.1 ≠ []) ∧ ((litDag dagExample : Dag Unit).run "ab a".toUTF8.toList ⟨0, 4⟩ ()).map (·.1) =
    some [.ok ⟨0, 2, 0, 0⟩, .ok ⟨3, 4, 2, 2⟩, matchNone] := by
  constructor
  · decide +kernel
  · decide +kernel

end Litcheck
