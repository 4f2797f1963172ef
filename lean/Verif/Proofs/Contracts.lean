import Verif.Proofs.DagThreaded
import Verif.Proofs.Cursor

/-!
# Contracts for the pattern oracles
-/

namespace Litcheck
open Spec
variable {E : Type}

/-- A positive matcher is sound for a meaning: what it reports lies in the searched range (a range of the input) and matches.
`related`: its failures carry a label (see `CheckFailedError::related_labels_for`). -/
structure Pat.Sound (p : Pat E) (μ : Meaning E) : Prop where
  found : ∀ b r env m env', r.start ≤ r.stop → r.stop ≤ b.length → p.run b r env = (some m, env') → m.isOk = true →
    ∃ i, m.info = some i ∧ r.start ≤ i.start ∧ i.start ≤ i.stop ∧ i.stop ≤ r.stop ∧ μ env b i.start i.stop env'
  related : ∀ b r env m env' f, p.run b r env = (some m, env') → m.ty = .failed f → f.related = true

/-- A matcher of excluded patterns is complete: if it reports no match then none of the patterns matches
anywhere in the searched range, and the environment is as before. -/
def Pat.Complete (p : Pat E) (μs : List (Meaning E)) : Prop :=
  ∀ b r env m env', p.run b r env = (some m, env') → m.isOk = false →
    env' = env ∧ AllAbsent μs b r.start r.stop

/-- A `CHECK-DAG` matcher is sound: when all its matches are ok, every pattern was matched, without
overlap, and the cursor is moved to the end of the last match; the variables are those left by the matches, in the order of their places. -/
def Dag.Sound (d : Dag E) (μs : List (Meaning E)) : Prop :=
  ∀ b r env ms pos env', d.run b r env = some (ms, pos, env') → Matches.isOk ms = true →
    ∃ s e, Matches.range ms = .ok (some ⟨s, e⟩) ∧ pos = some e ∧ r.start ≤ s ∧ s ≤ e ∧ e ≤ r.stop ∧
      DagThreaded μs b r.stop r.start s e env env'

end Litcheck
