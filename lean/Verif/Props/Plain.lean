import Verif.Proofs.Completeness
import Verif.Props.FileCheckLiteral

/-!
# Properties C02 and C19: plain literal checks, and the search of a literal

The specification is `Verif/Spec/Literal.lean` and `Verif/Spec/InOrder.lean`.
-/

namespace Litcheck
open Spec
variable {E : Type}

/-- **C02**: a check file of plain `CHECK` lines with non-empty literals (with or without `--ignore-case`,
whatever the options, the variables and the line endings of the input) passes if and only if the literals occur
in the input in this order without overlapping.  Otherwise it fails (it does not abort, and it is not rejected). -/
theorem C02_plain_iff (ic : Bool) (o : CheckOpts) (clear : E → E) (lits : List (Buf × Nat)) (hne : lits ≠ [])
    (hnn : ∀ x ∈ lits, x.1 ≠ []) (env : E) (b : Buf) :
    (Passes (litSet ic) o clear none (lits.map fun x => litLine ic .plain x.1 x.2) env b ↔
      InOrder ic b 0 (lits.map Prod.fst)) ∧
    ((∃ fs, verify (litSet ic) o clear none (lits.map fun x => litLine ic .plain x.1 x.2) env b = .ok (.fail fs)) ↔
      ¬ InOrder ic b 0 (lits.map Prod.fst)) := by
  rcases plain_verdict ic o clear hne hnn env b with ⟨h1, ms, h2⟩ | ⟨h1, fs, h2⟩
  · refine ⟨⟨fun _ => h1, fun _ => ⟨ms, h2⟩⟩, ⟨fun ⟨fs, h3⟩ => ?_, fun h3 => absurd h1 h3⟩⟩
    rw [show (lits.map fun x => litLine ic .plain x.1 x.2) = plainLines (E := E) ic lits from rfl, h2] at h3
    simp at h3
  · refine ⟨⟨fun ⟨ms, h3⟩ => ?_, fun h3 => absurd h3 h1⟩, ⟨fun _ => h1, fun _ => ⟨fs, h2⟩⟩⟩
    rw [show (lits.map fun x => litLine ic .plain x.1 x.2) = plainLines (E := E) ic lits from rfl, h2] at h3
    simp at h3

-- `a`, `ab` in `aab`: the leftmost `a` must be chosen; in `ab` they overlap.
example : InOrder false (bytes "aab") 0 [bytes "a", bytes "ab"] :=
  ((C02_plain_iff (E := Unit) false {} id [(bytes "a", 0), (bytes "ab", 1)] (by simp) (by decide) () (bytes "aab")).1).1
    ⟨_, rfl⟩
example : ¬ InOrder false (bytes "ab") 0 [bytes "a", bytes "ab"] :=
  ((C02_plain_iff (E := Unit) false {} id [(bytes "a", 0), (bytes "ab", 1)] (by simp) (by decide) () (bytes "ab")).2).1
    ⟨_, rfl⟩

/-- **C19**: searching a literal in the bytes `lo ≤ i < hi` of a buffer reports a match if and only if the
literal occurs there; the match reported is an occurrence, and no occurrence in the range starts before it. The
variables are not changed. -/
theorem C19_leftmost (ic : Bool) (lit : Buf) (pspan : Nat) (b : Buf) (lo hi : Nat) (hlh : lo ≤ hi) (env : E) :
    (∃ s e, (litPat ic lit pspan).run b ⟨lo, hi⟩ env = (some (.ok ⟨s, e, 0, pspan⟩), env) ∧
      lo ≤ s ∧ e ≤ hi ∧ Occurs ic lit b s e ∧
      ∀ s' e', lo ≤ s' → e' ≤ hi → Occurs ic lit b s' e' → s ≤ s') ∨
    (∃ m, (litPat ic lit pspan).run b ⟨lo, hi⟩ env = (some m, env) ∧ m.isOk = false ∧
      ∀ s' e', lo ≤ s' → e' ≤ hi → ¬ Occurs ic lit b s' e') := by
  rcases litPat_run (ic := ic) (lit := lit) (ps := pspan) b ⟨lo, hi⟩ env with h | ⟨h1, h2⟩
  · exact .inl h
  · refine .inr ⟨_, h1, rfl, ?_⟩
    intro s' e' h3 h4 h5
    have := h5.1
    exact h2 s' e' h3 (by simp only at h4 ⊢; omega) h4 h5

/-- **C19**, the equivalence alone. -/
theorem C19_found_iff (ic : Bool) (lit : Buf) (pspan : Nat) (b : Buf) (lo hi : Nat) (hlh : lo ≤ hi) (env : E) :
    (∃ i, ((litPat ic lit pspan).run b ⟨lo, hi⟩ env).1 = some (.ok i)) ↔
      ∃ s e, lo ≤ s ∧ e ≤ hi ∧ Occurs ic lit b s e := by
  rcases C19_leftmost ic lit pspan b lo hi hlh env with ⟨s, e, h1, h2, h3, h4, _⟩ | ⟨m, h1, h2, h3⟩
  · exact ⟨fun _ => ⟨s, e, h2, h3, h4⟩, fun _ => ⟨_, by rw [h1]⟩⟩
  · refine ⟨fun ⟨i, hi⟩ => ?_, fun ⟨s, e, k1, k2, k3⟩ => absurd k3 (h3 s e k1 k2)⟩
    rw [h1] at hi
    simp only [Option.some.injEq] at hi
    subst hi
    simp [MatchResult.ok, MatchResult.isOk, MatchType.isOk] at h2

example : (litPat (E := Unit) true (bytes "Ab") 7).run (bytes "ab xAB ab") ⟨1, 9⟩ () = (some (.ok ⟨4, 6, 0, 7⟩), ()) := by
  rfl
example : ((litPat (E := Unit) false (bytes "ab") 7).run (bytes "xxab") ⟨0, 3⟩ ()).1 = some matchNone := by rfl

end Litcheck
