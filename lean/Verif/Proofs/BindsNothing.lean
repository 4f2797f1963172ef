import Verif.Spec.LabelVars
import Verif.Spec.Pattern
import Verif.Model.Pattern

/-! Patterns which mention no variables, and what `compact` makes of those which do. -/

namespace Litcheck.Pattern
open Litcheck.Lex (CPat Part Match MentionsVar)
open Litcheck.Regex (utf8)

/-- What `compact` has seen of variables so far. -/
def Seen (st : CSt) : Prop := st.out ≠ [] ∨ (st.caps ≠ [] ∧ st.litMode = false)

theorem flush_ne {st : CSt} (h : st.out ≠ []) : st.flush ≠ [] := by
  unfold CSt.flush
  split
  · exact h
  · split <;> simp

theorem seen_step {st : CSt} {p : Part} (h : Seen st) : Seen (compactStep st p) := by
  unfold compactStep
  split <;> simp only [Seen, CSt.addRx] at h ⊢
  · exact h
  all_goals first
    | (rcases h with h | h
       · exact .inl h
       · exact .inr ⟨by simp [h.1], trivial⟩)
    | simp

theorem seen_mention {st : CSt} {p : Part} (h : MentionsVar p) : Seen (compactStep st p) := by
  unfold MentionsVar at h
  unfold compactStep
  split <;> simp_all [Seen, CSt.addRx]

theorem seen_fold {ps : List Part} : ∀ (st : CSt), Seen st ∨ (∃ x ∈ ps, MentionsVar x) → Seen (ps.foldl compactStep st) := by
  induction ps with
  | nil => rintro st (h | ⟨x, hx, _⟩); exacts [h, absurd hx (by simp)]
  | cons p ps ih =>
    intro st h
    rw [List.foldl_cons]
    apply ih
    rcases h with h | ⟨x, hx, hm⟩
    · exact .inl (seen_step h)
    · rcases List.mem_cons.1 hx with rfl | hx
      · exact .inl (seen_mention hm)
      · exact .inr ⟨x, hx, hm⟩

/-- What a pattern which mentions a variable is made into. -/
theorem compact_mentions {p : CPat} {x : Part} (hx : x ∈ PatternSpec.partsOf p) (hm : MentionsVar x) :
    (∃ ps, compact p = .parts ps) ∨ ∃ r, compact p = .rx r ∧ r.caps ≠ [] := by
  cases p with
  | empty => simp [PatternSpec.partsOf] at hx
  | literal s => simp [PatternSpec.partsOf] at hx; subst hx; exact hm.elim
  | regex s => simp [PatternSpec.partsOf] at hx; subst hx; exact hm.elim
  | match_ ps =>
    simp only [PatternSpec.partsOf] at hx
    have hs := seen_fold (ps := ps) ⟨[], [], [], true⟩ (.inr ⟨x, hx, hm⟩)
    cases ps with
    | nil => simp at hx
    | cons q qs =>
      simp only [compact]
      generalize List.foldl compactStep ⟨[], [], [], true⟩ (q :: qs) = st at hs ⊢
      by_cases ho : st.out.isEmpty = true
      · rcases hs with hs | ⟨h1, h2⟩
        · simp at ho; exact absurd ho hs
        · right
          rw [if_pos ho, h2]
          exact ⟨_, rfl, h1⟩
      · left
        rw [if_neg ho]
        exact ⟨_, rfl⟩

end Litcheck.Pattern

namespace Litcheck.PatternSpec
open Litcheck.Lex (CPat Part MentionsVar)
open Litcheck.Smart (Vars)

theorem parts_fixed {cx : Ctx} {b : Buf} {ps : List Part} (hu : ∀ x ∈ ps, ¬ MentionsVar x) {env env' : Vars} {i j : Nat}
    (h : PartsMatch cx b env ps i j env') : env' = env := by
  induction h with
  | nil => rfl
  | @cons env i p ps k env' j env'' h1 _ ih =>
    have hp := hu p List.mem_cons_self
    have : env' = env := by
      cases p with
      | literal s => exact h1.1
      | regex s => exact h1.1
      | match_ m =>
        cases m with
        | substitution y pt => exact absurd trivial hp
        | numeric f cap e =>
          cases cap with
          | some y => exact absurd (.inl (by simp)) hp
          | none =>
            cases e with
            | some e => exact absurd (.inr (by simp)) hp
            | none => exact h1.1
    rw [ih fun x hx => hu x (List.mem_cons_of_mem _ hx), this]

/-- What mentions no variable matches whatever their values are. -/
theorem parts_any {cx : Ctx} {b : Buf} {p : CPat} (hu : ∀ x ∈ partsOf p, ¬ MentionsVar x) {env env' : Vars} {i j : Nat}
    (h : meaning cx p env b i j env') (env2 : Vars) : meaning cx p env2 b i j env2 := by
  unfold meaning at h ⊢
  generalize partsOf p = ps at hu h
  induction h with
  | nil => exact .nil
  | @cons env i p ps k env' j env'' h1 _ ih =>
    have hq := hu p List.mem_cons_self
    refine .cons ?_ (ih fun x hx => hu x (List.mem_cons_of_mem _ hx))
    cases p with
    | literal s => exact ⟨rfl, h1.2⟩
    | regex s => exact ⟨rfl, h1.2⟩
    | match_ m =>
      cases m with
      | substitution y pt => exact absurd trivial hq
      | numeric f cap e =>
        cases cap with
        | some y => exact absurd (.inl (by simp)) hq
        | none =>
          cases e with
          | some e => exact absurd (.inr (by simp)) hq
          | none => exact ⟨rfl, h1.2⟩

theorem binds_nothing {cx : Ctx} {p : CPat} (hu : ∀ x ∈ partsOf p, ¬ MentionsVar x) : Spec.BindsNothing (meaning cx p) :=
  fun _ _ _ _ _ h => parts_fixed hu h

end Litcheck.PatternSpec
