import Verif.Proofs.NotWords
import Verif.Props.Sets
import Verif.Props.Words

/-!
# Property C76, for groups of `CHECK-NOT` lines which begin with a text and go on with uses of variables

The words and the lines are those of `Verif/Spec/Words.lean` and `Verif/Spec/Guarded.lean`, the meaning of a pattern is the documented one.
-/

namespace Litcheck.Sets
open Litcheck.Smart Litcheck.Spec Litcheck.RegexSpec Litcheck.PatternSpec Litcheck.Pattern
open Litcheck.Regex (engine utf8)
open Litcheck.Lex (Part Match CPat CLine)

/-- **C76**, also for patterns which use variables: each line of the group begins with a text, after which come uses of variables and
expressions with plain values, and then parts without uses and captures (`Guarded`). If the texts are different from one another and no two
occurrences of them can overlap, then on every input and every range the matcher answers, without a diagnostic; it says that the group is
violated if and only if one of the patterns, as it is documented, matches somewhere in the range; and the match reported is one of the
pattern of the line reported.
Missing (hence partial): `--ignore-case` with variables, lines which begin with a use or a regular expression (see the counterexamples
of C76 and C78), lines whose texts overlap (`C76_variable_refuted`); groups of plain texts only are in `C76_plain_partial`. -/
theorem C76_variables_partial {o : Opts} (hic : o.ignoreCase = false) {line : Nat → Nat} {checked : Bool} {b : Buf} {r : Rng} {env : Vars}
    {ls : List (CPat × Nat)} {ss : List Str}
    (hg : List.Forall₂ (fun (y : CPat × Nat) s => Guarded (pctx documented o (line y.2)) checked b r.stop env y.1 s) ls ss)
    (hnd : ss.Nodup) (htg : ¬ Tangled (ss.map utf8)) (hsome : ∃ y ∈ ls, ∀ s, y.1 ≠ .literal s)
    {set : MatchSet} (h : compileSet o ls = .ok (some set)) (h1 : r.start ≤ r.stop) (h2 : r.stop ≤ b.length) :
    ∃ m env', (anyPat o.ignoreCase (fun n => pconf o (line n) checked) set).run b r env = (some m, env') ∧
      (m.isOk = true ↔ ∃ y ∈ ls, ∃ s e env1, r.start ≤ s ∧ s ≤ e ∧ e ≤ r.stop ∧ meaning (pctx documented o (line y.2)) y.1 env b s e env1) ∧
      (m.isOk = true → ∃ i, m.info = some i ∧ r.start ≤ i.start ∧ i.start ≤ i.stop ∧ i.stop ≤ r.stop ∧
        ∃ y ∈ ls, i.pspan = y.2 ∧ meaning (pctx documented o (line y.2)) y.1 env b i.start i.stop env') ∧
      (m.isOk = false → env' = env) := by
  obtain ⟨m, env', a1, a2⟩ := nots_guarded (cx := fun n => pctx documented o (line n)) (cfs := fun n => pconf o (line n) checked) hic
    (fun n => pfit o (line n) checked) (fun _ _ _ => rfl) h1 h2 hg hnd htg hsome h
  refine ⟨m, env', by rw [hic]; exact a1, ?_⟩
  rcases a2 with ⟨b1, y, hy, q, e, env1, c1, c2, c3, c4, i, d1, d2, d3, d4, d5⟩ | ⟨b1, b2, b3⟩
  · subst d2 d3 d5
    refine ⟨⟨fun _ => ⟨y, hy, _, _, _, c1, c2, c3, c4⟩, fun _ => b1⟩, fun _ => ⟨i, d1, c1, c2, c3, y, hy, d4, c4⟩, ?_⟩
    intro hf
    rw [b1] at hf
    cases hf
  · refine ⟨⟨fun hf => ?_, ?_⟩, fun hf => ?_, fun _ => b2⟩
    · rw [b1] at hf; cases hf
    · rintro ⟨y, hy, s, e, env1, c1, _, c3, c4⟩
      exact absurd c4 (b3 y hy s e env1 c1 c3)
    · rw [b1] at hf; cases hf

/-- No two occurrences of these texts overlap: wherever they would, there is a byte in which they differ. -/
def untangledB (us : List Buf) : Bool :=
  us.all fun u => us.all fun v => (List.range u.length).all fun d => (decide (d = 0) && decide (u = v)) ||
    (List.range v.length).any fun k => decide (d + k < u.length) && u[d + k]? != v[k]?

theorem not_tangled_of {us : List Buf} (h : untangledB us = true) : ¬ Tangled us := by
  rintro ⟨u, hu, v, hv, b, i, j, h1, h2, h3, h4, h5⟩
  have h6 := List.all_eq_true.1 (List.all_eq_true.1 (List.all_eq_true.1 h u hu) v hv) (j - i) (List.mem_range.2 (by omega))
  rw [Bool.or_eq_true] at h6
  rcases h6 with h6 | h6
  · rw [Bool.and_eq_true, decide_eq_true_eq, decide_eq_true_eq] at h6
    rcases h5 with h5 | h5
    · omega
    · exact h5 h6.2
  · obtain ⟨k, h7, h8⟩ := List.any_eq_true.1 h6
    rw [Bool.and_eq_true, decide_eq_true_eq, bne_iff_ne] at h8
    have h7 := List.mem_range.1 h7
    obtain ⟨y1, g1, g2⟩ := h1 (j - i + k) _ (List.getElem?_eq_getElem h8.1)
    obtain ⟨y2, g3, g4⟩ := h2 k _ (List.getElem?_eq_getElem h7)
    have e : i + (j - i + k) = j + k := by omega
    rw [e, g3] at g1
    cases g1
    simp only [SameLetter, Bool.false_eq_true, false_and, or_false] at g2 g4
    apply h8.2
    exact (List.getElem?_eq_getElem h8.1).trans ((congrArg some (g2.trans g4.symm)).trans (List.getElem?_eq_getElem h7).symm)

/-- The lines `CHECK-NOT: call [[X]]`, `CHECK-NOT: bad`. -/
def useNots : List (CPat × Nat) := [(.match_ (.literal "call ".toList :: ([.match_ (.substitution (.user ['X']) none)] ++ [])), 3), (.literal "bad".toList, 4)]

/-- C76 says something about these lines where `X` is `b`, on the input `call a; call b`. -/
example : ∃ m env', (anyPat false (fun n => pconf plainOpts n true) (setOf useNots)).run (utf8 "call a; call b".toList) ⟨0, 14⟩ bVars = (some m, env') ∧
    (m.isOk = true ↔ ∃ y ∈ useNots, ∃ s e env1, 0 ≤ s ∧ s ≤ e ∧ e ≤ 14 ∧ meaning (pctx documented plainOpts y.2) y.1 bVars (utf8 "call a; call b".toList) s e env1) := by
  obtain ⟨m, env', a1, a2, _⟩ := C76_variables_partial (o := plainOpts) rfl (line := id) (checked := true) (b := utf8 "call a; call b".toList) (r := ⟨0, 14⟩) (env := bVars)
    (ls := useNots) (ss := ["call ".toList, "bad".toList])
    (.cons (.uses (m := .substitution (.user ['X']) none) (qs := []) (ws := [['b']]) (by decide) (by intro s hs; cases hs; right; decide) rfl ⟨[], _, rfl⟩
        (.cons (.use (bVars_text.2 rfl) (by decide)) .nil) (by decide) (by simp) (by simp) (by simp) (by simp) (.inl (by simp)))
      (.cons (.text (by decide) (by intro s hs; cases hs; right; decide)) .nil))
    (by decide) (not_tangled_of (by decide +kernel)) ⟨_, List.mem_cons_self, by simp [useNots]⟩ (set := setOf useNots) (by with_unfolding_all rfl) (by decide) (by decide +kernel)
  exact ⟨m, env', a1, a2⟩

/-- The same in a check file. -/
example : ¬ passes "CHECK: X=[[X:[a-z]]];\nCHECK-NOT: call [[X]]\nCHECK-NOT: bad\n" "X=b; call a; call b " := not_textPasses_of (by decide +kernel)
example : passes "CHECK: X=[[X:[a-z]]];\nCHECK-NOT: call [[X]]\nCHECK-NOT: bad\n" "X=b; call a; call c " := textPasses_of (by decide +kernel)

/-- The text of `C76_variable_refuted` overlaps itself. -/
example : Tangled [utf8 "aa".toList] :=
  ⟨_, List.mem_singleton.2 rfl, _, List.mem_singleton.2 rfl, utf8 "aaa".toList, 0, 1, (hitAt_iff (stop := 3) (ic := false)).1 (by decide +kernel) |>.2,
    (hitAt_iff (stop := 3) (ic := false)).1 (by decide +kernel) |>.2, by decide, by decide +kernel, .inl (by decide)⟩

end Litcheck.Sets
