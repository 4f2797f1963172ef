import Verif.Props.Sets
import Verif.Props.Command

/-!
# Properties C79 and C91: a counterexample

A test passes although its input does not satisfy the check file.
-/

namespace Litcheck.Sets
open Litcheck.Smart Litcheck.Spec Litcheck.PatternSpec Litcheck.Pattern
open Litcheck.Regex (utf8 inClass inRanges)
open Litcheck.Lex (CPat CLine)

/-- Two lines, and one text for both of them. -/
def overText : String := "CHECK-DAG: {{b}}\nCHECK-DAG: {{abc}}\n"

def overInput : String := "abc"

theorem over_class {neg : Bool} {c v : Nat} {i n : Nat} (hi : i ≤ 3) (h : Regex.decode ((utf8 overInput.toList).drop i) = some (v, n))
    (hc : inClass false neg [(c, c)] v = true) (hn : neg = false) : i < 3 ∧ n = 1 ∧ c = 97 + i := by
  subst hn
  match i, hi with
  | 0, _ =>
    have : Regex.decode ((utf8 overInput.toList).drop 0) = some (97, 1) := by decide +kernel
    rw [this] at h; simp at h; obtain ⟨rfl, rfl⟩ := h
    simp [inClass, inRanges] at hc
    omega
  | 1, _ =>
    have : Regex.decode ((utf8 overInput.toList).drop 1) = some (98, 1) := by decide +kernel
    rw [this] at h; simp at h; obtain ⟨rfl, rfl⟩ := h
    simp [inClass, inRanges] at hc
    omega
  | 2, _ =>
    have : Regex.decode ((utf8 overInput.toList).drop 2) = some (99, 1) := by decide +kernel
    rw [this] at h; simp at h; obtain ⟨rfl, rfl⟩ := h
    simp [inClass, inRanges] at hc
    omega
  | 3, _ =>
    have : Regex.decode ((utf8 overInput.toList).drop 3) = none := by decide +kernel
    rw [this] at h; simp at h

/-- The lines of the check file. -/
def overLines : List CLine := [⟨.dag, false, .regex ['b']⟩, ⟨.dag, false, .regex ['a', 'b', 'c']⟩]

theorem over_unsatisfied (run : Run) (hic : run.opts.ignoreCase = false) (enter : Vars → Vars) (env : Vars) :
    ∀ lines, Numbered overLines lines → ¬ ∃ region lab place envs,
      Satisfies (lineMean run (patsOf overLines [])) (utf8 overInput.toList) enter env (fileBlocks (implicitLine overLines []) lines) region lab place envs := by
  rintro lines hn ⟨region, lab, place, envs, hs⟩
  have hlen := hn.same
  match lines, hn, hlen, hs with
  | [x, y], hn, _, hs =>
    obtain ⟨l0, h0, k0, p0⟩ := hn.line 0 x rfl
    obtain ⟨l1, h1, k1, p1⟩ := hn.line 1 y rfl
    simp only [overLines, List.getElem?_cons_zero, List.getElem?_cons_succ, Option.some.injEq] at h0 h1
    subst h0 h1
    dsimp only at k0 k1
    have hb : fileBlocks (implicitLine overLines []) [x, y] = [(none, [x, y])] := by
      simp [fileBlocks, implicitLine, splitLabels, headLines, headBlocks, withImplicit, k0, k1]
    rw [hb] at hs
    have hlast := hs.last 0 rfl
    have h3 : (utf8 overInput.toList).length = 3 := by decide +kernel
    rw [h3] at hlast
    have i0 := hs.matching.inside 0 _ 0 rfl ⟨x, rfl, by rw [k0]; simp⟩
    have i1 := hs.matching.inside 0 _ 1 rfl ⟨y, rfl, by rw [k1]; simp⟩
    have m0 := hs.matching.hit 0 _ 0 x rfl rfl (by rw [k0]; simp) (by rw [k0]; simp)
    have m1 := hs.matching.hit 0 _ 1 y rfl rfl (by rw [k1]; simp) (by rw [k1]; simp)
    have hd := hs.disjoint 0 _ 0 1 rfl (by simp) ⟨x, rfl, by rw [k0]; simp⟩ ⟨y, rfl, by rw [k1]; simp⟩
    generalize place 0 0 = s at *
    generalize place 0 1 = t at *
    obtain ⟨s1, s2⟩ := s
    obtain ⟨t1, t2⟩ := t
    have a0 : s1 = 1 ∧ s2 = 2 := by
      simp only [Spec.Hit, k0, lineMean, patAt, p0] at m0
      obtain ⟨e, e', m0⟩ := m0
      cases m0 with
      | cons m0 n0 =>
        cases n0
        obtain ⟨_, r, hr, c, hc⟩ := m0
        have : r = .cls false [(98, 98)] := by
          have : Regex.parse ['b'] = some (.cls false [(98, 98)]) := by decide +kernel
          rw [this] at hr; exact (Option.some.inj hr).symm
        subst this
        obtain ⟨v, n, hv, hi, hj, _⟩ := hc
        rw [show (run.ctx _).ic = false from hic] at hi
        have := over_class (by omega) hv hi rfl
        omega
    have a1 : t1 = 0 ∧ t2 = 3 := by
      simp only [Spec.Hit, k1, lineMean, patAt, p1] at m1
      obtain ⟨e, e', m0⟩ := m1
      cases m0 with
      | cons m0 n0 =>
        cases n0
        obtain ⟨_, r, hr, c, hc⟩ := m0
        have : r = .cat (.cat (.cls false [(97, 97)]) (.cls false [(98, 98)])) (.cls false [(99, 99)]) := by
          have : Regex.parse ['a', 'b', 'c'] = some (.cat (.cat (.cls false [(97, 97)]) (.cls false [(98, 98)])) (.cls false [(99, 99)])) := by
            decide +kernel
          rw [this] at hr; exact (Option.some.inj hr).symm
        subst this
        obtain ⟨k, _, _, ⟨k', _, _, ⟨v, n, hv, hi, hj, _⟩, ⟨v2, n2, hv2, hi2, hj2, _⟩, _⟩, ⟨v3, n3, hv3, hi3, hj3, _⟩, _⟩ := hc
        rw [show (run.ctx _).ic = false from hic] at hi hi2 hi3
        have := over_class (by omega) hv hi rfl
        have := over_class (by omega) hv2 hi2 rfl
        have := over_class (by omega) hv3 hi3 rfl
        omega
    unfold Spec.Disjoint at hd
    omega

/-- **C79** is false of other check files: the test passes, and the input does not satisfy the check file. There is one `b` in the input, which is inside the
only `abc`: matches would have to overlap. -/
theorem C79_text_refuted : passes overText overInput ∧ ∃ ls, Lex.parse exCfg false overText.toList = .ok ls ∧
    ∀ lines, Numbered ls lines → ¬ ∃ region lab place envs,
      Satisfies (lineMean exRun (patsOf ls [])) (utf8 overInput.toList) (enterEnv exRun.check Bindings.clear) Bindings.empty
        (fileBlocks (implicitLine ls []) lines) region lab place envs :=
  ⟨textPasses_of (by decide +kernel), overLines, by decide +kernel, over_unsatisfied exRun rfl _ _⟩

end Litcheck.Sets

namespace Litcheck
open Litcheck.Smart Litcheck.Spec Litcheck.Sets Litcheck.Command Litcheck.CommandSpec
open Litcheck.Regex (utf8)

/-- The check file, and the input on the standard input. -/
def overWorld : World where
  file p := if p = "a.txt".toList then some overText.toList else none
  stdin := some overInput.toList

/-- **C91**: the command succeeds and the input does not satisfy the check file, in any setting of the lines of the check file. -/
theorem C91_satisfied_refuted : Command.filecheck true overWorld (CommandEx.options ["CHECK"]) "a.txt".toList ['-'] = 0 ∧
    GivenBoth overWorld "a.txt".toList ['-'] overText.toList overInput.toList ∧
    ∃ ls, Lex.parse (cfgOf (CommandEx.options ["CHECK"])) false overText.toList = .ok ls ∧
      ∀ run : Run, run.opts = ⟨false, false⟩ → ∀ lines, Numbered ls lines → ¬ ∃ region lab place envs,
        Satisfies (lineMean run (patsOf ls [])) (utf8 overInput.toList) (enterEnv run.check Bindings.clear) (startEnv (CommandEx.options ["CHECK"]))
          (fileBlocks (implicitLine ls []) lines) region lab place envs := by
  have hg : GivenBoth overWorld "a.txt".toList ['-'] overText.toList overInput.toList := ⟨.inr ⟨by decide, rfl⟩, .inr ⟨by decide, .inl ⟨rfl, rfl⟩⟩⟩
  refine ⟨?_, hg, overLines, by decide +kernel, fun run hr => over_unsatisfied run (by rw [hr]) _ _⟩
  rw [C91_exit CommandEx.isAlnum ⟨by decide, by decide⟩ _ _ _ CommandEx.ok1]
  refine ⟨by decide, by decide, .inr ⟨_, _, hg, code_zero.1 (CommandEx.code_of ?_)⟩⟩
  decide +kernel

end Litcheck
