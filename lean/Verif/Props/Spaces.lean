import Verif.Proofs.SpaceSets
import Verif.Props.CheckText

/-!
# C86, C87: `--strict-whitespace` and `--match-full-lines`
-/

namespace Litcheck
open Spec
open Litcheck.Smart Litcheck.Pattern Litcheck.Sets PatternSpec
open Litcheck.Lex (Part Match CPat CLine)

/-! ## C86 -/

/-- C86, partial. Without `--strict-whitespace`, it does not matter which horizontal white space the text of check lines has. Partial: that of
the input matters (`C86_refuted`), that of `CHECK-NOT` and `CHECK-DAG` lines is the matter of `C86_groups_partial`, and lines with regular
expressions are not covered (`C86_regex_refuted`). -/
theorem C86_partial {run : Run} (hs : run.opts.strictWs = false) {ls ls' : List CLine} (h : List.Forall₂ SpaceCheck ls ls') (imp : List Str)
    (env : Vars) (b : Buf) : verifyLines run imp ls' env b = verifyLines run imp ls env b := Spaces.lines_space hs h imp env b

/-- C86 for the text of check files, partial as above. -/
theorem C86_text_partial {run : Run} (hs : run.opts.strictWs = false) {cfg : Lex.Cfg} {allow : Bool} {text text' : Str} {ls ls' : List CLine}
    (hp : Lex.parse cfg allow text = .ok ls) (hp' : Lex.parse cfg allow text' = .ok ls') (h : List.Forall₂ SpaceCheck ls ls') (imp : List Str)
    (env : Vars) (b : Buf) : TextPasses run imp cfg allow text' env b ↔ TextPasses run imp cfg allow text env b := by
  unfold TextPasses verifyText
  rw [hp, hp']
  show (∃ ms, Except.ok (verifyLines run imp ls' env b) = _) ↔ ∃ ms, Except.ok (verifyLines run imp ls env b) = _
  rw [Spaces.lines_space hs h imp env b]

/-- C86, partial, also of `CHECK-NOT` and `CHECK-DAG` lines: if those of which the white space changes are text, with all of the same kind,
and lines with different texts stay different and lines with the same text the same (otherwise it is false: `C86_not_refuted`,
`C86_dag_refuted`). -/
theorem C86_groups_partial {run : Run} (hs : run.opts.strictWs = false) {ls ls' : List CLine} {imp : List Str}
    (h : List.Forall₂ (fun l l' => SpaceCheck l l' ∨ SpaceSet l l') ls ls') (hnot : KeepsApart .not imp ls ls') (hdag : KeepsApart .dag imp ls ls')
    (env : Vars) (b : Buf) : verifyLines run imp ls' env b = verifyLines run imp ls env b := Spaces.file_space hs h hnot hdag env b

/-- The same for the text of check files. -/
theorem C86_groups_text_partial {run : Run} (hs : run.opts.strictWs = false) {cfg : Lex.Cfg} {allow : Bool} {text text' : Str} {ls ls' : List CLine}
    (hp : Lex.parse cfg allow text = .ok ls) (hp' : Lex.parse cfg allow text' = .ok ls') {imp : List Str}
    (h : List.Forall₂ (fun l l' => SpaceCheck l l' ∨ SpaceSet l l') ls ls') (hnot : KeepsApart .not imp ls ls') (hdag : KeepsApart .dag imp ls ls')
    (env : Vars) (b : Buf) : TextPasses run imp cfg allow text' env b ↔ TextPasses run imp cfg allow text env b := by
  unfold TextPasses verifyText
  rw [hp, hp']
  show (∃ ms, Except.ok (verifyLines run imp ls' env b) = _) ↔ ∃ ms, Except.ok (verifyLines run imp ls env b) = _
  rw [Spaces.file_space hs h hnot hdag env b]

/-- The lines `CHECK-DAG: a b`, `CHECK-DAG: c d` and `CHECK-NOT: e f`; the white space is given. -/
def groupLines (w : Char) : List CLine :=
  [⟨.dag, false, .literal ['a', w, 'b']⟩, ⟨.dag, false, .literal ['c', w, 'd']⟩, ⟨.not, false, .literal ['e', w, 'f']⟩]

theorem groupLines_same : List.Forall₂ (fun l l' => SpaceCheck l l' ∨ SpaceSet l l') (groupLines ' ') (groupLines '\t') := by
  have h : ∀ c d : Char, SameUpToSpace [c, ' ', d] [c, '\t', d] := fun c d =>
    .cons (.inl rfl) (.cons (.inr ⟨by unfold HSpace; decide, by unfold HSpace; decide⟩) (.cons (.inl rfl) .nil))
  exact .cons (.inr ⟨rfl, rfl, .inr rfl, _, _, rfl, rfl, h _ _⟩) (.cons (.inr ⟨rfl, rfl, .inr rfl, _, _, rfl, rfl, h _ _⟩)
    (.cons (.inr ⟨rfl, rfl, .inl rfl, _, _, rfl, rfl, h _ _⟩) .nil))

/-- The lines `CHECK: a b` and `CHECK-NEXT: c [[X]]`; the white space is given. -/
def spaceLines (w : Char) : List CLine :=
  [⟨.plain, false, .literal ['a', w, 'b']⟩, ⟨.next, false, .match_ [.literal ['c', w], .match_ (.substitution (.user ['X']) none)]⟩]

theorem spaceLines_same : List.Forall₂ SpaceCheck (spaceLines ' ') (spaceLines '\t') := by
  have h : ∀ c : Char, SameUpToSpace [c, ' '] [c, '\t'] := fun c => .cons (.inl rfl) (.cons (.inr ⟨by unfold HSpace; decide, by unfold HSpace; decide⟩) .nil)
  refine .cons (.inr ⟨rfl, rfl, by simp [spaceLines], by simp [spaceLines], .text ?_ ?_⟩) (.cons (.inr ⟨rfl, rfl, by simp, by simp, .parts ?_ ?_ ?_⟩) .nil)
  · exact .cons (.inl rfl) (.cons (.inr ⟨by unfold HSpace; decide, by unfold HSpace; decide⟩) (.cons (.inl rfl) .nil))
  · unfold ScriptSpec.Blank; decide
  · exact .cons (h 'c') (.cons rfl .nil)
  · intro x hx
    simp only [List.mem_cons, List.not_mem_nil, or_false] at hx
    rcases hx with rfl | rfl <;> exact trivial
  · refine ⟨_, List.mem_cons_self, ?_⟩
    unfold Shows ScriptSpec.Blank
    decide

/-- Did the test pass? -/
def passedLines (x : P Verdict) : Bool :=
  match x with
  | .ok (.pass _) => true
  | _ => false

/-- `X` is `v`. -/
def spaceVars : Vars := Bindings.empty.insert (.user "X") (.str "v".toList)

/-- The theorem applies: with tabs in the check file, the test passes if the input has spaces, and fails if it has tabs. -/
example : passedLines (verifyLines exRun [] (spaceLines '\t') spaceVars (Regex.utf8 "a b\nc v\n".toList)) = true := by
  rw [C86_partial rfl spaceLines_same]; decide +kernel
example : passedLines (verifyLines exRun [] (spaceLines '\t') spaceVars (Regex.utf8 "a\tb\nc\tv\n".toList)) = false := by
  rw [C86_partial rfl spaceLines_same]; decide +kernel
/-- With `--strict-whitespace` it matters. -/
example : passedLines (verifyLines ⟨⟨false, true⟩, {}, true, id⟩ [] (spaceLines '\t') spaceVars (Regex.utf8 "a b\nc v\n".toList)) = false := by
  decide +kernel

/-- `C86_groups_partial` applies: with tabs in the check file, the test passes if the input has spaces, and fails if the excluded text is there. -/
example : passedLines (verifyLines exRun [] (groupLines '\t') Bindings.empty (Regex.utf8 "c d\na b\n".toList)) = true := by
  rw [C86_groups_partial rfl groupLines_same (Spaces.apartB_sound rfl (by decide +kernel)) (Spaces.apartB_sound rfl (by decide +kernel))]
  decide +kernel
example : passedLines (verifyLines exRun [] (groupLines '\t') Bindings.empty (Regex.utf8 "c d\na b\ne f\n".toList)) = false := by
  rw [C86_groups_partial rfl groupLines_same (Spaces.apartB_sound rfl (by decide +kernel)) (Spaces.apartB_sound rfl (by decide +kernel))]
  decide +kernel

/-- C86 is false of `CHECK-NOT` lines: a group of texts which are repeated makes the program panic (C78), unless they differ in white space. -/
theorem C86_not_refuted :
    TextPasses exRun [] exCfg false "CHECK: a\nCHECK-NOT: z z\nCHECK-NOT: z\tz\nCHECK-NOT: y y\nCHECK-NOT: y\ty\n".toList Bindings.empty
      (Regex.utf8 "a b\n".toList) ∧
    ¬ TextPasses exRun [] exCfg false "CHECK: a\nCHECK-NOT: z z\nCHECK-NOT: z z\nCHECK-NOT: y y\nCHECK-NOT: y y\n".toList Bindings.empty
      (Regex.utf8 "a b\n".toList) :=
  ⟨textPasses_of (by decide +kernel), not_textPasses_of (by decide +kernel)⟩

/-- C86 is false of `CHECK-DAG` lines: one place is enough for a text which is repeated, but not if it is repeated with other white space. -/
theorem C86_dag_refuted :
    TextPasses exRun [] exCfg false "CHECK-DAG: z z\nCHECK-DAG: z z\nCHECK-DAG: y\n".toList Bindings.empty (Regex.utf8 "z z y\n".toList) ∧
    ¬ TextPasses exRun [] exCfg false "CHECK-DAG: z z\nCHECK-DAG: z\tz\nCHECK-DAG: y\n".toList Bindings.empty (Regex.utf8 "z z y\n".toList) :=
  ⟨textPasses_of (by decide +kernel), not_textPasses_of (by decide +kernel)⟩

/-- C86 is false: a space does not match a tab, and a tab does not even match a tab. -/
theorem C86_refuted :
    TextPasses exRun [] exCfg false "CHECK: a b\n".toList Bindings.empty (Regex.utf8 "a b\n".toList) ∧
    ¬ TextPasses exRun [] exCfg false "CHECK: a b\n".toList Bindings.empty (Regex.utf8 "a\tb\n".toList) ∧
    ¬ TextPasses exRun [] exCfg false "CHECK: a\tb\n".toList Bindings.empty (Regex.utf8 "a\tb\n".toList) :=
  ⟨textPasses_of (by decide +kernel), not_textPasses_of (by decide +kernel), not_textPasses_of (by decide +kernel)⟩

/-- On a line with a regular expression, white space is not canonicalised at all. -/
theorem C86_regex_refuted :
    TextPasses exRun [] exCfg false "CHECK: a\t{{b}}\n".toList Bindings.empty (Regex.utf8 "a\tb\n".toList) ∧
    ¬ TextPasses exRun [] exCfg false "CHECK: a\t{{b}}\n".toList Bindings.empty (Regex.utf8 "a b\n".toList) ∧
    TextPasses exRun [] exCfg false "CHECK: a {{b}}\n".toList Bindings.empty (Regex.utf8 "a b\n".toList) :=
  ⟨textPasses_of (by decide +kernel), not_textPasses_of (by decide +kernel), textPasses_of (by decide +kernel)⟩

/-! ## C87 -/

/-- C87 is false: with `--match-full-lines`, a match need not cover the line. -/
theorem C87_refuted :
    TextPasses exRun [] ⟨[], [], false, true⟩ false "CHECK: a\n".toList Bindings.empty (Regex.utf8 "xay\n".toList) :=
  textPasses_of (by decide +kernel)

theorem checkPattern_full (cfg cfg' : Lex.Cfg) (h : (cfg.strictWhitespace || cfg.matchFullLines) = (cfg'.strictWhitespace || cfg'.matchFullLines))
    (l : Bool) (s : Str) : Lex.checkPattern cfg l s = Lex.checkPattern cfg' l s := by
  unfold Lex.checkPattern
  rw [h]

theorem search_full (cfg cfg' : Lex.Cfg) (h1 : cfg.checkPrefixes = cfg'.checkPrefixes) (h2 : cfg.commentPrefixes = cfg'.commentPrefixes)
    (bol : Bool) (s : Str) : Lex.search cfg bol s = Lex.search cfg' bol s := by
  have e : ∀ bol s, Lex.matchAt cfg bol s = Lex.matchAt cfg' bol s := by
    intro bol s
    unfold Lex.matchAt Lex.patterns
    rw [h1, h2]
  induction s generalizing bol with
  | nil => exact e bol []
  | cons c r ih => simp only [Lex.search, e, ih]

theorem tokens_full (cfg cfg' : Lex.Cfg) (h : (cfg.strictWhitespace || cfg.matchFullLines) = (cfg'.strictWhitespace || cfg'.matchFullLines))
    (h1 : cfg.checkPrefixes = cfg'.checkPrefixes) (h2 : cfg.commentPrefixes = cfg'.commentPrefixes) : ∀ (n : Nat) (bol : Bool) (s : Str),
    Lex.tokens cfg n bol s = Lex.tokens cfg' n bol s
  | 0, _, _ => rfl
  | _ + 1, _, [] => rfl
  | n + 1, bol, c :: r => by
    have e1 : ∀ bol s, Lex.search cfg bol s = Lex.search cfg' bol s := search_full cfg cfg' h1 h2
    have e2 : ∀ hit, Lex.directive cfg hit = Lex.directive cfg' hit := by
      intro hit
      unfold Lex.directive
      simp only [checkPattern_full cfg cfg' h]
    simp only [Lex.tokens, e1, e2, tokens_full cfg cfg' h h1 h2 n]

/-- C87, partial: all that `--match-full-lines` does is what `--strict-whitespace` does to the reading of the check file: the white space before a
pattern is part of it, except for at most two spaces. -/
theorem C87_effect_partial (run : Run) (imp : List Str) (cfg cfg' : Lex.Cfg)
    (h : (cfg.strictWhitespace || cfg.matchFullLines) = (cfg'.strictWhitespace || cfg'.matchFullLines))
    (h1 : cfg.checkPrefixes = cfg'.checkPrefixes) (h2 : cfg.commentPrefixes = cfg'.commentPrefixes) (allow : Bool) (text : Str) (env : Vars) (b : Buf) :
    verifyText run imp cfg allow text env b = verifyText run imp cfg' allow text env b := by
  unfold verifyText Lex.parse Lex.lex
  rw [tokens_full cfg cfg' h h1 h2, h1]

/-- `--match-full-lines`. -/
def fullCfg : Lex.Cfg := ⟨[], [], false, true⟩

example (run : Run) (imp : List Str) (allow : Bool) (text : Str) (env : Vars) (b : Buf) :
    verifyText run imp fullCfg allow text env b = verifyText run imp ⟨[], [], true, false⟩ allow text env b :=
  C87_effect_partial run imp fullCfg ⟨[], [], true, false⟩ rfl rfl rfl allow text env b

/-- The white space counts: without the option the pattern is `a`, with it ` a` (two of the three spaces are dropped, not one). -/
example : TextPasses exRun [] exCfg false "CHECK:   a\n".toList Bindings.empty (Regex.utf8 "a\n".toList) ∧
    ¬ TextPasses exRun [] fullCfg false "CHECK:   a\n".toList Bindings.empty (Regex.utf8 "a\n".toList) ∧
    TextPasses exRun [] fullCfg false "CHECK:   a\n".toList Bindings.empty (Regex.utf8 " a\n".toList) :=
  ⟨textPasses_of (by decide +kernel), not_textPasses_of (by decide +kernel), textPasses_of (by decide +kernel)⟩

end Litcheck
