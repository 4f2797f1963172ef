import Verif.Proofs.IgnoreCaseSets
import Verif.Props.CheckText

/-!
# C88: `--ignore-case`
-/

namespace Litcheck
open Spec
open Litcheck.Smart Litcheck.Pattern Litcheck.Sets PatternSpec
open Litcheck.Lex (Part Match CPat CLine)

/-- C88, partial. With `--ignore-case`, changing the case of letters of the input, and of check lines which are only text, does not change
the verdict (of `CHECK-NOT` lines: `C88_groups_partial`). Partial: no line captures a variable; `CHECK-NOT` and `CHECK-DAG` lines use none; a
`CHECK-DAG` line has a regular expression, since literal `CHECK-DAG` lines do not ignore case (`C88_dag_refuted`). -/
theorem C88_partial {run : Run} (hic : run.opts.ignoreCase = true) {b b' : Buf} (hb : SameInput b b') {ls ls' : List CLine}
    (hf : ∀ l ∈ ls, CaseFree l) (hs : List.Forall₂ SameCheck ls ls') (imp : List Str) (env : Vars) :
    verifyLines run imp ls' env b' = verifyLines run imp ls env b := NoCase.lines_same hic hb hf hs imp env

/-- C88 for the text of a check file, partial as above. -/
theorem C88_text_partial {run : Run} (hic : run.opts.ignoreCase = true) {b b' : Buf} (hb : SameInput b b') {cfg : Lex.Cfg} {allow : Bool}
    {text text' : Str} {ls ls' : List CLine} (hp : Lex.parse cfg allow text = .ok ls) (hp' : Lex.parse cfg allow text' = .ok ls')
    (hf : ∀ l ∈ ls, CaseFree l) (hs : List.Forall₂ SameCheck ls ls') (imp : List Str) (env : Vars) :
    TextPasses run imp cfg allow text' env b' ↔ TextPasses run imp cfg allow text env b := by
  unfold TextPasses verifyText
  rw [hp, hp']
  show (∃ ms, Except.ok (verifyLines run imp ls' env b') = _) ↔ ∃ ms, Except.ok (verifyLines run imp ls env b) = _
  rw [NoCase.lines_same hic hb hf hs imp env]

/-- C88, partial, also of the texts of `CHECK-NOT` lines: if these are all text, and lines with different texts stay different and lines with
the same text the same (otherwise it is false: `C88_apart_refuted`). -/
theorem C88_groups_partial {run : Run} (hic : run.opts.ignoreCase = true) {b b' : Buf} (hb : SameInput b b') {ls ls' : List CLine}
    (hf : ∀ l ∈ ls, CaseFree l) {imp : List Str} (hs : List.Forall₂ (fun l l' => SameCheck l l' ∨ SameNot l l') ls ls')
    (hn : KeepsApart .not imp ls ls') (env : Vars) :
    verifyLines run imp ls' env b' = verifyLines run imp ls env b := NoCase.groups_same hic hb hf hs hn env

/-- The same for the text of check files. -/
theorem C88_groups_text_partial {run : Run} (hic : run.opts.ignoreCase = true) {b b' : Buf} (hb : SameInput b b') {cfg : Lex.Cfg} {allow : Bool}
    {text text' : Str} {ls ls' : List CLine} (hp : Lex.parse cfg allow text = .ok ls) (hp' : Lex.parse cfg allow text' = .ok ls')
    (hf : ∀ l ∈ ls, CaseFree l) {imp : List Str} (hs : List.Forall₂ (fun l l' => SameCheck l l' ∨ SameNot l l') ls ls')
    (hn : KeepsApart .not imp ls ls') (env : Vars) :
    TextPasses run imp cfg allow text' env b' ↔ TextPasses run imp cfg allow text env b := by
  unfold TextPasses verifyText
  rw [hp, hp']
  show (∃ ms, Except.ok (verifyLines run imp ls' env b') = _) ↔ ∃ ms, Except.ok (verifyLines run imp ls env b) = _
  rw [NoCase.groups_same hic hb hf hs hn env]

/-- The options with `--ignore-case`. -/
def icRun : Run := ⟨⟨true, false⟩, {}, true, id⟩

instance : DecidablePred Spec.Captures := fun x => by unfold Spec.Captures; split <;> infer_instance
instance : DecidablePred TextOrRegex := fun x => by unfold TextOrRegex; split <;> infer_instance
instance : DecidablePred IsRegex := fun x => by unfold IsRegex; split <;> infer_instance
instance : DecidablePred CaseFree := fun l => by unfold CaseFree; split <;> infer_instance

/-- The lines of a check file are of the kind the claim is about. -/
def freeText (text : Str) : Bool :=
  match Lex.parse exCfg false text with
  | .ok ls => ls.all fun l => decide (CaseFree l)
  | .error _ => false

theorem freeText_of {text : Str} (h : freeText text = true) : ∃ ls, Lex.parse exCfg false text = .ok ls ∧ ∀ l ∈ ls, CaseFree l := by
  unfold freeText at h
  split at h
  · rename_i ls hls
    refine ⟨ls, hls, ?_⟩
    intro l hl
    simpa using List.all_eq_true.1 h l hl
  · simp at h

/-- A check file. -/
def icText : String := "CHECK-LABEL: Begin\nCHECK: {{[a-f]+}} end\nCHECK-NEXT: [[TAG]]\nCHECK-DAG: x{{[0-9]}}\nCHECK-NOT: done\n"
/-- The variables. -/
def icVars : Vars := Bindings.empty.insert (.user "TAG") (.str "foo".toList)
/-- The input. -/
def icInput : Buf := Regex.utf8 "begin\nBEEF END\nFoo\nX1\n".toList

example : freeText icText.toList = true := by decide +kernel
example : TextPasses icRun [] exCfg false icText.toList icVars icInput := textPasses_of (by decide +kernel)
example : ¬ TextPasses exRun [] exCfg false icText.toList icVars icInput := not_textPasses_of (by decide +kernel)
example : ¬ TextPasses icRun [] exCfg false icText.toList icVars (icInput ++ Regex.utf8 "DONE\n".toList) :=
  not_textPasses_of (by decide +kernel)

/-- The input with its lower case letters in upper case. -/
def upper (b : Buf) : Buf := b.map fun x => if 97 ≤ x.toNat ∧ x.toNat ≤ 122 then x - 32 else x

theorem upper_same (b : Buf) : SameInput b (upper b) := by
  unfold SameInput upper
  rw [List.forall₂_map_right_iff, List.forall₂_same]
  intro x _
  rw [NoCase.lower_iff, ← UInt8.toNat_inj, asciiLower_toNat, asciiLower_toNat]
  split_ifs with h h2 h3 h4 <;> first | rfl | (rw [UInt8.toNat_sub_of_le _ _ (by rw [UInt8.le_iff_toNat_le]; simp; omega)] at *; simp at *; omega) | omega

/-- The theorem applies: the same input in upper case. -/
example : TextPasses icRun [] exCfg false icText.toList icVars (upper icInput) := by
  obtain ⟨ls, h1, h2⟩ := freeText_of (text := icText.toList) (by decide +kernel)
  exact (C88_text_partial rfl (upper_same _) h1 h1 h2 (List.forall₂_same.2 fun l _ => .inl rfl) [] icVars).2 (textPasses_of (by decide +kernel))

/-- The lines `CHECK: a`, `CHECK-NOT: x` and `CHECK-NOT: y`; the texts are given. -/
def caseLines (a x y : Char) : List CLine := [⟨.plain, false, .literal [a]⟩, ⟨.not, false, .literal [x]⟩, ⟨.not, false, .literal [y]⟩]

theorem caseLines_same : List.Forall₂ (fun l l' => SameCheck l l' ∨ SameNot l l') (caseLines 'a' 'x' 'y') (caseLines 'A' 'X' 'y') :=
  .cons (.inl (.inr ⟨rfl, rfl, by simp [caseLines], by simp [caseLines], _, _, rfl, rfl, .cons (.inr (.inr ⟨by decide, by decide, by decide⟩)) .nil⟩))
    (.cons (.inr ⟨rfl, rfl, rfl, _, _, rfl, rfl, .cons (.inr (.inr ⟨by decide, by decide, by decide⟩)) .nil⟩)
    (.cons (.inr ⟨rfl, rfl, rfl, _, _, rfl, rfl, .cons (.inl rfl) .nil⟩) .nil))

/-- Did the test pass? -/
def casePassed (x : P Verdict) : Bool :=
  match x with
  | .ok (.pass _) => true
  | _ => false

/-- `C88_groups_partial` applies: the test passes if the input has the text, in any case, and fails if it has an excluded one. -/
example : casePassed (verifyLines icRun [] (caseLines 'A' 'X' 'y') Bindings.empty (Regex.utf8 "a\nz\n".toList)) = true := by
  rw [C88_groups_partial rfl (NoCase.refl_same _) (by decide) caseLines_same
    (Spaces.apartB_sound rfl (by decide +kernel))]
  decide +kernel
example : casePassed (verifyLines icRun [] (caseLines 'A' 'X' 'y') Bindings.empty (upper (Regex.utf8 "a\nx\n".toList))) = false := by
  rw [C88_groups_partial rfl (upper_same _) (by decide) caseLines_same (Spaces.apartB_sound rfl (by decide +kernel))]
  decide +kernel

/-- C88 is false of `CHECK-NOT` lines with the same text: repeated ones make the program panic (C78), unless they differ in case. -/
theorem C88_apart_refuted :
    TextPasses icRun [] exCfg false "CHECK: a\nCHECK-NOT: z\nCHECK-NOT: Z\nCHECK-NOT: y\nCHECK-NOT: Y\n".toList Bindings.empty
      (Regex.utf8 "a b\n".toList) ∧
    ¬ TextPasses icRun [] exCfg false "CHECK: a\nCHECK-NOT: z\nCHECK-NOT: z\nCHECK-NOT: y\nCHECK-NOT: y\n".toList Bindings.empty
      (Regex.utf8 "a b\n".toList) :=
  ⟨textPasses_of (by decide +kernel), not_textPasses_of (by decide +kernel)⟩

/-- C88 is false of literal `CHECK-DAG` lines: they do not ignore case. -/
theorem C88_dag_refuted :
    TextPasses icRun [] exCfg false "CHECK-DAG: ab\n".toList Bindings.empty (Regex.utf8 "ab\n".toList) ∧
      ¬ TextPasses icRun [] exCfg false "CHECK-DAG: ab\n".toList Bindings.empty (upper (Regex.utf8 "ab\n".toList)) :=
  ⟨textPasses_of (by decide +kernel), not_textPasses_of (by decide +kernel)⟩

/-- Nor does the first literal of a `CHECK-NOT` line which goes on with a variable. -/
theorem C88_not_refuted :
    ¬ TextPasses icRun [] exCfg false "CHECK: a\nCHECK-NOT: ab[[TAG]]\n".toList icVars (Regex.utf8 "a\nabfoo\n".toList) ∧
      TextPasses icRun [] exCfg false "CHECK: a\nCHECK-NOT: ab[[TAG]]\n".toList icVars (upper (Regex.utf8 "a\nabfoo\n".toList)) :=
  ⟨not_textPasses_of (by decide +kernel), textPasses_of (by decide +kernel)⟩

/-- Nor can it hold of captured text, which is used as a regular expression: `\w` is a word character, `\W` is not. -/
theorem C88_captured_refuted :
    TextPasses icRun [] exCfg false "CHECK: [[X:.w]]\nCHECK-NEXT: [[X]]\n".toList Bindings.empty (Regex.utf8 "\\w\nb\n".toList) ∧
      ¬ TextPasses icRun [] exCfg false "CHECK: [[X:.w]]\nCHECK-NEXT: [[X]]\n".toList Bindings.empty (Regex.utf8 "\\W\nb\n".toList) :=
  ⟨textPasses_of (by decide +kernel), not_textPasses_of (by decide +kernel)⟩

end Litcheck
