import Verif.Proofs.BindsNothing
import Verif.Props.CheckText

/-! **C100**. Variables on `CHECK-LABEL` lines are refused: labels are found before any other line is matched, so nothing
which they would capture could reach the lines before them. -/

namespace Litcheck.Pattern
open Litcheck.Lex (CPat Part MentionsVar)

/-- A pattern which mentions a variable is not compiled for a label. -/
theorem compileStatic_mentions {eng : Regex.Engine} {o : Opts} {p : CPat} {x : Part} (hx : x ∈ PatternSpec.partsOf p) (hm : MentionsVar x) :
    compileStatic eng o p = .ok none := by
  unfold compileStatic
  rcases compact_mentions hx hm with ⟨ps, h⟩ | ⟨r, h, hc⟩
  · rw [h]
  · rw [h]
    have : r.caps.isEmpty = false := by simpa using hc
    simp [this]

end Litcheck.Pattern

namespace Litcheck.Sets
open Litcheck.Smart Litcheck.Spec Litcheck.PatternSpec
open Litcheck.Lex (CPat CLine Part MentionsVar)
open Litcheck.Pattern (compileStatic compileStatic_mentions)

theorem compileAll_label {run : Run} {l : CLine} {x : Part} (hk : l.kind = .label) (hx : x ∈ partsOf l.pattern) (hm : MentionsVar x) :
    ∀ (ls : List CLine) (n : Nat) (lines : List (Line Vars)), l ∈ ls → compileAll run ls n ≠ .ok (some lines) := by
  intro ls
  induction ls with
  | nil => intro n lines h; simp at h
  | cons a as ih =>
    intro n lines h he
    unfold compileAll at he
    obtain ⟨y, h1, h2⟩ := bind_ok.1 he
    cases y with
    | none => simp at h2
    | some y =>
      dsimp only at h2
      obtain ⟨z, h3, h4⟩ := bind_ok.1 h2
      cases z with
      | none => simp at h4
      | some z =>
        rcases List.mem_cons.1 h with rfl | h
        · unfold compileLine at h1
          rw [hk] at h1
          dsimp only at h1
          obtain ⟨c, h5, h6⟩ := bind_ok.1 h1
          rw [compileStatic_mentions hx hm] at h5
          simp only [Except.ok.injEq] at h5
          subst h5
          simp at h6
        · exact ih (n + 1) z h h3

/-- **C100**: if a `CHECK-LABEL` line of a check file mentions a variable, the file is refused as invalid, whatever the input, the
options and the definitions are: no verdict about the input is reached. -/
theorem C100_refused {run : Run} {imp : List Str} {cfg : Lex.Cfg} {allow : Bool} {text : Str} {env : Vars} {b : Buf} {ls : List CLine}
    {l : CLine} {x : Part} (hp : Lex.parse cfg allow text = .ok ls) (hl : l ∈ ls) (hk : l.kind = .label) (hx : x ∈ partsOf l.pattern)
    (hm : MentionsVar x) {v : Verdict} (h : verifyText run imp cfg allow text env b = .ok (.ok v)) : v = .invalid .pattern := by
  unfold verifyText at h
  rw [hp] at h
  simp only [Except.map, Except.ok.injEq] at h
  unfold verifyLines at h
  obtain ⟨y, h1, h2⟩ := bind_ok.1 h
  cases y with
  | none =>
    simp only [Except.ok.injEq] at h2
    exact h2.symm
  | some lines => exact absurd h1 (compileAll_label hk hx hm ls 0 lines hl)

/-- **C100**: so if a test passes, or fails because of its input, no label mentions a variable; and what a label stands for does
not depend on the values of variables, and finding it changes none. -/
theorem C100_fixed {run : Run} {imp : List Str} {cfg : Lex.Cfg} {allow : Bool} {text : Str} {env : Vars} {b : Buf} {v : Verdict}
    (h : verifyText run imp cfg allow text env b = .ok (.ok v)) (hv : ∀ e, v ≠ .invalid e) :
    ∃ ls, Lex.parse cfg allow text = .ok ls ∧ ∀ l ∈ ls, l.kind = .label → (∀ x ∈ partsOf l.pattern, ¬ MentionsVar x) ∧
      ∀ cx b env i j env', meaning cx l.pattern env b i j env' → env' = env ∧ ∀ env2, meaning cx l.pattern env2 b i j env2 := by
  cases hp : Lex.parse cfg allow text with
  | error e => unfold verifyText at h; rw [hp] at h; simp [Except.map] at h
  | ok ls =>
    refine ⟨ls, rfl, fun l hl hk => ?_⟩
    have hno : ∀ x ∈ partsOf l.pattern, ¬ MentionsVar x := fun x hx hm => hv _ (C100_refused hp hl hk hx hm h)
    refine ⟨hno, fun cx b env i j env' hm => ⟨parts_fixed hno hm, fun env2 => ?_⟩⟩
    unfold meaning at hm ⊢
    generalize partsOf l.pattern = ps at hno hm
    clear h hp hl hk
    induction hm with
    | nil => exact .nil
    | @cons env i p ps k env' j env'' h1 _ ih =>
      have hq := hno p List.mem_cons_self
      refine .cons ?_ (ih fun x hx => hno x (List.mem_cons_of_mem _ hx))
      cases p with
      | literal s => exact ⟨rfl, h1.2⟩
      | regex s => exact ⟨rfl, h1.2⟩
      | match_ m =>
        cases m with
        | substitution y pt => exact absurd trivial hq
        | numeric f cap e =>
          cases cap with
          | some y => exact absurd (.inl (by simp)) hq
          | none =>
            cases e with
            | some e => exact absurd (.inr (by simp)) hq
            | none => exact ⟨rfl, h1.2⟩

/-- Is the check file refused? -/
def refused : Except Lex.PErr (P Verdict) → Bool
  | .ok (.ok (.invalid .pattern)) => true
  | _ => false

/-- The hypotheses are met: labels which capture, use and constrain variables are refused … -/
example : (["f[[X:[0-9]]]", "f[[X]]", "f[[#N:]]", "f[[#@LINE]]", "{{f}}[[#%x,N:3]]"].all fun s =>
    refused (verifyText exRun [] exCfg false ("CHECK-LABEL: ".toList ++ s.toList ++ "\nCHECK: z\n".toList) Bindings.empty
      (Regex.utf8 "f1\nz\n".toList))) = true := by decide +kernel

/-- … and text, `{{…}}` and `[[#]]` are not. -/
example : (["f1", "f{{[0-9]}}", "f[[#]]", "{{f}}[[#%x,]]"].all fun s =>
    passed (verifyText exRun [] exCfg false ("CHECK-LABEL: ".toList ++ s.toList ++ "\nCHECK: z\n".toList) Bindings.empty
      (Regex.utf8 "f1\nz\n".toList))) = true := by decide +kernel

/-- **C53** in files: a variable which a line before a label captures is read by a line after it … -/
example : TextPasses exRun [] exCfg false "CHECK: f[[$X:[0-9]]]\nCHECK-LABEL: L\nCHECK: [[$X]]\n".toList Bindings.empty
    (Regex.utf8 "f1\nL\n1\n".toList) := textPasses_of (by decide +kernel)

/-- … and the text of another match does not do. -/
example : ¬ TextPasses exRun [] exCfg false "CHECK: f[[$X:[0-9]]]\nCHECK-LABEL: L\nCHECK: [[$X]]\n".toList Bindings.empty
    (Regex.utf8 "f1\nL\n2\n".toList) := not_textPasses_of (by decide +kernel)

/-- What a `CHECK-DAG` line captures is read by the lines after it. -/
example : TextPasses exRun [] exCfg false "CHECK-DAG: f[[X:[0-9]]]\nCHECK: [[X]]\n".toList Bindings.empty
    (Regex.utf8 "f1\nL\n1\n".toList) := textPasses_of (by decide +kernel)

example : ¬ TextPasses exRun [] exCfg false "CHECK-DAG: f[[X:[0-9]]]\nCHECK: [[X]]\n".toList Bindings.empty
    (Regex.utf8 "f1\nL\n2\n".toList) := not_textPasses_of (by decide +kernel)

end Litcheck.Sets
