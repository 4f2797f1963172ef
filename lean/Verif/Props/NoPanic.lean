import Verif.Proofs.TameCheck
import Verif.Props.CheckText
import Verif.Props.Sets
import Verif.Proofs.CaptureText
import Verif.Props.Abort

/-!
# Property C13: checking never aborts

The specification is `Verif/Spec/Orderly.lean`.
-/

namespace Litcheck
open Spec
variable {E : Type}

/-- **C13**, for any matchers which answer with matches in the searched range: if the directives are in order, the run ends with a verdict.
Missing (hence partial): CRLF inputs with directives which look at lines, and the other orders of directives, for which it is false (`C13_next_label_refuted`, `C13_dag_not_refuted`,
`C13_crlf_refuted`); groups for which there is no matcher (`C13_duplicates_refuted`). -/
theorem C13_rules_partial {sc : SetCompiler E} {o : CheckOpts} {clear : E → E} {imp : Option (Line E)} {lines : List (Line E)}
    (himp : ∀ l ∈ imp, l.kind = .not) (horder : OrderlyFile imp.isSome (lines.map Line.kind))
    (hpat : ∀ l ∈ lines, l.kind ≠ .not → l.kind ≠ .dag → l.kind ≠ .empty → l.pat.Tame)
    (hsame : ∀ l ∈ lines, l.kind = .same → l.pat.NeverEmpty)
    (hlabel : ∀ l ∈ lines, l.kind = .label → l.pat.OneLine)
    (hnots : ∀ g, NotRun imp lines g → g ≠ [] → (∀ l ∈ g, l.kind = .not) → ∃ r, sc.nots g = .ok r ∧ ∀ p, r = some p → p.Located)
    (hdags : ∀ g, g <:+: lines → g ≠ [] → (∀ l ∈ g, l.kind = .dag) → ∃ r, sc.dags g = .ok r ∧ ∀ d, r = some d → d.Tame)
    (env : E) {b : Buf} (hlf : Readable (lines.map Line.kind) b) : ∃ v, verify sc o clear imp lines env b = .ok v :=
  verify_total (fileTame himp horder hpat hsame hlabel hnots hdags) himp env hlf

end Litcheck

namespace Litcheck.Sets
open Litcheck.Smart Litcheck.Spec Litcheck.PatternSpec Litcheck.Pattern
open Litcheck.Lex (Part Match CPat CLine)

/-- **C13**, from the text of the check file: if it is accepted by the parser and is a `PlainFile`, its run on any input with LF line endings (on any
input at all, if no directive looks at lines) ends with a verdict, with any variables defined and any options.
Missing (hence partial): the files which are not `PlainFile`, and CRLF inputs with directives which look at lines; it is false of each kind of them, see the theorems
`C13_…_refuted` here and in `Verif/Props/FileCheckLiteral.lean`, `C76_…` – `C78_…` for groups with variables. -/
theorem C13_text_partial {run : Run} {imp : List Str} {cfg : Lex.Cfg} {allowUnused : Bool} {text : Str} {ls : List CLine}
    (hp : Lex.parse cfg allowUnused text = .ok ls) (hf : PlainFile run imp ls) (env : Vars) {b : Buf} (hlf : Readable (ls.map CLine.kind) b) :
    ∃ v, verifyText run imp cfg allowUnused text env b = .ok (.ok v) := by
  obtain ⟨v, hv⟩ := verifyLines_total hf env hlf
  refine ⟨v, ?_⟩
  unfold verifyText
  rw [hp]
  simp only [Except.map, hv]

theorem unused_answers {o : Opts} {p : CPat} (hp : ∀ x ∈ partsOf p, ¬ Uses x) {c : Compiled Regex.engine}
    (hc : Pattern.compile Regex.engine o p = .ok (some c)) (cf : Conf Regex.engine) (n : Nat) (b : Buf) (r : Rng) (env : Vars) :
    ∃ m env', (c.pat cf n).run b r env = (some m, env') := by
  unfold Pattern.compile at hc
  rcases compact_unused hp with ⟨_, h⟩ | ⟨s, h⟩ | ⟨rx, h⟩
  · rw [h] at hc
    simp only [Except.ok.injEq, Option.some.injEq] at hc
    subst hc
    exact ⟨_, _, rfl⟩
  · rw [h] at hc
    dsimp only at hc
    unfold compileLit at hc
    split at hc
    · simp at hc
    · split at hc
      · split at hc
        · simp only [Except.ok.injEq, Option.some.injEq] at hc
          subst hc
          simp only [Compiled.pat, whitespacePat]
          split
          · exact ⟨_, _, rfl⟩
          · split
            · exact ⟨_, _, rfl⟩
            · exact ⟨_, _, rfl⟩
        · split at hc
          · simp at hc
          · simp only [Except.ok.injEq, Option.some.injEq] at hc
            subst hc
            exact regexPat_some (caps := []) n b r env
      · simp only [Except.ok.injEq, Option.some.injEq] at hc
        subst hc
        rcases litPat_run (ic := cf.ignoreCase) (lit := litBytes o s) (ps := n) b r env with ⟨s, e, h1, _⟩ | ⟨h1, _⟩
        · exact ⟨_, _, h1⟩
        · exact ⟨_, _, h1⟩
  · rw [h] at hc
    dsimp only at hc
    unfold compileRx at hc
    split at hc
    · simp at hc
    · simp only [Except.ok.injEq, Option.some.injEq] at hc
      subst hc
      exact regexPat_some n b r env

/-- **C13**, the matchers of the single lines which use no variable: none of them panics, stops with a diagnostic or goes on for ever, on any
input, whether it is UTF-8 or not, and whatever the pattern captures. -/
theorem C13_matchers_partial {run : Run} {imp : List Str} {ls : List CLine} {lines : List (Line Vars)} (hf : PlainFile run imp ls)
    (h : compileAll run ls 0 = .ok (some lines)) {k : Nat} {l : CLine} (h1 : ls[k]? = some l) (hu : ∀ x ∈ partsOf l.pattern, ¬ Uses x)
    {x : Line Vars} (hx : lines[k]? = some x) (hk : l.kind ≠ .not ∧ l.kind ≠ .dag ∧ l.kind ≠ .empty) (b : Buf) (r : Rng) (env : Vars) :
    ∃ m env', x.pat.run b r env = (some m, env') := by
  obtain ⟨l', h1', h2⟩ := (compileAll_spec run ls 0 h).2 k x hx
  rw [h1] at h1'
  cases h1'
  rw [Nat.zero_add] at h2
  have hl : l ∈ ls := List.mem_of_getElem? h1
  obtain ⟨h3, h4, h5, h6, h7⟩ := compileLine_spec h2
  have hlit : ∀ lit : Buf, ∃ m env', ((Compiled.substring lit : Compiled Regex.engine).pat (run.conf k) k).run b r env = (some m, env') := by
    intro lit
    rcases litPat_run (ic := (run.conf k).ignoreCase) (lit := lit) (ps := k) b r env with ⟨s, e, g1, _⟩ | ⟨g1, _⟩
    · exact ⟨_, _, g1⟩
    · exact ⟨_, _, g1⟩
  by_cases k4 : l.kind = .label
  · obtain ⟨c, e1, e2⟩ := h6 k4
    rw [e2]
    unfold compileStatic at e1
    rcases compact_unused hu with ⟨_, g⟩ | ⟨s, g⟩ | ⟨rx, g⟩
    · rw [g] at e1; simp at e1
    · rw [g] at e1
      dsimp only at e1
      split at e1
      · simp at e1
      · simp only [Except.ok.injEq, Option.some.injEq] at e1
        subst e1
        exact hlit _
    · rw [g] at e1
      dsimp only at e1
      unfold compileRx at e1
      split at e1
      · split at e1
        · simp at e1
        · simp only [Except.ok.injEq, Option.some.injEq] at e1
          subst e1
          exact regexPat_some _ b r env
      · simp at e1
  · obtain ⟨c, e1, e2⟩ := h7 hk.1 hk.2.1 hk.2.2 k4
    rw [e2]
    split at e1
    · unfold compileLiteral at e1
      split at e1
      · split at e1
        · simp at e1
        · simp only [Except.ok.injEq, Option.some.injEq] at e1
          subst e1
          exact hlit _
      · simp at e1
    · exact unused_answers hu e1 _ _ b r env

/-- **C13**, the matchers of the single lines which use variables: compiling the pattern and looking for it in any range of any input does not
panic, and ends, for any values of the variables. -/
theorem C13_uses_partial {run : Run} {imp : List Str} {ls : List CLine} (hf : PlainFile run imp ls) {l : CLine} (hl : l ∈ ls)
    (hk : l.kind ≠ .label ∧ l.kind ≠ .not ∧ l.kind ≠ .dag ∧ l.kind ≠ .empty) (hu : ∃ x ∈ partsOf l.pattern, Uses x)
    (line : Nat) {b : Buf} {r : Rng} (hr : r.start ≤ r.stop) (hb : r.stop ≤ b.length) (env : Vars) :
    ¬ Aborts run.opts line run.checked l.pattern b r env ∧ Ends run.opts line run.checked l.pattern b r env := by
  rcases hf.calm l hl hk.1 hk.2.1 hk.2.2.1 hk.2.2.2 with h | h
  · obtain ⟨x, hx, hu⟩ := hu
    exact absurd hu (h x hx)
  · refine ⟨C96_no_abort_partial h.wf (h.safe line) hr, C71_terminates_partial h.wf hb (.inr ?_)⟩
    intro x hx env' hm
    exact h.head x hx (pctx weak run.opts line) rfl rfl env b b.length env' (.cons hm .nil)

/-- Is the text that of a `PlainFile`? -/
def plainText (run : Run) (imp : List Str) (cfg : Lex.Cfg) (allow : Bool) (text : Str) : Bool :=
  match Lex.parse cfg allow text with | .ok ls => plainFileB run imp ls | .error _ => false

theorem plainText_of {run : Run} {imp : List Str} {cfg : Lex.Cfg} {allow : Bool} {text : Str} (h : plainText run imp cfg allow text = true) :
    ∃ ls, Lex.parse cfg allow text = .ok ls ∧ PlainFile run imp ls := by
  unfold plainText at h
  split at h
  · exact ⟨_, ‹_›, plainFileB_sound h⟩
  · simp at h

def calmText : String := "CHECK: begin{{s?}} [[X:.*]] [[#N:]]
CHECK-NOT: bad
CHECK-NOT: {{wors[et]}}
CHECK-LABEL: {{fn [a-z]+}}
CHECK-SAME: (
CHECK{LITERAL}: [[x]]
CHECK-COUNT-2: z[[X]]
CHECK-LABEL: fn other
CHECK: {{y*}}
CHECK-DAG: use{{[0-9]+}}
CHECK-DAG: def
CHECK: both
CHECK-NEXT: x{{y?}}[[#max(N, 2)]] [[X]]
CHECK-EMPTY:
"

/-- The hypotheses of `C13_text_partial` are met by a check file with all kinds of lines. -/
example : ∃ ls, Lex.parse exCfg false calmText.toList = .ok ls ∧ PlainFile exRun [] ls := plainText_of (by decide +kernel)

/-- There are lines which use variables, as `C13_uses_partial` asks; in a build without checks, sums and products are allowed too. -/
example : ∃ ls, Lex.parse exCfg false "CHECK: [[X:a*]]\nCHECK-NEXT: v=[[X]] [[#N:add(@LINE, mul(2, M))]]\n".toList = .ok ls ∧
    PlainFile { exRun with checked := false } [] ls ∧
    ∃ l ∈ ls, (l.kind ≠ .label ∧ l.kind ≠ .not ∧ l.kind ≠ .dag ∧ l.kind ≠ .empty) ∧ ∃ x ∈ partsOf l.pattern, Uses x := by
  obtain ⟨ls, h1, h2⟩ := plainText_of (run := { exRun with checked := false }) (imp := []) (cfg := exCfg) (allow := false)
    (text := "CHECK: [[X:a*]]\nCHECK-NEXT: v=[[X]] [[#N:add(@LINE, mul(2, M))]]\n".toList) (by decide +kernel)
  refine ⟨ls, h1, h2, ?_⟩
  have h3 : (match Lex.parse exCfg false "CHECK: [[X:a*]]\nCHECK-NEXT: v=[[X]] [[#N:add(@LINE, mul(2, M))]]\n".toList with
    | .ok ls => ls.any fun l => l.kind == .next && (partsOf l.pattern).any usesB
    | .error _ => false) = true := by decide +kernel
  rw [h1] at h3
  obtain ⟨l, hl, h4⟩ := List.any_eq_true.1 h3
  simp only [Bool.and_eq_true, beq_iff_eq, List.any_eq_true] at h4
  obtain ⟨hk, x, hx, hu⟩ := h4
  exact ⟨l, hl, by rw [hk]; exact ⟨by decide, by decide, by decide, by decide⟩, x, hx, usesB_iff.1 hu⟩

/-- Hence its run ends, on every input with LF line endings. -/
example (env : Vars) (b : Buf) (h : LFMode b) : ∃ v, verifyText exRun [] exCfg false calmText.toList env b = .ok (.ok v) := by
  obtain ⟨ls, h1, h2⟩ := plainText_of (run := exRun) (imp := []) (cfg := exCfg) (allow := false) (text := calmText.toList) (by decide +kernel)
  exact C13_text_partial h1 h2 env (.inl h)

/-- … and with a pattern of `--implicit-check-not`. -/
example : ∃ ls, Lex.parse exCfg false "CHECK: a\nCHECK-NOT: b\nCHECK-NEXT: c\nCHECK-SAME: d\n".toList = .ok ls ∧ PlainFile exRun ["error".toList] ls :=
  plainText_of (by decide +kernel)

/-- **C13** fails: `{LITERAL}` without a text aborts the compiler. -/
theorem C13_literal_empty_refuted : panics "CHECK{LITERAL}:\n" "a" = true := by decide +kernel

/-- **C13** fails: a `CHECK-SAME` which matches the empty text at the end of the last match aborts the program. -/
theorem C13_same_empty_refuted : panics "CHECK: a\nCHECK-SAME: {{b*}}\n" "a" = true := by decide +kernel

/-- **C13** fails: a label which matches the empty text at the end of a line aborts the program. -/
theorem C13_label_empty_refuted : panics "CHECK-LABEL: a\nCHECK: b\nCHECK-LABEL: {{x*}}\n" "a\nb\n" = true := by decide +kernel

/-- **C13** fails: a `CHECK-SAME` before the first label aborts the program if the label is on the first line. -/
theorem C13_same_label_refuted : panics "CHECK: zz\nCHECK-NOT: n\nCHECK-SAME: x\nCHECK-NOT: n\nCHECK-SAME: x\nCHECK-LABEL: L\n" "x L\n" = true := by
  decide +kernel

end Litcheck.Sets
