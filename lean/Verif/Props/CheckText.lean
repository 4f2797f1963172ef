import Verif.Proofs.NonEmpty
import Verif.Spec.Satisfies
import Verif.Proofs.BoolExpr

/-!
# Property C79: from the text of a check file to the input

The specification is `Verif/Spec/Satisfies.lean`, with the meaning of patterns of `Verif/Spec/Pattern.lean`. No hypothesis is left on the
behaviour of the matchers: only on the text (`GoodFile`) and on the line endings of the input.
-/

namespace Litcheck
open Spec
variable {E : Type}

theorem FileLaid.satisfies {mean : Line E → Meaning E} {b : Buf} {enter : E → E} {env : E}
    {blocks : List (Option (Line E) × List (Line E))} {region lab : Nat → Nat × Nat} {place : Nat → Nat → Nat × Nat} {envs : Nat → Nat → E}
    (hl : FileLaid mean b enter env blocks region lab place envs) : Satisfies mean b enter env blocks region lab place envs := by
  have hfit : ∀ k blk i l p, blocks[k]? = some blk → blk.2[i]? = some l → EndBefore blk.2 (place k) (region k).1 i p →
      ∃ e0, Placed b (region k).1 (region k).2 (blk.2.map (Line.directive mean)) (enter e0) (place k) (envs k) ∧
      Fits b (region k).2 (l.directive mean) p (envs k i) (place k i) (envs k (i + 1)) := by
    intro k blk i l p hk hi hp
    obtain ⟨e0, hpl⟩ := hl.placed k blk hk
    exact ⟨e0, hpl, hpl.fits i (l.directive mean) p (by simp [hi]) (endBefore_directive hp)⟩
  have hafter : ∀ k blk i l p, blocks[k]? = some blk → blk.2[i]? = some l → l.kind ≠ .not → l.kind ≠ .dag →
      EndBefore blk.2 (place k) (region k).1 i p → p ≤ (place k i).1 := by
    intro k blk i l p hk hi hn hn2 hp
    obtain ⟨e0, hpl⟩ := hl.placed k blk hk
    have hposi : Positive (blk.2.map (Line.directive mean)) i := pos_directive.2 ⟨l, hi, hn⟩
    obtain ⟨h1, h2, h3 | ⟨j, h4, h5, h6⟩⟩ := hp
    · have := (hpl.inside i hposi).1; omega
    · rw [← h6]
      refine hpl.order j i h4 (pos_directive.2 h5) hposi (fun hx => ?_)
      obtain ⟨d, hd1, hd2⟩ := hx i (by omega) (Nat.le_refl _)
      simp only [List.getElem?_map, hi, Option.map_some, Option.some.injEq] at hd1
      subst hd1
      exact hn2 hd2
  refine ⟨hl.matching, ?_, ?_, ?_, ?_, ?_, ?_, ?_, hl.label, fun k l ls hk => (hl.prev k l ls hk).symm, hl.first, hl.last, hl.entry, hl.chain, ?_, ?_, hl.dags, hl.groups⟩
  · intro k blk i j hk hij hi hj hd
    obtain ⟨e0, hp⟩ := hl.placed k blk hk
    exact hp.order i j hij (pos_directive.2 hi) (pos_directive.2 hj) (fun hx => hd (dagRun_directive.1 hx))
  · intro k blk i l p hk hi hn hp
    obtain ⟨e0, hpl, hf⟩ := hfit k blk i l p hk hi hp
    simp only [Fits, Line.directive, hn] at hf
    exact ⟨hafter k blk i l p hk hi (by rw [hn]; simp) (by rw [hn]; simp) hp, hf.2⟩
  · intro k blk i l p hk hi hn hp
    obtain ⟨e0, hpl, hf⟩ := hfit k blk i l p hk hi hp
    simp only [Fits, Line.directive, hn] at hf
    exact ⟨hafter k blk i l p hk hi (by rw [hn]; simp) (by rw [hn]; simp) hp, hf.2⟩
  · intro k blk i l p hk hi hn hp
    obtain ⟨e0, hpl, hf⟩ := hfit k blk i l p hk hi hp
    simp only [Fits, Line.directive, hn] at hf
    exact ⟨hf.1, hf.2.1⟩
  · intro k blk i l p n hk hi hn hp hnx
    obtain ⟨e0, hpl⟩ := hl.placed k blk hk
    exact hpl.absent i (l.directive mean) p n (by simp [hi]) hn (endBefore_directive hp) (startAfter_directive hnx)
  · intro k blk i l n p hk hi hn hp
    obtain ⟨e0, hpl, hf⟩ := hfit k blk i l p hk hi hp
    simp only [Fits, Line.directive, hn] at hf
    exact hf
  · intro k blk i j hk hij hi hj
    obtain ⟨e0, hp⟩ := hl.placed k blk hk
    exact hp.disjoint i j hij (pos_directive.2 hi) (pos_directive.2 hj)
  · intro k blk i l hk hi hn
    obtain ⟨p, hp⟩ := endBefore_exists blk.2 (place k) (region k).1 i
    obtain ⟨e0, hpl, hf⟩ := hfit k blk i l p hk hi hp
    rcases hn with hn | hn | hn <;> simp only [Fits, Line.directive, hn] at hf
    · exact hf
    · exact hf.1
    · exact hf.1
  · intro k blk i l hk hi hn
    obtain ⟨p, hp⟩ := endBefore_exists blk.2 (place k) (region k).1 i
    obtain ⟨e0, hpl, hf⟩ := hfit k blk i l p hk hi hp
    rcases hn with hn | hn <;> simp only [Fits, Line.directive, hn] at hf
    · exact hf
    · exact hf.2.2

end Litcheck

namespace Litcheck.Lex

theorem parseCheck_count {k : Kind} {ts r : List Lexed} {l : CLine} (h : parseCheck k ts = .ok (l, r)) : l.kind ≠ .count 0 := by
  unfold parseCheck at h
  obtain ⟨⟨lit, r1⟩, _, h⟩ := BParse.bind_ok'.1 h
  dsimp only at h
  by_cases hk : k = .count 0
  · rw [if_pos hk] at h; simp at h
  · rw [if_neg hk] at h
    have : l.kind = k := by
      split at h
      · obtain ⟨x, _, h⟩ := BParse.bind_ok'.1 h
        split at h
        · split at h
          · simp at h
          · simp only [Except.ok.injEq, Prod.mk.injEq] at h; rw [← h.1]
        · split at h
          · simp only [Except.ok.injEq, Prod.mk.injEq] at h; rw [← h.1]
          · simp at h
        · simp at h
        · simp at h
      · obtain ⟨x, _, h⟩ := BParse.bind_ok'.1 h
        obtain ⟨y, _, h⟩ := BParse.bind_ok'.1 h
        simp only [Except.ok.injEq, Prod.mk.injEq] at h; rw [← h.1]
    rw [this]; exact hk

theorem parseLoop_count : ∀ (n : Nat) {acc : List CLine} {ts : List Lexed} {ls : List CLine}, parseLoop n acc ts = .ok ls →
    (∀ l ∈ acc, l.kind ≠ .count 0) → ∀ l ∈ ls, l.kind ≠ .count 0
  | 0, acc, ts, ls, h, ha => by
    simp only [parseLoop, Except.ok.injEq] at h
    subst h; exact ha
  | n + 1, acc, ts, ls, h, ha => by
    rw [parseLoop.eq_def] at h
    dsimp only at h
    split at h
    · simp only [Except.ok.injEq] at h; subst h; exact ha
    · simp at h
    · simp at h
    · exact parseLoop_count n h ha
    · obtain ⟨⟨l, r⟩, h1, h2⟩ := BParse.bind_ok'.1 h
      refine parseLoop_count n h2 ?_
      intro x hx
      rcases List.mem_append.1 hx with hx | hx
      · exact ha x hx
      · simp only [List.mem_singleton] at hx
        subst hx; exact parseCheck_count h1
    · exact parseLoop_count n h ha
    · simp at h
    · simp at h

/-- `CHECK-COUNT-0` is rejected. -/
theorem parse_count {cfg : Cfg} {allow : Bool} {text : Str} {ls : List CLine} (h : parse cfg allow text = .ok ls) :
    ∀ l ∈ ls, l.kind ≠ .count 0 := by
  unfold parse at h
  dsimp only at h
  obtain ⟨x, h1, h2⟩ := BParse.bind_ok'.1 h
  split at h2
  · simp at h2
  · simp only [Except.ok.injEq] at h2
    subst h2
    exact parseLoop_count _ h1 (by simp)

end Litcheck.Lex

namespace Litcheck.Sets
open Litcheck.Smart Litcheck.Spec Litcheck.PatternSpec Litcheck.Pattern
open Litcheck.Lex (CPat CLine)

/-- The test passes: `text` is the check file, `b` the input, `imp` the patterns of `--implicit-check-not`, `env` the variables of the
command line. -/
def TextPasses (run : Run) (imp : List Str) (cfg : Lex.Cfg) (allowUnused : Bool) (text : Str) (env : Vars) (b : Buf) : Prop :=
  ∃ ms, verifyText run imp cfg allowUnused text env b = .ok (.ok (.pass ms))

/-- **C79**: if the test passes, the text is read as check lines, and the input satisfies them: there are places for all of them as
C01, C03 – C09 and C53 require, where the pattern written on the line matches (`meaning`).
Missing (hence partial): check files which are not `GoodFile`, inputs with CRLF line endings and directives which look at lines; and the reading of the patterns is the weak
one (C68): a number matched by `[[#X: e]]` need not be the value of `e`, and the text of a variable is read as a regular expression if it
has special characters. See C76 – C78 for the check files which are not `GoodFile`. -/
theorem C79_text_partial {run : Run} {imp : List Str} {cfg : Lex.Cfg} {allowUnused : Bool} {text : Str} {env : Vars} {b : Buf}
    (h : TextPasses run imp cfg allowUnused text env b) :
    ∃ ls, Lex.parse cfg allowUnused text = .ok ls ∧ (GoodFile run imp ls → Readable (ls.map CLine.kind) b →
      ∃ lines, Numbered ls lines ∧ ∃ region lab place envs,
        Satisfies (lineMean run (patsOf ls imp)) b (enterEnv run.check Bindings.clear) env (fileBlocks (implicitLine ls imp) lines)
          region lab place envs) := by
  obtain ⟨ms, h⟩ := h
  unfold verifyText at h
  cases hp : Lex.parse cfg allowUnused text with
  | error e => rw [hp] at h; simp [Except.map] at h
  | ok ls =>
    rw [hp] at h
    simp only [Except.map, Except.ok.injEq] at h
    refine ⟨ls, rfl, fun hg hlf => ?_⟩
    unfold verifyLines at h
    obtain ⟨x, h1, h2⟩ := bind_ok.1 h
    cases x with
    | none => simp at h2
    | some lines =>
      dsimp only at h2
      refine ⟨lines, compileAll_numbered h1, ?_⟩
      obtain ⟨region, lab, place, envs, hl⟩ := Passes.laid (file_setting hg (Lex.parse_count hp) h1 hlf) ⟨ms, h2⟩
      exact ⟨region, lab, place, envs, hl.satisfies⟩

end Litcheck.Sets

namespace Litcheck.Sets
open Litcheck.Smart Litcheck.Spec
open Litcheck.Lex (CPat CLine)

/-- Does the result say that the test passes? -/
def passed : Except Lex.PErr (P Verdict) → Bool
  | .ok (.ok (.pass _)) => true
  | _ => false

theorem textPasses_of {run : Run} {imp : List Str} {cfg : Lex.Cfg} {allow : Bool} {text : Str} {env : Vars} {b : Buf}
    (h : passed (verifyText run imp cfg allow text env b) = true) : TextPasses run imp cfg allow text env b := by
  unfold passed at h
  split at h
  · exact ⟨_, ‹_›⟩
  · simp at h

theorem not_textPasses_of {run : Run} {imp : List Str} {cfg : Lex.Cfg} {allow : Bool} {text : Str} {env : Vars} {b : Buf}
    (h : passed (verifyText run imp cfg allow text env b) = false) : ¬ TextPasses run imp cfg allow text env b := by
  rintro ⟨ms, h1⟩
  rw [h1] at h
  exact absurd h (by simp [passed])

/-- Is the text of a check file good? -/
def goodText (run : Run) (imp : List Str) (cfg : Lex.Cfg) (allow : Bool) (text : Str) : Bool :=
  match Lex.parse cfg allow text with | .ok ls => goodFile run imp ls | .error _ => false

theorem goodText_of {run : Run} {imp : List Str} {cfg : Lex.Cfg} {allow : Bool} {text : Str} (h : goodText run imp cfg allow text = true) :
    ∃ ls, Lex.parse cfg allow text = .ok ls ∧ GoodFile run imp ls := by
  unfold goodText at h
  split at h
  · exact ⟨_, ‹_›, goodFile_sound h⟩
  · simp at h

/-- The default options, with checked arithmetic. -/
def exRun : Run := ⟨⟨false, false⟩, {}, true, id⟩

/-- The default configuration of the parser: the prefixes `CHECK`, `COM` and `RUN`. -/
def exCfg : Lex.Cfg := ⟨[], [], false, false⟩

def exText : String := "CHECK: begin
CHECK-LABEL: {{fn [a-z]+}}
CHECK: %[[R:[0-9]+]] = load
CHECK-NOT: {{bad[0-9]}}
CHECK-NOT: worse
CHECK-DAG: use
CHECK-DAG: def
CHECK: ret %[[R]] #[[#N:]];
CHECK-EMPTY:
CHECK-NEXT: x{{y?}}
CHECK-COUNT-2: z
CHECK-SAME: w
CHECK-DAG: p{{[0-9]+}};
CHECK-DAG: q{{[0-9]+}};
"

def exInput : String := "begin
fn main
%12 = load def use
ret %12 #7;

xy
z z w
q77; p5;
"

/-- The hypotheses of C79 are met by a check file with all kinds of lines, regular expressions and variables. -/
example : TextPasses exRun ["error".toList] exCfg false exText.toList Bindings.empty (Regex.utf8 exInput.toList) :=
  textPasses_of (by decide +kernel)

/-- … but not if the pattern of `--implicit-check-not` occurs before the first match. -/
example : ¬ TextPasses exRun ["error".toList] exCfg false exText.toList Bindings.empty (Regex.utf8 ("error\n" ++ exInput).toList) :=
  not_textPasses_of (by decide +kernel)

/-- Its lines are good. -/
example : ∃ ls, Lex.parse exCfg false exText.toList = .ok ls ∧ GoodFile exRun ["error".toList] ls := goodText_of (by decide +kernel)

example : LFMode (Regex.utf8 exInput.toList) := lfMode_of_noCR (by decide +kernel)

end Litcheck.Sets
