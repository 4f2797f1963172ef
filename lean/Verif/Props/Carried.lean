import Verif.Props.LabelVars

/-! **C53** of the texts: variables are carried down the check file, of which the patterns are the ones written on its lines. -/

namespace Litcheck.Sets
open Litcheck.Smart Litcheck.Spec Litcheck.PatternSpec
open Litcheck.Lex (CPat CLine)

/-- **C53** of the texts: if the test passes, then next to the places of C79 there are variables before and after each check line,
`envs k i` before line number `i` of block `k`, such that: those of the command line come first; those at the end of a block are passed
to the next block (without the local ones under `--enable-var-scope`); a line which needs one match is matched with the variables before
it, by the pattern written on it, and leaves those after it; the lines of a group of `CHECK-DAG` lines are matched, by the patterns written
on them, in the order of their places in the input, each with the variables left by the one before; and `CHECK-NOT` and `CHECK-EMPTY` lines
change nothing, nor do groups of `CHECK-DAG` lines whose patterns mention no variables.
Missing (hence partial): as in C79. -/
theorem C53_text_partial {run : Run} {imp : List Str} {cfg : Lex.Cfg} {allowUnused : Bool} {text : Str} {env : Vars} {b : Buf}
    (h : TextPasses run imp cfg allowUnused text env b) :
    ∃ ls, Lex.parse cfg allowUnused text = .ok ls ∧ (GoodFile run imp ls → Readable (ls.map CLine.kind) b →
      ∃ lines, Numbered ls lines ∧ ∃ (region : Nat → Nat × Nat) (lab : Nat → Nat × Nat) (place : Nat → Nat → Nat × Nat) (envs : Nat → Nat → Vars),
        Satisfies (lineMean run (patsOf ls imp)) b (enterEnv run.check Bindings.clear) env (fileBlocks (implicitLine ls imp) lines)
          region lab place envs ∧
        envs 0 0 = enterEnv run.check Bindings.clear env ∧
        (∀ k blk blk', (fileBlocks (implicitLine ls imp) lines)[k]? = some blk → (fileBlocks (implicitLine ls imp) lines)[k + 1]? = some blk' →
          envs (k + 1) 0 = enterEnv run.check Bindings.clear (envs k blk.2.length)) ∧
        (∀ k blk i l, (fileBlocks (implicitLine ls imp) lines)[k]? = some blk → blk.2[i]? = some l →
          l.kind = .plain ∨ l.kind = .next ∨ l.kind = .same →
            meaning (run.ctx l.pat.pspan) (patAt (patsOf ls imp) l) (envs k i) b (place k i).1 (place k i).2 (envs k (i + 1))) ∧
        (∀ k blk i n, (fileBlocks (implicitLine ls imp) lines)[k]? = some blk → WholeGroup blk.2 i n →
          ∃ order : List Nat, order.Perm (List.range' i n) ∧ order.Pairwise (fun p q => (place k p).2 ≤ (place k q).1) ∧
            InTurn (blk.2.map fun l => meaning (run.ctx l.pat.pspan) (patAt (patsOf ls imp) l)) b (place k) order
              (envs k i) (envs k (i + n))) ∧
        ∀ k blk i l, (fileBlocks (implicitLine ls imp) lines)[k]? = some blk → blk.2[i]? = some l →
          l.kind = .not ∨ l.kind = .empty ∨ (l.kind = .dag ∧ ∀ j l', blk.2[j]? = some l' → SameDags blk.2 i j →
            ∀ x ∈ partsOf (patAt (patsOf ls imp) l'), ¬ Lex.MentionsVar x) → envs k (i + 1) = envs k i) := by
  obtain ⟨ls, hp, h1⟩ := C79_text_partial h
  refine ⟨ls, hp, fun hg hr => ?_⟩
  obtain ⟨lines, hn, region, lab, place, envs, hs⟩ := h1 hg hr
  refine ⟨lines, hn, region, lab, place, envs, hs, hs.entry, hs.chain, hs.vars, hs.groups, fun k blk i l hb hl hk => ?_⟩
  rcases hk with hk | hk | ⟨hk, hno⟩
  · exact hs.keep k blk i l hb hl (.inl hk)
  · exact hs.keep k blk i l hb hl (.inr hk)
  · exact hs.dags k blk i l hb hl hk fun j l' hj hsame => binds_nothing (hno j l' hj hsame)

/-- A check file with a group which captures variables, with the hypotheses met … -/
def exGroup : String := "CHECK: a\nCHECK-DAG: p[[X:[0-9]+]];\nCHECK-DAG: q[[Y:[0-9]+]];\nCHECK: [[X]]-[[Y]]\n"

example : TextPasses exRun [] exCfg false exGroup.toList Bindings.empty (Regex.utf8 "a q1; p22; 22-1\n".toList) := textPasses_of (by decide +kernel)

example : ∃ ls, Lex.parse exCfg false exGroup.toList = .ok ls ∧ GoodFile exRun [] ls := goodText_of (by decide +kernel)

/-- … and with other values than the captured ones it fails. -/
example : ¬ TextPasses exRun [] exCfg false exGroup.toList Bindings.empty (Regex.utf8 "a q1; p22; 1-22\n".toList) :=
  not_textPasses_of (by decide +kernel)

/-- A check file whose variable is carried over a `CHECK-DAG` group and a label. -/
def exCarried : String := "CHECK: f[[$X:[0-9]]]\nCHECK-DAG: d\nCHECK-DAG: c\nCHECK-LABEL: L\nCHECK: [[$X]]\n"

/-- The hypotheses are met … -/
example : TextPasses exRun [] exCfg false exCarried.toList Bindings.empty (Regex.utf8 "f1\nc d\nL\n1\n".toList) :=
  textPasses_of (by decide +kernel)

example : ∃ ls, Lex.parse exCfg false exCarried.toList = .ok ls ∧ GoodFile exRun [] ls := goodText_of (by decide +kernel)

example : LFMode (Regex.utf8 "f1\nc d\nL\n1\n".toList) := lfMode_of_noCR (by decide +kernel)

/-- … and another value than the one captured does not do. -/
example : ¬ TextPasses exRun [] exCfg false exCarried.toList Bindings.empty (Regex.utf8 "f1\nc d\nL\n2\n".toList) :=
  not_textPasses_of (by decide +kernel)

end Litcheck.Sets
