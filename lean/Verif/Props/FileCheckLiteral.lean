import Verif.Props.FileCheck

/-!
# Check files of literals meet the hypotheses of `Verif/Props/FileCheck.lean`; examples and refutations
-/

namespace Litcheck
open Spec
variable {E : Type}

/-- Check files made of literals: every pattern is a non-empty literal, on one line; consecutive
`CHECK-DAG` literals are distinct. -/
structure LitFile (ic : Bool) (lines : List (Line E)) : Prop where
  lit : ∀ l ∈ lines, l.kind ≠ .empty → l.pat = litPat ic l.src l.pat.pspan ∧ l.src ≠ [] ∧ (10 : UInt8) ∉ l.src
  dags : ∀ x y z, lines = x ++ y ++ z → (∀ l ∈ y, l.kind = .dag) → (y.map Line.src).Nodup
  count : ∀ l ∈ lines, l.kind ≠ .count 0

theorem splitLabels_infix (lines : List (Line E)) :
    (∃ t, lines = (splitLabels lines).1 ++ t) ∧ ∀ x ∈ (splitLabels lines).2, ∃ s t, lines = s ++ x.1 :: x.2 ++ t := by
  induction lines with
  | nil => simp [splitLabels]
  | cons l ls ih =>
    obtain ⟨⟨t, ht⟩, h2⟩ := ih
    unfold splitLabels
    split
    · refine ⟨⟨l :: ls, rfl⟩, ?_⟩
      intro x hx
      rcases List.mem_cons.1 hx with rfl | hx
      · exact ⟨[], t, by simp [← ht]⟩
      · obtain ⟨s, t', h3⟩ := h2 x hx
        exact ⟨l :: s, t', by rw [List.cons_append, List.cons_append]; exact congrArg _ h3⟩
    · refine ⟨⟨t, congrArg _ ht⟩, ?_⟩
      intro x hx
      obtain ⟨s, t', h3⟩ := h2 x hx
      exact ⟨l :: s, t', by rw [List.cons_append, List.cons_append]; exact congrArg _ h3⟩

theorem headLines_none (lines : List (Line E)) : headLines none lines = (splitLabels lines).1 := by
  unfold headLines withImplicit
  simp

theorem LitFile.good {ic : Bool} {x y z : List (Line E)} (h : LitFile ic (x ++ y ++ z)) : LitGood ic y := by
  refine ⟨fun l hl hk => (h.lit l (by simp [hl]) hk).1, ?_⟩
  intro a b c hab hd
  exact h.dags (x ++ a) b (c ++ z) (by simp [hab]) hd

/-- Check files of literals meet the hypotheses of the theorems about passing tests. -/
theorem literal_setting {ic : Bool} {lines : List (Line E)} {b : Buf} (h : LitFile ic lines) (hlf : Readable (lines.map Line.kind) b) :
    Setting (litSet ic) (litMean ic) none lines b := by
  obtain ⟨⟨t, ht⟩, h2⟩ := splitLabels_infix lines
  have hmem : ∀ l ∈ (splitLabels lines).1, l ∈ lines := by
    intro l hl; rw [ht]; simp [hl]
  refine ⟨⟨LitGood ic, lit_contracts ic, ?_, ?_⟩, by simp, h.count, ?_, ?_, hlf⟩
  · rw [headLines_none]
    have : LitFile ic ([] ++ (splitLabels lines).1 ++ t) := by simpa [← ht] using h
    exact this.good
  · intro x hx
    obtain ⟨s, u, h3⟩ := h2 x hx
    have : LitFile ic ((s ++ [x.1]) ++ x.2 ++ u) := by
      have he : lines = (s ++ [x.1]) ++ x.2 ++ u := by rw [h3]; simp
      rw [← he]; exact h
    simpa using this.good
  · intro l hl hk
    obtain ⟨h3, h4, h5⟩ := h.lit l hl (by rw [hk]; simp)
    rw [h3]
    exact litPat_labelSound ic l.src _ h4 h5
  · intro _ l hl hk _ env b s e env' hm
    rw [headLines_none] at hl
    obtain ⟨_, h4, _⟩ := h.lit l (hmem l hl) hk
    obtain ⟨_, h6, _⟩ := hm
    have := List.length_pos_iff.2 h4
    omega

/-! ## Examples -/

/-- A line of a check file of literals, with its line number as pattern position. -/
def L (k : Kind) (s : String) (n : Nat) : Line Unit := litLine false k (bytes s) n

/-- Check a file of literals on an input. -/
def run (lines : List (Line Unit)) (b : Buf) : P Verdict := verify (litSet false) {} id none lines () b

/-- An example with every kind of directive. -/
def exLines : List (Line Unit) :=
  [L .plain "start" 0, L .next "ab" 1, L .same "cd" 2, L .not "bad" 3, L .dag "two" 4, L .dag "one" 5,
   L .label "func" 6, L (.count 2) "x" 7, L .empty "" 8, L .not "zzz" 9]

/-- The input of the example. -/
def exInput : Buf := bytes "start\nab cd\none two\nfunc f\nx\nx\n\nend\n"

example : run exLines exInput = .ok (.pass
    [⟨0, 5, 0, 0⟩, ⟨6, 8, 0, 1⟩, ⟨9, 11, 0, 2⟩, ⟨16, 19, 0, 4⟩, ⟨12, 15, 1, 5⟩, ⟨20, 24, 0, 6⟩, ⟨27, 28, 0, 7⟩,
     ⟨29, 30, 0, 7⟩, ⟨31, 31, 0, 8⟩]) := by rfl

theorem LitFile.of {ic : Bool} {lines : List (Line E)}
    (h1 : ∀ l ∈ lines, l.kind ≠ .empty → l.pat = litPat ic l.src l.pat.pspan ∧ l.src ≠ [] ∧ (10 : UInt8) ∉ l.src)
    (h2 : ((lines.filter Line.isDag).map Line.src).Nodup) (h3 : ∀ l ∈ lines, l.kind ≠ .count 0) : LitFile ic lines := by
  refine ⟨h1, ?_, h3⟩
  intro x y z hxyz hy
  have : (y.map Line.src).Sublist ((lines.filter Line.isDag).map Line.src) := by
    apply List.Sublist.map
    have hyf : y.filter Line.isDag = y := by
      rw [List.filter_eq_self]
      intro l hl
      simp [Line.isDag, hy l hl]
    rw [hxyz, ← hyf]
    simp only [List.filter_append, List.append_assoc]
    exact List.Sublist.trans (by simp [List.filter_filter]) (List.sublist_append_right _ _)
  exact this.nodup h2

theorem lfMode_of_noCR {b : Buf} (h : (13 : UInt8) ∉ b) : LFMode b := by
  intro n hn
  rcases Nat.eq_zero_or_pos n with h0 | h0
  · exact .inl h0
  · right
    intro hc
    exact h (List.mem_of_getElem? hc)

/-- The example meets the hypotheses of the theorems, and passes. -/
theorem ex_setting : Setting (litSet false) (litMean false) none exLines exInput :=
  literal_setting (LitFile.of
    (by
      intro l hl hk
      simp only [exLines, List.mem_cons, List.not_mem_nil, or_false] at hl
      rcases hl with rfl | rfl | rfl | rfl | rfl | rfl | rfl | rfl | rfl | rfl <;>
        first | exact ⟨rfl, by decide, by decide⟩ | exact absurd rfl hk)
    (by decide)
    (by
      intro l hl
      simp only [exLines, List.mem_cons, List.not_mem_nil, or_false] at hl
      rcases hl with rfl | rfl | rfl | rfl | rfl | rfl | rfl | rfl | rfl | rfl <;> decide))
    (.inl (lfMode_of_noCR (by decide)))

theorem ex_passes : Passes (litSet false) {} id none exLines () exInput := ⟨_, rfl⟩

-- The theorems apply to the example.
example : ∃ region place, Matching (litMean false) exInput (fileBlocks none exLines) region place :=
  let ⟨r, p, h, _⟩ := C01_ordered_partial ex_setting ex_passes
  ⟨r, p, h⟩
example : (fileBlocks none exLines).length = 2 := by rfl

/-- Check files without directives which look at lines are checked correctly on inputs with CRLF line endings, too. -/
def crlfLines : List (Line Unit) := [L .plain "ab" 0, L .not "bad" 1, L (.count 2) "x" 2, L .dag "q" 3, L .dag "p" 4]

def crlfInput : Buf := bytes "ab\r\nx\r\nx\r\np q\r\n"

theorem crlf_setting : Setting (litSet false) (litMean false) none crlfLines crlfInput :=
  literal_setting (LitFile.of
    (by
      intro l hl hk
      simp only [crlfLines, List.mem_cons, List.not_mem_nil, or_false] at hl
      rcases hl with rfl | rfl | rfl | rfl | rfl <;> exact ⟨rfl, by decide, by decide⟩)
    (by decide)
    (by
      intro l hl
      simp only [crlfLines, List.mem_cons, List.not_mem_nil, or_false] at hl
      rcases hl with rfl | rfl | rfl | rfl | rfl <;> decide))
    (.inr (by
      intro k hk
      simp only [crlfLines, L, litLine, List.map_cons, List.map_nil, List.mem_cons, List.not_mem_nil, or_false] at hk
      rcases hk with rfl | rfl | rfl | rfl | rfl <;> simp [FreeOfLines]))

theorem crlf_passes : Passes (litSet false) {} id none crlfLines () crlfInput := ⟨_, rfl⟩

example : ¬ LFMode crlfInput := by
  intro h
  have h0 : FirstLF crlfInput 0 3 := by
    refine ⟨Nat.zero_le _, by unfold IsLF; decide, ?_⟩
    intro j h1 h2
    have : j = 0 ∨ j = 1 ∨ j = 2 := by omega
    rcases this with rfl | rfl | rfl <;> (unfold IsLF; decide)
  have := h 3 h0
  revert this
  decide

/-! ## Refutations

The properties do not hold of the program without the restrictions above. -/

/-- **C01** fails on CRLF inputs: `bb` occurs once, yet `CHECK: bb`, `CHECK-EMPTY:`, `CHECK: bb` passes, with
the same match twice. -/
theorem C01_crlf_refuted :
    run [L .plain "bb" 0, L .empty "" 1, L .plain "bb" 2] (bytes "a\r\nbb\r\nc\r\n") =
      .ok (.pass [⟨3, 5, 0, 0⟩, ⟨7, 1, 0, 1⟩, ⟨3, 5, 0, 2⟩]) := by rfl

/-- **C03** fails on CRLF inputs: the match of `CHECK-NEXT: c` is two lines below the match of `CHECK: ab`. -/
theorem C03_crlf_refuted :
    run [L .plain "ab" 0, L .next "c" 1] (bytes "ab\r\nx\r\nc\r\n") = .ok (.pass [⟨0, 2, 0, 0⟩, ⟨7, 8, 0, 1⟩]) ∧
      lfCount (bytes "ab\r\nx\r\nc\r\n") 2 7 = 2 := ⟨by rfl, by rfl⟩

/-- **C04** fails on CRLF inputs: the match of `CHECK-SAME: d` is two lines below the match of `CHECK: bb`. -/
theorem C04_crlf_refuted :
    run [L .plain "x" 0, L .plain "bb" 1, L .same "d" 2] (bytes "x\r\nbb\r\nc\r\nd\r\n") =
      .ok (.pass [⟨0, 1, 0, 0⟩, ⟨3, 5, 0, 1⟩, ⟨10, 11, 0, 2⟩]) ∧
      lfCount (bytes "x\r\nbb\r\nc\r\nd\r\n") 5 10 = 2 := ⟨by rfl, by rfl⟩

/-- **C05** fails on CRLF inputs: the line after `a` is `b`. -/
theorem C05_crlf_refuted :
    run [L .plain "a" 0, L .empty "" 1] (bytes "a\r\nb\r\n") = .ok (.pass [⟨0, 1, 0, 0⟩, ⟨3, 1, 0, 1⟩]) := by rfl

/-- **C05** also fails at the end of the input: there is no line after `a`, let alone an empty one. -/
theorem C05_eof_refuted :
    run [L .plain "a" 0, L .empty "" 1] (bytes "a") = .ok (.pass [⟨0, 1, 0, 0⟩, ⟨1, 1, 0, 1⟩]) := by rfl

/-- **C06** fails on CRLF inputs: `x` occurs after the line of the label, yet `CHECK-LABEL: A1`, `CHECK-NOT: x` passes (the block of the
label is taken to be empty, so that `CHECK: x` in it fails). -/
theorem C06_crlf_refuted :
    run [L .label "A1" 0, L .not "x" 1] (bytes "q\r\nA1\r\nx\r\n") = .ok (.pass [⟨3, 5, 0, 0⟩]) ∧
      (bytes "q\r\nA1\r\nx\r\n")[7]? = some 120 ∧
      ∃ fs, fs ≠ [] ∧ run [L .label "A1" 0, L .plain "x" 1] (bytes "q\r\nA1\r\nx\r\n") = .ok (.fail fs) :=
  ⟨by rfl, by rfl, [⟨.noneButExpected, true⟩], by simp, by rfl⟩

/-- **C07** and **C09** fail on CRLF inputs: the only match of `CHECK-COUNT-1: B` is before the label to the block of which the check
belongs. -/
theorem C09_crlf_refuted :
    run [L .label "A" 0, L (.count 1) "B" 1] (bytes "x\r\nB\r\nA\r\n") = .ok (.pass [⟨6, 7, 0, 0⟩, ⟨3, 4, 0, 1⟩]) := by rfl

/-- **C10** fails on CRLF inputs: there is no `B` after the `A`, yet `CHECK-LABEL: A`, `CHECK-LABEL: B` passes. -/
theorem C10_crlf_refuted :
    run [L .label "A" 0, L .label "B" 1] (bytes "x\r\nB\r\nA\r\n") = .ok (.pass [⟨6, 7, 0, 0⟩, ⟨3, 4, 0, 1⟩]) := by rfl

/-- **C08** fails for a group with equal patterns: `foo` occurs once, two `CHECK-DAG: foo` pass. -/
theorem C08_duplicate_refuted :
    run [L .dag "foo" 0, L .dag "foo" 1] (bytes "foo") = .ok (.pass [⟨0, 3, 0, 0⟩]) := by rfl

/-- A satisfiable group of `CHECK-DAG`, followed by a `CHECK`, fails when the two matches touch. -/
theorem dag_adjacent_rejected :
    run [L .dag "foo" 0, L .plain "bar" 1] (bytes "foobar") = .ok (.fail [⟨.foundButDiscarded, true⟩]) ∧
    run [L .plain "foo" 0, L .plain "bar" 1] (bytes "foobar") = .ok (.pass [⟨0, 3, 0, 0⟩, ⟨3, 6, 0, 1⟩]) :=
  ⟨by rfl, by rfl⟩

/-- A satisfiable group of `CHECK-DAG` fails: `aa` and `a` occur in `aaaa` without overlapping. -/
theorem dag_incomplete :
    run [L .dag "aa" 0, L .dag "a" 1] (bytes "aaaa") = .ok (.fail [⟨.noneButExpected, true⟩]) := by rfl

/-- **C13** fails: a `CHECK-NEXT` whose line would be in the next block aborts the program. -/
theorem C13_next_label_refuted :
    run [L .label "A" 0, L .next "x" 1, L .label "B" 2] (bytes "A\nB\n") = .error .invalidRange := by rfl

/-- **C13** fails: a failed `CHECK-DAG` group before a `CHECK-NOT` aborts the program. -/
theorem C13_dag_not_refuted :
    run [L .dag "a" 0, L .dag "zzz" 1, L .not "n" 2, L .plain "b" 3] (bytes "b\na\n") = .error .invalidRange := by rfl

/-- **C13** fails: repeated literals in a group abort the compiler. -/
theorem C13_duplicates_refuted :
    run [L .dag "a" 0, L .dag "a" 1, L .dag "b" 2, L .dag "b" 3] (bytes "a a b b") = .error .indexOutOfBounds := by rfl

/-- **C13** fails on CRLF inputs: `CHECK-NEXT` aborts the program. -/
theorem C13_crlf_refuted :
    run [L .plain "a" 0, L .next "b" 1] (bytes "a\r\nb\r\nc\r\n") = .error .invalidRange := by rfl

end Litcheck
