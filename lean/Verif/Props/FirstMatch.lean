import Verif.Proofs.CompileTotal
import Verif.Proofs.Completeness

/-!
# Property C83: exactly which inputs a check file without `CHECK-DAG` accepts
-/

namespace Litcheck
open Spec
variable {E : Type}

theorem Passes.of {sc : SetCompiler E} {o : CheckOpts} {clear : E → E} {imp : Option (Line E)} {lines : List (Line E)}
    {env : E} {b : Buf} {prog : List (Section E)} {tr : TestResult} (h1 : compile sc imp lines = .ok (.ok prog))
    (h2 : checkInput o clear prog env b = .ok tr) (h3 : tr.errors = []) : Passes sc o clear imp lines env b := by
  obtain ⟨ms, hm⟩ := verdict_pass h3
  refine ⟨ms, ?_⟩
  unfold verify filecheck
  simp only [h1, h2, hm, bind, Except.bind]

/-- What is assumed of a check file: nothing of the lines but that they are not `CHECK-DAG` or `CHECK-COUNT-0`;
of the matchers, that they report exactly the first match of the pattern; of the patterns, that those of
`CHECK-LABEL`, `CHECK-NEXT` and `CHECK-SAME` (and, when there are labels, those of the checks before the first one)
do not match the empty string, and that those of `CHECK-LABEL` match on one line. -/
structure Sequential (sc : SetCompiler E) (first : Line E → Finder E) (mean : Line E → Meaning E)
    (imp : Option (Line E)) (lines : List (Line E)) : Prop where
  exactly : ∃ good, Exactly sc first mean good ∧ good (headLines imp lines) ∧
    ∀ x ∈ (splitLabels lines).2, good (imp.toList ++ x.2)
  implicit : ∀ l ∈ imp, l.kind = .not
  count : ∀ l ∈ lines, l.kind ≠ .count 0
  dag : ∀ l ∈ lines, l.kind ≠ .dag
  labels : ∀ l ∈ lines, l.kind = .label → l.pat.LabelExact (first l)
  solid : (splitLabels lines).2 ≠ [] → ∀ l ∈ headLines imp lines, l.kind ≠ .empty → l.kind ≠ .not → Solid (first l)

/-- The input passes, by first matches: the checks of the lines before the first label, and the labelled blocks. -/
def PassesByFirst (first : Line E → Finder E) (mean : Line E → Meaning E) (enter : E → E) (env : E)
    (imp : Option (Line E)) (lines : List (Line E)) (b : Buf) : Prop :=
  FilePasses b enter env ((headLines imp lines).map (Line.check first mean))
    ((splitLabels lines).2.map (fun x => (x.1.check first mean, (imp.toList ++ x.2).map (Line.check first mean))))

/-- **C83**, for inputs with LF line endings (or any inputs, if no directive looks at lines) and any patterns whose matchers report the first match: the test passes exactly if the check file
compiles, the input may be empty or is not, and the checks succeed one after the other, each one taking the first
match. -/
theorem C83_first_match_any_partial {sc : SetCompiler E} {first : Line E → Finder E} {mean : Line E → Meaning E}
    {imp : Option (Line E)} {lines : List (Line E)} (hs : Sequential sc first mean imp lines)
    {o : CheckOpts} {clear : E → E} {env : E} {b : Buf} (hlf : Readable (lines.map Line.kind) b) :
    Passes sc o clear imp lines env b ↔ (∃ prog, compile sc imp lines = .ok (.ok prog)) ∧
      (o.allowEmpty = true ∨ b ≠ []) ∧ PassesByFirst first mean (enterEnv o clear) env imp lines b := by
  obtain ⟨good, hc, hgh, hgb⟩ := hs.exactly
  constructor
  · intro h
    obtain ⟨prog, tr, h1, h2, h3⟩ := h.inv
    exact ⟨⟨prog, h1⟩, (compile_check_exact hc hs.implicit hgh hgb hs.count hs.dag hs.labels hs.solid h1 (hlf.prog hs.implicit h1)).1 ⟨tr, h2, h3⟩⟩
  · rintro ⟨⟨prog, h1⟩, h2⟩
    obtain ⟨tr, h3, h4⟩ := (compile_check_exact hc hs.implicit hgh hgb hs.count hs.dag hs.labels hs.solid h1 (hlf.prog hs.implicit h1)).2 h2
    exact Passes.of h1 h3 h4

/-- Check files of literals without `CHECK-DAG`: every pattern is a non-empty literal, on one line; consecutive
`CHECK-NOT` literals are distinct. -/
structure LitSeq (ic : Bool) (lines : List (Line E)) : Prop where
  lit : ∀ l ∈ lines, l.kind ≠ .empty → l.pat = litPat ic l.src l.pat.pspan ∧ l.src ≠ [] ∧ (10 : UInt8) ∉ l.src
  nots : ∀ x y z, lines = x ++ y ++ z → (∀ l ∈ y, l.kind = .not) → (y.map Line.src).Nodup
  dag : ∀ l ∈ lines, l.kind ≠ .dag
  count : ∀ l ∈ lines, l.kind ≠ .count 0

theorem LitSeq.sequential {ic : Bool} {lines : List (Line E)} (h : LitSeq ic lines) :
    Sequential (litSet ic) (litFirst ic) (litMean ic) none lines := by
  obtain ⟨⟨t, ht⟩, h2⟩ := splitLabels_infix lines
  have hmem : ∀ l ∈ (splitLabels lines).1, l ∈ lines := by
    intro l hl; rw [ht]; simp [hl]
  refine ⟨⟨LitLines ic, lit_exactly ic, ?_, ?_⟩, by simp, h.count, h.dag, ?_, ?_⟩
  · rw [headLines_none]
    exact ⟨fun l hl hk => ⟨(h.lit l (hmem l hl) hk).1, (h.lit l (hmem l hl) hk).2.1⟩⟩
  · intro x hx
    obtain ⟨s, u, h3⟩ := h2 x hx
    refine ⟨fun l hl hk => ?_⟩
    have := h.lit l (by rw [h3]; simp at hl; simp [hl]) hk
    exact ⟨this.1, this.2.1⟩
  · intro l hl hk
    obtain ⟨h3, h4, h5⟩ := h.lit l hl (by rw [hk]; simp)
    rw [h3]
    exact litPat_labelExact ic l.src _ h4 h5
  · intro _ l hl hk _
    rw [headLines_none] at hl
    exact litFirst_solid ic (h.lit l (hmem l hl) hk).2.1

theorem LitSeq.nots_compile {ic : Bool} {lines : List (Line E)} (h : LitSeq ic lines) : NotsCompile (litSet ic) lines := by
  intro x y z hy _ hk
  obtain ⟨r, hr⟩ := dedupe_total y 0 [] (by simpa using h.nots x y z hy hk) (fun l hl =>
    (h.lit l (by rw [hy]; simp [hl]) (by rw [hk l hl]; simp)).2.1)
  exact ⟨litAny ic r, by unfold litSet; simp only [hr, bind, Except.bind]; rfl⟩

/-- The checks of lines of literals: the first match of a literal is its first occurrence. -/
def litChecks (ic : Bool) (lines : List (Line E)) : List (Check E) :=
  lines.map (fun l => ⟨l.kind, FirstOf (litMeaning ic l.src), litMeaning ic l.src⟩)

/-- **C83**, for inputs with LF line endings (or any inputs, if no directive looks at lines) and check files of literals: the test passes exactly if there are checks, no relative check comes
first, the input may be empty or is not, and the checks succeed one after the other, each one taking the first
occurrence of its literal in the text it may use. -/
theorem C83_first_match_literals_partial {ic : Bool} {lines : List (Line E)} (h : LitSeq ic lines) {o : CheckOpts} {clear : E → E}
    {env : E} {b : Buf} (hlf : Readable (lines.map Line.kind) b) :
    Passes (litSet ic) o clear none lines env b ↔
      lines ≠ [] ∧ ¬ RelativeFirst lines ∧ (o.allowEmpty = true ∨ b ≠ []) ∧
      FilePasses b (enterEnv o clear) env (litChecks ic (splitLabels lines).1)
        ((splitLabels lines).2.map (fun x => (⟨.label, FirstOf (litMeaning ic x.1.src), litMeaning ic x.1.src⟩, litChecks ic x.2))) := by
  rw [C83_first_match_any_partial h.sequential hlf, compile_total h.nots_compile h.dag]
  unfold PassesByFirst
  rw [headLines_none]
  have hl : ∀ x ∈ (splitLabels lines).2, (x.1.check (litFirst ic) (litMean ic), ((none : Option (Line E)).toList ++ x.2).map (Line.check (litFirst ic) (litMean ic))) =
      ((⟨.label, FirstOf (litMeaning ic x.1.src), litMeaning ic x.1.src⟩ : Check E), litChecks ic x.2) := by
    intro x hx
    have := ((splitLabels_mem (l := x.1)).2 x hx).1.2
    simp only [Line.check, this]
    rfl
  rw [List.map_congr_left hl, and_assoc]
  rfl

/-! ## Examples -/

/-- A check file with every kind of directive but `CHECK-DAG`. -/
def seqLines : List (Line Unit) :=
  [L .plain "start" 0, L .next "ab" 1, L .same "cd" 2, L .not "bad" 3, L .not "worse" 4, L .label "func" 5,
   L (.count 2) "x" 6, L .empty "" 7, L .not "zzz" 8]

theorem LitSeq.of {ic : Bool} {lines : List (Line E)}
    (h1 : ∀ l ∈ lines, l.kind ≠ .empty → l.pat = litPat ic l.src l.pat.pspan ∧ l.src ≠ [] ∧ (10 : UInt8) ∉ l.src)
    (h2 : ((lines.filter Line.isNot).map Line.src).Nodup) (h3 : ∀ l ∈ lines, l.kind ≠ .count 0)
    (h4 : ∀ l ∈ lines, l.kind ≠ .dag) : LitSeq ic lines := by
  refine ⟨h1, ?_, h4, h3⟩
  intro x y z hxyz hy
  have : (y.map Line.src).Sublist ((lines.filter Line.isNot).map Line.src) := by
    apply List.Sublist.map
    have hyf : y.filter Line.isNot = y := by
      rw [List.filter_eq_self]
      intro l hl
      simp [Line.isNot, hy l hl]
    rw [hxyz, ← hyf]
    simp only [List.filter_append, List.append_assoc]
    exact List.Sublist.trans (by simp [List.filter_filter]) (List.sublist_append_right _ _)
  exact this.nodup h2

theorem seq_lit : LitSeq false seqLines :=
  LitSeq.of
    (by
      intro l hl hk
      simp only [seqLines, List.mem_cons, List.not_mem_nil, or_false] at hl
      rcases hl with rfl | rfl | rfl | rfl | rfl | rfl | rfl | rfl | rfl <;>
        first | exact ⟨rfl, by decide, by decide⟩ | exact absurd rfl hk)
    (by decide)
    (by
      intro l hl
      simp only [seqLines, List.mem_cons, List.not_mem_nil, or_false] at hl
      rcases hl with rfl | rfl | rfl | rfl | rfl | rfl | rfl | rfl | rfl <;> decide)
    (by
      intro l hl
      simp only [seqLines, List.mem_cons, List.not_mem_nil, or_false] at hl
      rcases hl with rfl | rfl | rfl | rfl | rfl | rfl | rfl | rfl | rfl <;> decide)

-- An input which passes, and so does the specification.
example : FilePasses (bytes "start\nab cd\nok\nfunc f\nx\nx\n\nend\n") (enterEnv {} id) () (litChecks false (splitLabels seqLines).1)
    ((splitLabels seqLines).2.map (fun x => (⟨.label, FirstOf (litMeaning false x.1.src), litMeaning false x.1.src⟩, litChecks false x.2))) :=
  ((C83_first_match_literals_partial seq_lit (o := {}) (clear := id) (.inl <| lfMode_of_noCR (by decide))).1 ⟨_, rfl⟩).2.2.2

-- One which does not: `worse` occurs before the label.
example : ¬ FilePasses (bytes "start\nab cd\nworse\nfunc f\nx\nx\n\nend\n") (enterEnv {} id) () (litChecks false (splitLabels seqLines).1)
    ((splitLabels seqLines).2.map (fun x => (⟨.label, FirstOf (litMeaning false x.1.src), litMeaning false x.1.src⟩, litChecks false x.2))) := by
  intro hf
  obtain ⟨ms, hm⟩ := (C83_first_match_literals_partial seq_lit (o := {}) (clear := id) (.inl <| lfMode_of_noCR (by decide))).2
    ⟨by decide, by
      rw [← C17_relative_first (sc := litSet false) (imp := none) (by simp)]
      obtain ⟨prog, h⟩ : ∃ prog, compile (litSet false) none seqLines = .ok (.ok prog) := ⟨_, rfl⟩
      rw [h]; simp, .inr (by decide), hf⟩
  have hr : ∃ fs, verify (litSet false) {} id none seqLines () (bytes "start\nab cd\nworse\nfunc f\nx\nx\n\nend\n") = .ok (.fail fs) := ⟨_, rfl⟩
  obtain ⟨fs, hr⟩ := hr
  rw [hr] at hm
  simp at hm

-- There is no backtracking: the first `a` is taken, although only the second one is followed by `b`.
example : ∃ fs, run [L .plain "a" 0, L .next "b" 1] (bytes "a\na\nb\n") = .ok (.fail fs) := ⟨_, rfl⟩
example : ¬ FilePasses (bytes "a\na\nb\n") (enterEnv {} id) () (litChecks false [L .plain "a" 0, L .next "b" 1]) [] := by
  intro hf
  have hl : LitSeq false [L .plain "a" 0, L .next "b" 1] := LitSeq.of
    (by
      intro l hl hk
      simp only [List.mem_cons, List.not_mem_nil, or_false] at hl
      rcases hl with rfl | rfl <;> exact ⟨rfl, by decide, by decide⟩)
    (by decide)
    (by
      intro l hl
      simp only [List.mem_cons, List.not_mem_nil, or_false] at hl
      rcases hl with rfl | rfl <;> decide)
    (by
      intro l hl
      simp only [List.mem_cons, List.not_mem_nil, or_false] at hl
      rcases hl with rfl | rfl <;> decide)
  obtain ⟨ms, hm⟩ := (C83_first_match_literals_partial hl (o := {}) (clear := id) (.inl <| lfMode_of_noCR (by decide))).2
    ⟨by simp, by
      rw [← C17_relative_first (sc := litSet false) (imp := none) (by simp)]
      obtain ⟨prog, h⟩ : ∃ prog, compile (litSet false) none [L .plain "a" 0, L .next "b" 1] = .ok (.ok prog) := ⟨_, rfl⟩
      rw [h]; simp, .inr (by decide), hf⟩
  have hr : ∃ fs, verify (litSet false) {} id none [L .plain "a" 0, L .next "b" 1] () (bytes "a\na\nb\n") = .ok (.fail fs) := ⟨_, rfl⟩
  obtain ⟨fs, hr⟩ := hr
  rw [hr] at hm
  simp at hm

/-- A `CHECK` and a `CHECK-NEXT`. -/
def nextLines : List (Line Unit) := [L .plain "a" 0, L .next "b" 1]

/-- **C83** is false of inputs with CRLF line endings: the specification accepts the input, the program panics. -/
theorem C83_crlf_refuted : LitSeq false nextLines ∧
    FilePasses (bytes "a\r\nb\r\nc\r\n") (enterEnv {} id) () (litChecks false (splitLabels nextLines).1)
      ((splitLabels nextLines).2.map (fun x => (⟨.label, FirstOf (litMeaning false x.1.src), litMeaning false x.1.src⟩, litChecks false x.2))) ∧
    ¬ RelativeFirst nextLines ∧ verify (litSet false) {} id none nextLines () (bytes "a\r\nb\r\nc\r\n") = .error .invalidRange := by
  refine ⟨LitSeq.of ?_ (by decide) ?_ ?_, ?_, ?_, rfl⟩
  · intro l hl hk
    simp only [nextLines, List.mem_cons, List.not_mem_nil, or_false] at hl
    rcases hl with rfl | rfl <;> exact ⟨rfl, by decide, by decide⟩
  · intro l hl
    simp only [nextLines, List.mem_cons, List.not_mem_nil, or_false] at hl
    rcases hl with rfl | rfl <;> decide
  · intro l hl
    simp only [nextLines, List.mem_cons, List.not_mem_nil, or_false] at hl
    rcases hl with rfl | rfl <;> decide
  · refine .head (by decide) (.last (env' := ()) ⟨4, [], ?_, by intro m hm; simp at hm⟩)
    have hlen : (bytes "a\r\nb\r\nc\r\n").length = 9 := rfl
    have occ : ∀ (lit : String) s, (∀ i c, (bytes lit)[i]? = some c → (bytes "a\r\nb\r\nc\r\n")[s + i]? = some c) →
        Occurs false (bytes lit) (bytes "a\r\nb\r\nc\r\n") s (s + (bytes lit).length) :=
      fun lit s h => ⟨rfl, fun i c hc => ⟨c, h i c hc, .inl rfl⟩⟩
    have nolf : ∀ lo hi, (∀ i ∈ List.range' lo (hi - lo), (bytes "a\r\nb\r\nc\r\n")[i]? ≠ some 10) → NoLF (bytes "a\r\nb\r\nc\r\n") lo hi :=
      fun lo hi h i h1 h2 => h i (List.mem_range'_1.2 ⟨h1, by omega⟩)
    refine .take (s := 0) (e := 1) (env1 := ()) ⟨by omega, by omega, by rw [hlen]; omega, ⟨rfl, occ "a" 0 ?_⟩, fun s' _ _ _ _ _ _ => by omega⟩
      (by intro m hm; simp at hm) ?_
    · intro i c hc
      match i, hc with
      | 0, hc => exact hc
      | n + 1, hc => exact absurd hc (by simp [bytes])
    · refine .take (s := 3) (e := 4) (env1 := ()) ⟨2, 5, ⟨by omega, rfl, nolf 1 2 (by decide)⟩, .inl ⟨by omega, rfl, nolf 3 5 (by decide)⟩,
        by rw [hlen]; omega, by omega, by omega, by omega, ⟨rfl, occ "b" 3 ?_⟩, fun s' _ _ h _ _ _ => by omega⟩ (by intro m hm; simp at hm) .nil
      intro i c hc
      match i, hc with
      | 0, hc => exact hc
      | n + 1, hc => exact absurd hc (by simp [bytes])
  · rw [← C17_relative_first (sc := litSet false) (imp := none) (by simp)]
    obtain ⟨prog, h⟩ : ∃ prog, compile (litSet false) none nextLines = .ok (.ok prog) := ⟨_, rfl⟩
    rw [h]; simp

end Litcheck
