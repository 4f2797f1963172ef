import Verif.Proofs.LinelessCompile
import Verif.Proofs.Layout
import Verif.Proofs.Literal

/-!
# Properties C01, C03 – C09 of FileCheck

The specification is `Verif/Spec/Matching.lean`.  The hypotheses on the patterns of the check file are
gathered in `Setting`; `literal_setting` shows that check files made of literals meet them.
-/

namespace Litcheck
open Spec
variable {E : Type}

/-- What is assumed of the check file and of the input (see DESIGN.md):
* the patterns do what they are supposed to (`contracts`, for some property `good` of lists of lines);
* labels report non-empty matches on one line, and patterns before the first label do not match the empty
  string;
* `CHECK-COUNT-0` is not used (the parser rejects it), the implicit check is a `CHECK-NOT`;
* the first line ending of the input is not CRLF, or there are only `CHECK`, `CHECK-COUNT`, `CHECK-DAG` and `CHECK-NOT` lines. -/
structure Setting (sc : SetCompiler E) (mean : Line E → Meaning E) (imp : Option (Line E)) (lines : List (Line E))
    (b : Buf) : Prop where
  contracts : ∃ good, Contracts sc mean good ∧ good (headLines imp lines) ∧
    ∀ x ∈ (splitLabels lines).2, good (imp.toList ++ x.2)
  implicit : ∀ l ∈ imp, l.kind = .not
  count : ∀ l ∈ lines, l.kind ≠ .count 0
  labels : ∀ l ∈ lines, l.kind = .label → l.pat.LabelSound (mean l)
  nonEmpty : (splitLabels lines).2 ≠ [] → ∀ l ∈ headLines imp lines, l.kind ≠ .empty → l.kind ≠ .not →
      ∀ env b s e env', mean l env b s e env' → s < e
  lf : Readable (lines.map Line.kind) b

/-- The test passes. -/
def Passes (sc : SetCompiler E) (o : CheckOpts) (clear : E → E) (imp : Option (Line E)) (lines : List (Line E))
    (env : E) (b : Buf) : Prop :=
  ∃ ms, verify sc o clear imp lines env b = .ok (.pass ms)

theorem Passes.inv {sc : SetCompiler E} {o : CheckOpts} {clear : E → E} {imp : Option (Line E)} {lines : List (Line E)}
    {env : E} {b : Buf} (h : Passes sc o clear imp lines env b) :
    ∃ prog tr, compile sc imp lines = .ok (.ok prog) ∧ checkInput o clear prog env b = .ok tr ∧ tr.errors = [] := by
  obtain ⟨ms, h⟩ := h
  unfold verify filecheck at h
  obtain ⟨r, h1, h2⟩ := bind_ok.1 h
  obtain ⟨c, h3, h4⟩ := bind_ok.1 h1
  cases c with
  | error e =>
    simp only [ok_inj] at h2 h4
    subst h4
    simp [verdict] at h2
  | ok prog =>
    simp only [] at h4
    obtain ⟨tr, h5, h6⟩ := bind_ok.1 h4
    simp only [ok_inj] at h2 h6
    subst h6
    refine ⟨prog, tr, h3, h5, ?_⟩
    simp only [verdict, TestResult.intoResult, TestResult.isOk] at h2
    cases he : tr.errors with
    | nil => rfl
    | cons x xs => simp [he] at h2

/-- A passing test has a layout. -/
theorem Passes.laid {sc : SetCompiler E} {mean : Line E → Meaning E} {o : CheckOpts} {clear : E → E}
    {imp : Option (Line E)} {lines : List (Line E)} {env : E} {b : Buf} (hs : Setting sc mean imp lines b)
    (h : Passes sc o clear imp lines env b) :
    ∃ region lab place envs, FileLaid mean b (enterEnv o clear) env (fileBlocks imp lines) region lab place envs := by
  obtain ⟨good, hc, hgh, hgb⟩ := hs.contracts
  obtain ⟨prog, tr, h1, h2, h3⟩ := h.inv
  exact satisfied_laid (compile_check_sound hc hs.implicit hgh hgb hs.count hs.labels hs.nonEmpty h1 (hs.lf.prog hs.implicit h1) h2 h3).2

section
variable {sc : SetCompiler E} {mean : Line E → Meaning E} {o : CheckOpts} {clear : E → E}
  {imp : Option (Line E)} {lines : List (Line E)} {env : E} {b : Buf}

/-- **C01**, for inputs with LF line endings or files which do not look at lines: if the test passes, every line which requires a match has one,
inside the region of its block, and every match starts at or after the end of the matches of the lines
before it (except among consecutive `CHECK-DAG` lines). -/
theorem C01_ordered_partial (hs : Setting sc mean imp lines b) (h : Passes sc o clear imp lines env b) :
    ∃ region place, Matching mean b (fileBlocks imp lines) region place ∧
      ∀ k blk i j, (fileBlocks imp lines)[k]? = some blk → i < j → Pos blk.2 i → Pos blk.2 j → ¬ DagRun blk.2 i j →
        (place k i).2 ≤ (place k j).1 := by
  obtain ⟨region, lab, place, envs, hl⟩ := Passes.laid hs h
  refine ⟨region, place, hl.matching, ?_⟩
  intro k blk i j hk hij hi hj hd
  obtain ⟨e0, hp⟩ := hl.placed k blk hk
  exact hp.order i j hij (pos_directive.2 hi) (pos_directive.2 hj) (fun hx => hd (dagRun_directive.1 hx))

/-- **C03**, for inputs with LF line endings: between the end of what was matched before a `CHECK-NEXT` and
the start of its match there is exactly one line feed, and there is none in its match. -/
theorem C03_next_partial (hs : Setting sc mean imp lines b) (h : Passes sc o clear imp lines env b) :
    ∃ region place, Matching mean b (fileBlocks imp lines) region place ∧
      ∀ k blk i l p, (fileBlocks imp lines)[k]? = some blk → blk.2[i]? = some l → l.kind = .next →
        EndBefore blk.2 (place k) (region k).1 i p →
        p ≤ (place k i).1 ∧ lfCount b p (place k i).1 = 1 ∧ NoLF b (place k i).1 (place k i).2 := by
  obtain ⟨region, lab, place, envs, hl⟩ := Passes.laid hs h
  refine ⟨region, place, hl.matching, ?_⟩
  intro k blk i l p hk hi hn hp
  obtain ⟨e0, hpl⟩ := hl.placed k blk hk
  have hf := hpl.fits i (l.directive mean) p (by simp [hi]) (endBefore_directive hp)
  simp only [Fits, Line.directive, hn] at hf
  have hposi : Positive (blk.2.map (Line.directive mean)) i := pos_directive.2 ⟨l, hi, by rw [hn]; simp⟩
  refine ⟨?_, hf.2⟩
  obtain ⟨h1, h2, h3 | ⟨j, h4, h5, h6⟩⟩ := hp
  · have := (hpl.inside i hposi).1; omega
  · rw [← h6]
    refine hpl.order j i h4 (pos_directive.2 h5) hposi (fun hx => ?_)
    obtain ⟨d, hd1, hd2⟩ := hx i (by omega) (Nat.le_refl _)
    simp only [List.getElem?_map, hi, Option.map_some, Option.some.injEq] at hd1
    subst hd1
    simp [Line.directive, hn] at hd2

/-- **C04**, for inputs with LF line endings: there is no line feed between the end of what was matched
before a `CHECK-SAME` and the end of its match. -/
theorem C04_same_partial (hs : Setting sc mean imp lines b) (h : Passes sc o clear imp lines env b) :
    ∃ region place, Matching mean b (fileBlocks imp lines) region place ∧
      ∀ k blk i l p, (fileBlocks imp lines)[k]? = some blk → blk.2[i]? = some l → l.kind = .same →
        EndBefore blk.2 (place k) (region k).1 i p →
        p ≤ (place k i).1 ∧ NoLF b p (place k i).2 := by
  obtain ⟨region, lab, place, envs, hl⟩ := Passes.laid hs h
  refine ⟨region, place, hl.matching, ?_⟩
  intro k blk i l p hk hi hn hp
  obtain ⟨e0, hpl⟩ := hl.placed k blk hk
  have hf := hpl.fits i (l.directive mean) p (by simp [hi]) (endBefore_directive hp)
  simp only [Fits, Line.directive, hn] at hf
  have hposi : Positive (blk.2.map (Line.directive mean)) i := pos_directive.2 ⟨l, hi, by rw [hn]; simp⟩
  refine ⟨?_, hf.2⟩
  obtain ⟨h1, h2, h3 | ⟨j, h4, h5, h6⟩⟩ := hp
  · have := (hpl.inside i hposi).1; omega
  · rw [← h6]
    refine hpl.order j i h4 (pos_directive.2 h5) hposi (fun hx => ?_)
    obtain ⟨d, hd1, hd2⟩ := hx i (by omega) (Nat.le_refl _)
    simp only [List.getElem?_map, hi, Option.map_some, Option.some.injEq] at hd1
    subst hd1
    simp [Line.directive, hn] at hd2

/-- **C05**, for inputs with LF line endings, one direction: the line after the end of what was matched
before a `CHECK-EMPTY` is empty, or the input ends there. -/
theorem C05_empty_partial (hs : Setting sc mean imp lines b) (h : Passes sc o clear imp lines env b) :
    ∃ region place, Matching mean b (fileBlocks imp lines) region place ∧
      ∀ k blk i l p, (fileBlocks imp lines)[k]? = some blk → blk.2[i]? = some l → l.kind = .empty →
        EndBefore blk.2 (place k) (region k).1 i p →
        EmptyNext b p (place k i).1 ∧ (place k i).2 = (place k i).1 := by
  obtain ⟨region, lab, place, envs, hl⟩ := Passes.laid hs h
  refine ⟨region, place, hl.matching, ?_⟩
  intro k blk i l p hk hi hn hp
  obtain ⟨e0, hpl⟩ := hl.placed k blk hk
  have hf := hpl.fits i (l.directive mean) p (by simp [hi]) (endBefore_directive hp)
  simp only [Fits, Line.directive, hn] at hf
  exact ⟨hf.1, hf.2.1⟩

/-- **C06**, for inputs with LF line endings or files which do not look at lines and `CHECK-NOT` patterns without variables: a forbidden pattern
occurs nowhere between the end of what was matched before it and the start of the next match (or the end of
the block). -/
theorem C06_not_partial (hs : Setting sc mean imp lines b) (h : Passes sc o clear imp lines env b) :
    ∃ region place, Matching mean b (fileBlocks imp lines) region place ∧
      ∀ k blk i l p n, (fileBlocks imp lines)[k]? = some blk → blk.2[i]? = some l → l.kind = .not →
        EndBefore blk.2 (place k) (region k).1 i p → StartAfter blk.2 (place k) (region k).2 i n →
        Absent (mean l) b p n := by
  obtain ⟨region, lab, place, envs, hl⟩ := Passes.laid hs h
  refine ⟨region, place, hl.matching, ?_⟩
  intro k blk i l p n hk hi hn hp hnx
  obtain ⟨e0, hpl⟩ := hl.placed k blk hk
  exact hpl.absent i (l.directive mean) p n (by simp [hi]) hn (endBefore_directive hp) (startAfter_directive hnx)

/-- **C07**, for inputs with LF line endings or files which do not look at lines: `CHECK-COUNT-n` is matched by `n` successive matches, each
starting at or after the end of the one before, the first one after what was matched before the directive,
all inside the region of the block. -/
theorem C07_count_partial (hs : Setting sc mean imp lines b) (h : Passes sc o clear imp lines env b) :
    ∃ region place, Matching mean b (fileBlocks imp lines) region place ∧
      ∀ k blk i l n p, (fileBlocks imp lines)[k]? = some blk → blk.2[i]? = some l → l.kind = .count n →
        EndBefore blk.2 (place k) (region k).1 i p →
        ∃ env env', Chain (mean l) b (region k).2 n p env (place k i).1 (place k i).2 env' := by
  obtain ⟨region, lab, place, envs, hl⟩ := Passes.laid hs h
  refine ⟨region, place, hl.matching, ?_⟩
  intro k blk i l n p hk hi hn hp
  obtain ⟨e0, hpl⟩ := hl.placed k blk hk
  have hf := hpl.fits i (l.directive mean) p (by simp [hi]) (endBefore_directive hp)
  simp only [Fits, Line.directive, hn] at hf
  exact ⟨_, _, hf⟩

/-- **C08**, for inputs with LF line endings or files which do not look at lines and groups of `CHECK-DAG` lines with distinct patterns: no two
matches overlap, whatever the lines are, and a line after a group of `CHECK-DAG` lines is matched after all
of them (likewise for a line before the group). -/
theorem C08_dag_partial (hs : Setting sc mean imp lines b) (h : Passes sc o clear imp lines env b) :
    ∃ region place, Matching mean b (fileBlocks imp lines) region place ∧
      (∀ k blk i j, (fileBlocks imp lines)[k]? = some blk → i ≠ j → Pos blk.2 i → Pos blk.2 j →
        Disjoint (place k i) (place k j)) ∧
      (∀ k blk i j l, (fileBlocks imp lines)[k]? = some blk → i < j → blk.2[i]? = some l → l.kind = .dag →
        Pos blk.2 j → ¬ DagRun blk.2 i j → (place k i).2 ≤ (place k j).1) := by
  obtain ⟨region, lab, place, envs, hl⟩ := Passes.laid hs h
  refine ⟨region, place, hl.matching, ?_, ?_⟩
  · intro k blk i j hk hij hi hj
    obtain ⟨e0, hp⟩ := hl.placed k blk hk
    exact hp.disjoint i j hij (pos_directive.2 hi) (pos_directive.2 hj)
  · intro k blk i j l hk hij hi hkd hj hd
    obtain ⟨e0, hp⟩ := hl.placed k blk hk
    exact hp.order i j hij (pos_directive.2 ⟨l, hi, by rw [hkd]; simp⟩) (pos_directive.2 hj)
      (fun hx => hd (dagRun_directive.1 hx))

/-- **C09**, for inputs with LF line endings: the labels are found in order; the region of a labelled block
starts at the end of the line of its label and stops at the end of the line before the next label (the first
region starts at the start of the input if it has no label, the last one stops at the end of the input);
regions are in order and disjoint, and all matches of the lines of a block lie inside its region. -/
theorem C09_blocks_partial (hs : Setting sc mean imp lines b) (h : Passes sc o clear imp lines env b) :
    ∃ (region : Nat → Nat × Nat) (place : Nat → Nat → Nat × Nat) (lab : Nat → Nat × Nat), Matching mean b (fileBlocks imp lines) region place ∧
      (∀ k l ls, (fileBlocks imp lines)[k]? = some (some l, ls) →
        LabelAt (mean l) env b 0 (lab k).1 (lab k).2 ∧ LineEnd b (lab k).1 (region k).1) ∧
      (∀ k l ls, (fileBlocks imp lines)[k + 1]? = some (some l, ls) →
        (region k).1 ≤ (lab (k + 1)).1 ∧ PrevLineEnd b (lab (k + 1)).1 (region k).2) ∧
      (∀ ls, (fileBlocks imp lines)[0]? = some (none, ls) → (region 0).1 = 0) ∧
      (∀ k, k + 1 = (fileBlocks imp lines).length → (region k).2 = b.length) := by
  obtain ⟨region, lab, place, envs, hl⟩ := Passes.laid hs h
  exact ⟨region, place, lab, hl.matching, hl.label, fun k l ls hk => (hl.prev k l ls hk).symm, hl.first, hl.last⟩

/-- **C53**. Variables are threaded through the lines of the whole file in order: a line is matched with the variables left
by the line before it; the first line of the file with the initial ones, the first line of a further block with those left by the last line of the block
before, in both cases after what happens at the start of a block (C15). The matches of a `CHECK-COUNT` are a chain, each with the variables left by the one before.
Lines which bind nothing leave them as they are, and so do groups of `CHECK-DAG` lines of which none binds a variable; the lines of such a
group are matched in the order of their places, each with the variables left by the one before.
Missing: inputs with CRLF endings looked at by lines. -/
theorem C53_variables_partial (hs : Setting sc mean imp lines b) (h : Passes sc o clear imp lines env b) :
    ∃ (region : Nat → Nat × Nat) (place : Nat → Nat → Nat × Nat) (envs : Nat → Nat → E),
      Matching mean b (fileBlocks imp lines) region place ∧
      envs 0 0 = enterEnv o clear env ∧
      (∀ k blk blk', (fileBlocks imp lines)[k]? = some blk → (fileBlocks imp lines)[k + 1]? = some blk' →
        envs (k + 1) 0 = enterEnv o clear (envs k blk.2.length)) ∧
      (∀ k blk i l, (fileBlocks imp lines)[k]? = some blk → blk.2[i]? = some l →
        l.kind = .plain ∨ l.kind = .next ∨ l.kind = .same →
        mean l (envs k i) b (place k i).1 (place k i).2 (envs k (i + 1))) ∧
      (∀ k blk i l n, (fileBlocks imp lines)[k]? = some blk → blk.2[i]? = some l → l.kind = .count n →
        ∃ p, EndBefore blk.2 (place k) (region k).1 i p ∧
          Spec.Chain (mean l) b (region k).2 n p (envs k i) (place k i).1 (place k i).2 (envs k (i + 1))) ∧
      (∀ k blk i l, (fileBlocks imp lines)[k]? = some blk → blk.2[i]? = some l →
        l.kind = .not ∨ l.kind = .empty → envs k (i + 1) = envs k i) ∧
      (∀ k blk i l, (fileBlocks imp lines)[k]? = some blk → blk.2[i]? = some l → l.kind = .dag →
        (∀ j l', blk.2[j]? = some l' → SameDags blk.2 i j → BindsNothing (mean l')) → envs k (i + 1) = envs k i) ∧
      (∀ k blk i n, (fileBlocks imp lines)[k]? = some blk → WholeGroup blk.2 i n → ∃ order : List Nat, order.Perm (List.range' i n) ∧
        order.Pairwise (fun p q => (place k p).2 ≤ (place k q).1) ∧
        InTurn (blk.2.map mean) b (place k) order (envs k i) (envs k (i + n))) := by
  obtain ⟨region, lab, place, envs, hl⟩ := Passes.laid hs h
  refine ⟨region, place, envs, hl.matching, hl.entry, hl.chain, ?_, ?_, ?_, hl.dags, hl.groups⟩
  · intro k blk i l hk hi hn
    obtain ⟨e0, hpl⟩ := hl.placed k blk hk
    obtain ⟨p, hp⟩ := endBefore_exists blk.2 (place k) (region k).1 i
    have hf := hpl.fits i (l.directive mean) p (by simp [hi]) (endBefore_directive hp)
    rcases hn with hn | hn | hn <;> simp only [Fits, Line.directive, hn] at hf
    · exact hf
    · exact hf.1
    · exact hf.1
  · intro k blk i l n hk hi hn
    obtain ⟨e0, hpl⟩ := hl.placed k blk hk
    obtain ⟨p, hp⟩ := endBefore_exists blk.2 (place k) (region k).1 i
    have hf := hpl.fits i (l.directive mean) p (by simp [hi]) (endBefore_directive hp)
    simp only [Fits, Line.directive, hn] at hf
    exact ⟨p, hp, hf⟩
  · intro k blk i l hk hi hn
    obtain ⟨e0, hpl⟩ := hl.placed k blk hk
    obtain ⟨p, hp⟩ := endBefore_exists blk.2 (place k) (region k).1 i
    have hf := hpl.fits i (l.directive mean) p (by simp [hi]) (endBefore_directive hp)
    rcases hn with hn | hn <;> simp only [Fits, Line.directive, hn] at hf
    · exact hf
    · exact hf.2.2

end

end Litcheck
