import Verif.Spec.LabelChain
import Verif.Props.Compile

/-!
# Properties C10, C11, C12 and C18
-/

namespace Litcheck
open Spec
variable {E : Type}

/-! ## C12 -/

/-- **C12**, first half: without `--allow-empty`, an empty input fails whatever the checks are (once the check
file compiles), with this single error. -/
theorem C12_empty_fails {sc : SetCompiler E} {o : CheckOpts} {clear : E → E} {imp : Option (Line E)}
    {lines : List (Line E)} {prog : List (Section E)} (hc : compile sc imp lines = .ok (.ok prog)) (env : E)
    (ho : o.allowEmpty = false) :
    verify sc o clear imp lines env [] = .ok (.fail [⟨.emptyInput, false⟩]) := by
  have hn : Cursor.new [] = .ok ⟨[], 0, 0, 0, false⟩ := by rfl
  simp [verify, filecheck, hc, bind, Except.bind, checkInput, ho, hn, verdict, TestResult.fromErrors, TestResult.intoResult, TestResult.isOk]

theorem discoverLoop_kinds {eof : Nat} {env : E} : ∀ (ss : List (Section E)) i cur acc errs acc' errs',
    discoverLoop eof env ss i cur acc errs = .ok (acc', errs') → (∀ f ∈ errs, f.kind ≠ .emptyInput) →
    ∀ f ∈ errs', f.kind ≠ .emptyInput := by
  intro ss
  induction ss with
  | nil => intro i cur acc errs acc' errs' h he; simp [discoverLoop] at h; rw [← h.2]; exact he
  | cons sec ss ih =>
    intro i cur acc errs acc' errs' h he
    have hadd : ∀ (k : FailKind) (b : Bool), k ≠ .emptyInput → ∀ f ∈ errs ++ [(⟨k, b⟩ : Failure)], f.kind ≠ .emptyInput := by
      intro k b hk f hf
      rcases List.mem_append.1 hf with hf | hf
      · exact he f hf
      · simp at hf; subst hf; exact hk
    cases sec with
    | group g => unfold discoverLoop at h; exact ih _ _ _ _ _ _ h he
    | block l bd =>
      unfold discoverLoop at h
      obtain ⟨r, _, h⟩ := bind_ok.1 h
      split at h
      · split at h
        · obtain ⟨nl, _, h⟩ := bind_ok.1 h
          obtain ⟨pl, _, h⟩ := bind_ok.1 h
          obtain ⟨c, _, h⟩ := bind_ok.1 h
          exact ih _ _ _ _ _ _ h he
        · exact ih _ _ _ _ _ _ h (hadd _ _ (by simp))
      · exact ih _ _ _ _ _ _ h (hadd _ _ (by simp))

/-- **C12**, second half: `--allow-empty` makes no difference for inputs which are not empty; and with
`--allow-empty`, the outcome is the one of the checks, run on the empty input like on any other. -/
theorem C12_otherwise {sc : SetCompiler E} {o : CheckOpts} {clear : E → E} {imp : Option (Line E)}
    {lines : List (Line E)} (env : E) (b : Buf) :
    (b ≠ [] → verify sc { o with allowEmpty := true } clear imp lines env b =
      verify sc { o with allowEmpty := false } clear imp lines env b) ∧
    (o.allowEmpty = true → ∀ prog, compile sc imp lines = .ok (.ok prog) → ∀ c, Cursor.new b = .ok c →
      ∀ errs c', discoverBlocks prog ⟨c, env⟩ = .ok (.error errs, c') → errs ≠ [] →
        verify sc o clear imp lines env b = .ok (.fail errs)) := by
  constructor
  · intro hb
    have hbe : b.isEmpty = false := by simpa using hb
    simp only [verify, filecheck, checkInput, hbe, Bool.and_false]
  · intro ho prog hp c hc errs c' hd hne
    have hne' : errs.isEmpty = false := by simpa using hne
    simp [verify, filecheck, hp, bind, Except.bind, checkInput, ho, hc, hd, verdict, TestResult.fromErrors,
      TestResult.intoResult, TestResult.isOk, hne']

-- `CHECK-NOT: x` passes on the empty input with `--allow-empty`, and fails without.
example : verify (litSet false) { allowEmpty := true } id none [L .not "x" 0] () [] = .ok (.pass []) := by rfl
example : verify (litSet false) { allowEmpty := false } id none [L .not "x" 0] () [] = .ok (.fail [⟨.emptyInput, false⟩]) :=
  C12_empty_fails (prog := _) rfl () rfl

/-! ## C10 -/

/-- The label patterns of a program. -/
def labelsOf : List (Section E) → List (Pat E)
  | [] => []
  | .block p _ :: ss => p :: labelsOf ss
  | .group _ :: ss => labelsOf ss

theorem labelsOf_groups (gs : List (Group E)) (ss : List (Section E)) : labelsOf (gs.map .group ++ ss) = labelsOf ss := by
  induction gs with
  | nil => rfl
  | cons g gs ih => simpa [labelsOf] using ih

theorem Spec.ProgramOf.labels {sc : SetCompiler E} {prog : List (Section E)} {blocks : List (Option (Line E) × List (Line E))}
    (h : ProgramOf sc prog blocks) : labelsOf prog = (blocks.filterMap Prod.fst).map Line.pat := by
  induction h with
  | nil => rfl
  | block _ _ ih => simp [labelsOf, ih]
  | groups _ _ ih => rw [labelsOf_groups, ih]; simp

theorem fileBlocks_labels (imp : Option (Line E)) (lines : List (Line E)) :
    (fileBlocks imp lines).filterMap Prod.fst = labelLines lines := by
  unfold fileBlocks
  rw [List.filterMap_append]
  have h1 : (headBlocks (headLines imp lines)).filterMap Prod.fst = [] := by
    unfold headBlocks
    split <;> simp
  rw [h1, List.nil_append, List.filterMap_map]
  clear h1
  unfold labelLines
  induction lines with
  | nil => rfl
  | cons l ls ih =>
    unfold splitLabels
    split
    · rename_i hk
      simp [hk, ← ih, Function.comp_def]
    · rename_i hk
      simp [hk, ← ih]

theorem discover_total {b : Buf} {env : E} : ∀ (ss : List (Section E)) (ms : List (Meaning E)) (i : Nat) (cur : Cursor)
    (acc : List BlockInfo) (errs : List Failure), List.Forall₂ Pat.LabelSound (labelsOf ss) ms →
    cur.WF → cur.buf = b → cur.stop = b.length →
    ∃ acc' errs', discoverLoop b.length env ss i cur acc errs = .ok (acc', errs') ∧
      (errs' = [] → errs = [] ∧ LabelChain b env cur.start ms) := by
  intro ss
  induction ss with
  | nil =>
    intro ms i cur acc errs hf w hb hst
    cases hf
    exact ⟨acc, errs, by simp [discoverLoop], fun h => ⟨h, .nil⟩⟩
  | cons sec ss ih =>
    intro ms i cur acc errs hf w hb hst
    cases sec with
    | group g =>
      unfold discoverLoop
      exact ih ms _ _ _ _ hf w hb hst
    | block label body =>
      cases hf with
      | @cons _ μ _ μs hl hf =>
      have hlo := w.lo
      have hse : cur.searchToEof = .ok ⟨cur.start, b.length⟩ := by
        unfold Cursor.searchToEof
        rw [hb, bounded_from_ok (by omega)]
      unfold discoverLoop
      simp only [hse, bind, Except.bind]
      have hfail : ∀ acc f, ∃ acc' errs', discoverLoop b.length env ss (i + 1) cur acc (errs ++ [f]) = .ok (acc', errs') ∧
          (errs' = [] → errs = [] ∧ LabelChain b env cur.start (μ :: μs)) := by
        intro acc f
        obtain ⟨acc', errs', h1, h2⟩ := ih μs (i + 1) cur acc (errs ++ [f]) hf w hb hst
        exact ⟨acc', errs', h1, fun h => absurd (h2 h).1 (by simp)⟩
      split
      · rename_i m hm
        split
        · rename_i info hinfo
          obtain ⟨k1, k2, k3, k4, k5⟩ := hl _ _ _ _ _ hm hinfo
          simp only [hb] at k1 k3 k4 k5
          obtain ⟨nl, hnl, hnl'⟩ := Cursor.nextNewlineFrom_ok w.lf (s := info.start) (by rw [hb]; omega)
          obtain ⟨pl, hpl⟩ := Cursor.prevNewlineFrom_ok (c := cur) (e := info.start) (by rw [hb]; omega)
          rw [hb] at hnl'
          have hle := lineEnd_of_nextNL hnl'
          obtain ⟨hl1, hl2⟩ := hle.le (by omega)
          obtain ⟨c2, hc2, w2, hs2, hst2, hb2⟩ := Cursor.setStart_wf w (s := nl.getD b.length) (by omega)
          simp only [hnl, hpl, hc2]
          obtain ⟨acc', errs', h1, h2⟩ := ih μs (i + 1) c2
            (⟨some info, ⟨i, i + 1⟩, some c2.start, none, b.length⟩ :: setPrevEnd (pl.getD 0) acc) errs hf w2
            (by rw [hb2, hb]) (by rw [hst2, hst])
          refine ⟨acc', errs', h1, fun h => ⟨(h2 h).1, ?_⟩⟩
          have hcs : c2.start = nl.getD b.length := by rw [hs2, hst]; omega
          exact .cons ⟨k1, k2, k3, k4, k5⟩ hle (hcs ▸ (h2 h).2)
        · exact hfail _ _
      · exact hfail _ _

/-- **C10**: if the labels of the check file do not occur in the input one after the other, the test fails
(it does not abort), whatever the other lines and their patterns are and do.  Assumed: the check file compiles,
the labels report non-empty matches on one line, the first line ending of the input is not CRLF. -/
theorem C10_missing_label_partial {sc : SetCompiler E} {mean : Line E → Meaning E} {o : CheckOpts} {clear : E → E}
    {imp : Option (Line E)} {lines : List (Line E)} {env : E} {b : Buf} {prog : List (Section E)}
    (himp : ∀ l ∈ imp, l.kind = .not) (hc : compile sc imp lines = .ok (.ok prog))
    (hlab : ∀ l ∈ lines, l.kind = .label → l.pat.LabelSound (mean l)) (hlf : LFMode b)
    (hno : ¬ LabelChain b env 0 ((labelLines lines).map mean)) :
    ∃ fs, fs ≠ [] ∧ verify sc o clear imp lines env b = .ok (.fail fs) := by
  have hls : List.Forall₂ Pat.LabelSound (labelsOf prog) ((labelLines lines).map mean) := by
    rw [(compile_of himp hc).2.labels, fileBlocks_labels]
    apply forall2_map
    intro l hl
    obtain ⟨h1, h2⟩ := List.mem_filter.1 hl
    exact hlab l h1 (by simpa using h2)
  obtain ⟨c, hnew, w, hb, hs, hst⟩ := Cursor.new_wf hlf
  by_cases hemp : (!o.allowEmpty && b.isEmpty) = true
  · have ho : o.allowEmpty = false := by simp at hemp; exact hemp.1
    have hb : b = [] := by simp at hemp; exact hemp.2
    subst hb
    exact ⟨_, by simp, C12_empty_fails hc env ho⟩
  · have hd : ∃ errs' c', discoverBlocks prog ⟨c, env⟩ = .ok (.error errs', c') ∧ errs' ≠ [] := by
      unfold discoverBlocks
      dsimp only
      rw [hb]
      have key : ∀ acc x, discoverLoop b.length env prog 0 c acc [] = x → ∃ acc' errs', x = .ok (acc', errs') ∧ errs' ≠ [] := by
        intro acc x hx
        obtain ⟨acc', errs', h1, h2⟩ := discover_total (b := b) (env := env) prog _ 0 c acc [] hls w hb hst
        refine ⟨acc', errs', by rw [← hx, h1], fun h => ?_⟩
        have := (h2 h).2
        rw [hs] at this
        exact hno this
      obtain ⟨c', hr, _, _⟩ := Cursor.reset_frame c
      generalize hx : discoverLoop b.length env prog 0 c _ [] = x
      obtain ⟨acc', errs', h1, hne⟩ := key _ _ hx
      have hne' : errs'.isEmpty = false := by simpa using hne
      subst h1
      exact ⟨errs', ⟨c', env⟩, by simp only [bind, Except.bind, hr, hne', Bool.false_eq_true, if_false], hne⟩
    obtain ⟨errs', c', hd, hne⟩ := hd
    have hne' : errs'.isEmpty = false := by simpa using hne
    refine ⟨errs', hne, ?_⟩
    simp [verify, filecheck, hc, bind, Except.bind, checkInput, hnew, hd, hemp, verdict, TestResult.fromErrors,
      TestResult.intoResult, TestResult.isOk, hne']

-- The second label is missing; the other checks would pass.
example : ∃ fs, fs ≠ [] ∧ run [L .plain "a" 0, L .label "A" 1, L .label "B" 2] (bytes "a\nA\n") = .ok (.fail fs) :=
  ⟨[⟨.noneButExpected, true⟩], by simp, rfl⟩

theorem litFile_labels {ic : Bool} {lines : List (Line E)} (h : LitFile ic lines) :
    ∀ l ∈ lines, l.kind = .label → l.pat.LabelSound (litMean ic l) := by
  intro l hl hk
  obtain ⟨h3, h4, h5⟩ := h.lit l hl (by rw [hk]; simp)
  rw [h3]
  exact litPat_labelSound ic l.src _ h4 h5

/-- The labels are searched regardless of what the input looks like before: labels in the wrong order fail. -/
example : ¬ LabelChain (bytes "B\nA\n") () 0 ((labelLines [L .label "A" 0, L .label "B" 1]).map (litMean false)) := by
  intro h
  cases h with
  | @cons _ _ _ s e eol h1 h2 h3 =>
  cases h3 with
  | @cons _ _ _ s2 e2 eol2 k1 k2 k3 =>
  obtain ⟨a1, a2, a3, a4, _, _, a5, a6⟩ := h1
  obtain ⟨b1, b2, b3, b4, _, _, b5, b6⟩ := k1
  obtain ⟨y, hy, hs⟩ := a6 0 65 rfl
  obtain ⟨z, hz, ht⟩ := b6 0 66 rfl
  simp [SameLetter] at hs ht
  subst hs ht
  have hs2 : s = 2 := by
    have hlt := (List.getElem?_eq_some_iff.1 hy).1
    have : s < 4 := hlt
    match s, this with
    | 0, _ => revert hy; decide
    | 1, _ => revert hy; decide
    | 2, _ => rfl
    | 3, _ => revert hy; decide
  have hz2 : s2 = 0 := by
    have hlt := (List.getElem?_eq_some_iff.1 hz).1
    have : s2 < 4 := hlt
    match s2, this with
    | 0, _ => rfl
    | 1, _ => revert hz; decide
    | 2, _ => revert hz; decide
    | 3, _ => revert hz; decide
  have := (h2.le (by show s ≤ 4; omega)).1
  omega

end Litcheck
