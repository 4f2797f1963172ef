import Verif.Proofs.Reports
import Verif.Props.Checks

/-!
# Properties C11 and C18
-/

namespace Litcheck
open Spec
variable {E : Type}

/-! ## C11 -/

/-- **C11**: whenever a check file is run to its end, the verdict is one of these:
* the check file was rejected;
* the input is empty and `--allow-empty` was not given;
* some labels were not found, and these failures are the verdict;
* every group of checks of the program was evaluated, once and in order, and the failures reported by all of them
  (`reports`, one entry per group) are exactly the errors of the verdict: it is a pass if and only if no group
  reported any failure, and otherwise it lists every failure, none lost, none added. -/
theorem C11_no_failure_lost {sc : SetCompiler E} {o : CheckOpts} {clear : E → E} {imp : Option (Line E)}
    (himp : ∀ l ∈ imp, l.kind = .not) {lines : List (Line E)} {env : E} {b : Buf} {v : Verdict}
    (h : verify sc o clear imp lines env b = .ok v) :
    (∃ e, v = .invalid e) ∨
    (o.allowEmpty = false ∧ b = [] ∧ v = .fail [⟨.emptyInput, false⟩]) ∨
    (∃ fs, fs ≠ [] ∧ v = .fail fs ∧ ∀ f ∈ fs, f.kind = .noneButExpected ∨ f.kind = .noneForInvalidPattern) ∨
    (∃ prog, compile sc imp lines = .ok (.ok prog) ∧
      ∃ reports : List (Group E × List Failure), reports.map Prod.fst = programGroups prog ∧
        (∀ x ∈ reports, ∃ s, Reported x.1 s x.2) ∧
        ((∃ ms, v = .pass ms) ↔ ∀ x ∈ reports, x.2 = []) ∧
        (∀ fs, v = .fail fs ↔ fs ≠ [] ∧ fs = reports.flatMap Prod.snd)) := by
  unfold verify filecheck at h
  obtain ⟨r, h1, h2⟩ := bind_ok.1 h
  simp only [ok_inj] at h2
  obtain ⟨c, h3, h4⟩ := bind_ok.1 h1
  cases c with
  | error e => simp only [ok_inj] at h4; subst h4; left; exact ⟨e, h2.symm⟩
  | ok prog =>
    right
    simp only at h4
    obtain ⟨tr, h5, h6⟩ := bind_ok.1 h4
    simp only [ok_inj] at h6
    subst h6
    unfold checkInput at h5
    obtain ⟨cur, hcur, h5⟩ := bind_ok.1 h5
    dsimp only at h5
    split at h5
    · rename_i hemp
      left
      simp only [ok_inj] at h5
      subst h5
      simp at hemp
      refine ⟨hemp.1, hemp.2, ?_⟩
      rw [← h2]; rfl
    · right
      obtain ⟨⟨d, c'⟩, hd, h5⟩ := bind_ok.1 h5
      dsimp only at h5
      cases d with
      | error errs =>
        left
        simp only [ok_inj] at h5
        subst h5
        have hne : errs ≠ [] ∧ ∀ f ∈ errs, f.kind = .noneButExpected ∨ f.kind = .noneForInvalidPattern := by
          unfold discoverBlocks at hd
          dsimp only at hd
          obtain ⟨⟨acc', errs'⟩, k1, k2⟩ := bind_ok.1 hd
          obtain ⟨cur', _, k3⟩ := bind_ok.1 k2
          dsimp only at k3
          split at k3
          · simp at k3
          · rename_i he
            simp only [Except.ok.injEq, Prod.mk.injEq, Except.error.injEq] at k3
            rw [← k3.1]
            refine ⟨by simpa using he, ?_⟩
            have hk : ∀ (eof : Nat) (ss : List (Section E)) i cur acc errs acc' errs',
                discoverLoop eof env ss i cur acc errs = .ok (acc', errs') →
                (∀ f ∈ errs, f.kind = .noneButExpected ∨ f.kind = .noneForInvalidPattern) →
                ∀ f ∈ errs', f.kind = .noneButExpected ∨ f.kind = .noneForInvalidPattern := by
              intro eof ss
              induction ss with
              | nil => intro i cur acc errs acc' errs' h he; simp [discoverLoop] at h; rw [← h.2]; exact he
              | cons sec ss ih =>
                intro i cur acc errs acc' errs' h he
                have hadd : ∀ (k : FailKind) (b : Bool), (k = .noneButExpected ∨ k = .noneForInvalidPattern) →
                    ∀ f ∈ errs ++ [(⟨k, b⟩ : Failure)], f.kind = .noneButExpected ∨ f.kind = .noneForInvalidPattern := by
                  intro k b hk f hf
                  rcases List.mem_append.1 hf with hf | hf
                  · exact he f hf
                  · simp at hf; subst hf; exact hk
                cases sec with
                | group g => unfold discoverLoop at h; exact ih _ _ _ _ _ _ h he
                | block l bd =>
                  unfold discoverLoop at h
                  obtain ⟨r, _, h⟩ := bind_ok.1 h
                  split at h
                  · split at h
                    · obtain ⟨nl, _, h⟩ := bind_ok.1 h
                      obtain ⟨pl, _, h⟩ := bind_ok.1 h
                      obtain ⟨c, _, h⟩ := bind_ok.1 h
                      exact ih _ _ _ _ _ _ h he
                    · exact ih _ _ _ _ _ _ h (hadd _ _ (.inl rfl))
                  · exact ih _ _ _ _ _ _ h (hadd _ _ (.inr rfl))
            exact hk _ _ _ _ _ _ _ _ k1 (by simp)
        refine ⟨errs, hne.1, ?_, hne.2⟩
        rw [← h2]
        exact verdict_fail (by simpa [TestResult.fromErrors] using hne.1)
      | ok L =>
        right
        obtain ⟨s, hs, h5⟩ := bind_ok.1 h5
        simp only [ok_inj] at h5
        subst h5
        obtain ⟨gs, cs, hprog⟩ := (compile_of himp h3).2.shape
        subst hprog
        obtain ⟨gss, hgss, hflat⟩ := discoverBlocks_is hd
        obtain ⟨fs, hfs, hse⟩ := checkBlocks_reports hgss hs
        obtain ⟨reports, hr1, hr2, hr3⟩ := hfs.each
        simp only [TestResult.new, List.nil_append] at hse
        refine ⟨_, h3, reports, by rw [hr1, hflat, programGroups_shape], hr3, ?_⟩
        have hnil : s.res.errors = [] ↔ ∀ x ∈ reports, x.2 = [] := by
          rw [hse, hr2]
          simp [List.flatMap_eq_nil_iff]
        by_cases he : s.res.errors = []
        · obtain ⟨ms, hms⟩ := verdict_pass he
          rw [hms] at h2
          subst h2
          refine ⟨⟨fun _ => hnil.1 he, fun _ => ⟨ms, rfl⟩⟩, fun fs' => ⟨fun h => by simp at h, ?_⟩⟩
          rintro ⟨k1, k2⟩
          rw [← hr2, ← hse, he] at k2
          exact absurd k2 k1
        · have hms := verdict_fail he
          rw [hms] at h2
          subst h2
          refine ⟨⟨fun ⟨ms, h⟩ => by simp at h, fun h => absurd (hnil.2 h) he⟩, fun fs' => ?_⟩
          simp only [Verdict.fail.injEq]
          rw [← hr2, ← hse]
          exact ⟨fun h => ⟨h ▸ he, h.symm⟩, fun h => h.2.symm⟩

-- Two groups fail, and both failures are reported.
example : run [L .plain "a" 0, L (.count 2) "b" 1] (bytes "x") =
    .ok (.fail [⟨.noneButExpected, true⟩, ⟨.repeatedError, false⟩]) := by rfl

/-- The rules of a run of `CHECK`, `CHECK-NEXT`, ... lines, evaluated one after the other from the context `c`, all gave
a match, and the context is `c'` afterwards. -/
inductive AllMatch : List (Rule E) → Ctx E → Ctx E → Prop
  | nil (c : Ctx E) : AllMatch [] c c
  | cons {r : Rule E} {rs : List (Rule E)} {c c1 c2 : Ctx E} {m : MatchResult} :
      r.apply c = .ok (some m, c1) → (m.ty = .found ∨ m.ty = .excluded) → AllMatch rs c1 c2 → AllMatch (r :: rs) c c2

/-- **C11**, where a failure comes from: in a run of `CHECK`, `CHECK-NEXT`, ... lines, the first line whose match fails
adds one failure to the errors of the test, and nothing after it in the run is evaluated: the context is the one which
that line left. -/
theorem C11_failed_rule {pre : List (Rule E)} {r : Rule E} (post : List (Rule E)) {s : St E} {c1 c2 : Ctx E}
    {m : MatchResult} {f : Failure} (hpre : AllMatch pre s.ctx c1) (hr : r.apply c1 = .ok (some m, c2))
    (hm : m.ty = .failed f) :
    ∃ ms s' f', checkGroup (.ordered (pre ++ r :: post)) s = .ok (.unmatched ms, s') ∧ s'.ctx = c2 ∧
      s'.res.errors = s.res.errors ++ [f'] := by
  have key : ∀ (acc : List Matches) (s : St E), AllMatch pre s.ctx c1 →
      ∃ ms s' f', orderedLoop (pre ++ r :: post) acc s = .ok (false, ms, s') ∧ s'.ctx = c2 ∧
        s'.res.errors = s.res.errors ++ [f'] := by
    clear hpre s
    intro acc s hpre
    generalize hc : s.ctx = c at hpre
    induction hpre generalizing acc s with
    | nil c =>
      subst hc
      have hno : Matches.isOk [m] = false := by simp [Matches.isOk, MatchResult.isOk, hm, MatchType.isOk]
      simp only [List.nil_append, orderedLoop, hr]
      simp only [bind, Except.bind, hno, Bool.false_eq_true, if_false, hm]
      cases post with
      | nil => exact ⟨_, _, f, rfl, rfl, rfl⟩
      | cons p ps => exact ⟨_, _, ⟨.groupFailed, false⟩, rfl, rfl, rfl⟩
    | @cons r' rs c c1' c2' m' h1 h2 _ ih =>
      subst hc
      have hok : Matches.isOk [m'] = true := by
        rcases h2 with h2 | h2 <;> simp [Matches.isOk, MatchResult.isOk, h2, MatchType.isOk]
      obtain ⟨ms, s', f', h3, h4, h5⟩ := ih hr (acc ++ [[m']]) { s with ctx := c1' } rfl
      refine ⟨ms, s', f', ?_, h4, h5⟩
      simp only [List.cons_append, orderedLoop, h1]
      simp only [bind, Except.bind, hok, if_true]
      exact h3
  obtain ⟨ms, s', f', h1, h2, h3⟩ := key [] s hpre
  exact ⟨ms, s', f', by simp only [checkGroup, checkOrdered, h1, bind, Except.bind, Bool.false_eq_true, if_false], h2, h3⟩

-- The second of three rules fails: the run stops there, with the cursor after the first match.
example : ∃ (c1 c2 : Ctx Unit) (m : MatchResult) (f : Failure),
    AllMatch [.plain (litPat false (bytes "a") 0)] ⟨⟨bytes "xay", 0, 3, 3, false⟩, ()⟩ c1 ∧
    (Rule.plain (litPat false (bytes "z") 1)).apply c1 = .ok (some m, c2) ∧ m.ty = .failed f ∧ c2.cur.start = 2 :=
  ⟨⟨⟨bytes "xay", 2, 3, 3, false⟩, ()⟩, _, _, _, .cons rfl (.inl rfl) (.nil _), rfl, rfl, rfl⟩

/-! ## C18 -/

theorem withImplicit_next {il : Line E} (hil : il.kind = .not) (xs : List (Line E)) :
    ∀ (i : Nat) (l : Line E), (xs.flatMap (withImplicit (some il)))[i]? = some l → l.kind ≠ .not →
      (xs.flatMap (withImplicit (some il)))[i + 1]? = some il := by
  induction xs with
  | nil => intro i l h; simp at h
  | cons x xs ih =>
    intro i l h hk
    by_cases hx : x.kind = .not
    · simp only [List.flatMap_cons, withImplicit, hx, if_true, List.singleton_append] at h ⊢
      cases i with
      | zero => simp at h; subst h; exact absurd hx hk
      | succ i => simpa using ih i l (by simpa using h) hk
    · simp only [List.flatMap_cons, withImplicit, hx, if_false, Option.toList_some, List.cons_append, List.nil_append] at h ⊢
      match i with
      | 0 => simp
      | 1 => simp at h; subst h; exact absurd hil hk
      | i + 2 => simpa using ih i l (by simpa using h) hk

/-- **C18**, structure, for the lines before the first label: the block starts with the implicit check, and each
line which is not a `CHECK-NOT` is directly followed by it. (A labelled block only starts with it: see
`C18_label_refuted`.) -/
theorem C18_gaps_partial {sc : SetCompiler E} {il : Line E} (hil : il.kind = .not) {lines : List (Line E)}
    {prog : List (Section E)} (h : compile sc (some il) lines = .ok (.ok prog)) :
    ∃ (head : List (Line E)) (rest : List (Line E × List (Line E))), ProgramOf sc prog ((none, head) :: rest.map fun x => (some x.1, il :: x.2)) ∧
      allLines (rest.map fun x => (some x.1, x.2)) = lines.dropWhile (fun l => l.kind != .label) ∧
      head[0]? = some il ∧ ∀ (i : Nat) (l : Line E), head[i]? = some l → l.kind ≠ .not → head[i + 1]? = some il := by
  have hp := (compile_of (imp := some il) (by simpa using hil) h).2
  refine ⟨headLines (some il) lines, (splitLabels lines).2, ?_, ?_, by simp [headLines], ?_⟩
  · have : fileBlocks (some il) lines = (none, headLines (some il) lines) ::
        (splitLabels lines).2.map (fun x => (some x.1, il :: x.2)) := by
      unfold fileBlocks headBlocks
      simp [headLines]
    rw [← this]; exact hp
  · clear h hp
    unfold allLines
    rw [List.flatMap_map]
    induction lines with
    | nil => rfl
    | cons l ls ih =>
      unfold splitLabels
      split
      · rename_i hk
        have := allLines_splitLabels ls
        simp [hk]
        exact this
      · rename_i hk
        simpa [hk] using ih
  · intro i l hi hk
    simp only [headLines, Option.toList_some, List.singleton_append] at hi ⊢
    cases i with
    | zero => simp at hi; subst hi; exact absurd hil hk
    | succ i => simpa using withImplicit_next hil _ i l (by simpa using hi) hk

/-- **C18**, meaning, for the lines before the first label and inputs with LF line endings: if the test passes,
the implicit pattern occurs neither before the first match of the block, nor between the end of what was matched
up to any line which requires a match and the start of the next match (or the end of the block). -/
theorem C18_absent_partial {sc : SetCompiler E} {mean : Line E → Meaning E} {o : CheckOpts} {clear : E → E}
    {il : Line E} {lines : List (Line E)} {env : E} {b : Buf}
    (hs : Setting sc mean (some il) lines b) (h : Passes sc o clear (some il) lines env b) :
    ∃ (region : Nat → Nat × Nat) (place : Nat → Nat → Nat × Nat) (head : List (Line E)),
      Matching mean b (fileBlocks (some il) lines) region place ∧
      (fileBlocks (some il) lines)[0]? = some (none, head) ∧
      (∀ n, StartAfter head (place 0) (region 0).2 0 n → Absent (mean il) b (region 0).1 n) ∧
      ∀ i p n, Pos head i → EndBefore head (place 0) (region 0).1 (i + 1) p → StartAfter head (place 0) (region 0).2 i n →
        Absent (mean il) b p n := by
  have hil : il.kind = .not := hs.implicit il rfl
  obtain ⟨region, place, hm, hnot⟩ := C06_not_partial hs h
  have hfb : (fileBlocks (some il) lines)[0]? = some (none, headLines (some il) lines) := by
    unfold fileBlocks headBlocks
    simp [headLines]
  have h0 : (headLines (some il) lines)[0]? = some il := by simp [headLines]
  refine ⟨region, place, headLines (some il) lines, hm, hfb, ?_, ?_⟩
  · intro n hn
    refine hnot 0 _ 0 il _ n hfb h0 hil ⟨Nat.le_refl _, by simp, .inl rfl⟩ hn
  · intro i p n hi hp hn
    obtain ⟨l, hl, hk⟩ := hi
    have hnext : (headLines (some il) lines)[i + 1]? = some il := by
      simp only [headLines, Option.toList_some, List.singleton_append] at hl ⊢
      cases i with
      | zero => simp at hl; subst hl; exact absurd hil hk
      | succ i => simpa using withImplicit_next hil _ i l (by simpa using hl) hk
    refine hnot 0 _ (i + 1) il p n hfb hnext hil hp ⟨hn.1, fun j hj => hn.2.1 j (by omega), ?_⟩
    rcases hn.2.2 with h1 | ⟨j, h1, h2, h3⟩
    · exact .inl h1
    · refine .inr ⟨j, ?_, h2, h3⟩
      have : j ≠ i + 1 := by
        rintro rfl
        obtain ⟨l', hl', hk'⟩ := h2
        rw [hnext] at hl'
        simp at hl'
        subst hl'
        exact hk' hil
      omega

/-- Check a file of literals on an input, with an implicit `CHECK-NOT`. -/
def runImp (p : String) (lines : List (Line Unit)) (b : Buf) : P Verdict :=
  verify (litSet false) {} id (some (L .not p 99)) lines () b

-- Without labels, `bad` is caught between two matches, before the first and after the last one.
example : runImp "bad" [L .plain "a" 0, L .plain "b" 1] (bytes "a\nx\nb\n") = .ok (.pass [⟨0, 1, 0, 0⟩, ⟨4, 5, 0, 1⟩]) := by rfl
example : runImp "bad" [L .plain "z" 0, L .plain "y" 1] (bytes "z\nbad\ny\n") = .ok (.fail [⟨.foundButExcluded, true⟩]) := by rfl
example : runImp "bad" [L .plain "z" 0] (bytes "bad z\n") = .ok (.fail [⟨.foundButExcluded, true⟩]) := by rfl
example : runImp "bad" [L .plain "z" 0] (bytes "z bad\n") = .ok (.fail [⟨.foundButExcluded, true⟩]) := by rfl

/-- **C18** fails in labelled blocks: `bad` is between the matches of the two checks, and the test passes. -/
theorem C18_label_refuted :
    runImp "bad" [L .label "F" 0, L .plain "z" 1, L .plain "y" 2] (bytes "F\nz\nbad\ny\n") =
      .ok (.pass [⟨0, 1, 0, 0⟩, ⟨2, 3, 0, 1⟩, ⟨8, 9, 0, 2⟩]) := by rfl

end Litcheck
