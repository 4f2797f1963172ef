import Verif.Model.Listing
import Verif.Spec.Listing
import Verif.Props.Registry
import Verif.Props.Report

/-!
# C99: what `show-tests` and `show-suites` list

* `C99_tests`: reading what `show-tests` prints gives the tests which were found, each with its name and format, in order;
* `C99_run`, `C99_report`: these are the tests which `lit run` with the same inputs hands to its workers, and reports;
* `C99_suites`: `show-suites` prints each suite once, with the number of its tests, and does not panic;
* `C99_none`: without a suite nothing is listed and the exit code is 100;
* `C99_filter_refuted`: `--filter` and `--filter-out` have no effect on the listings.
-/

namespace Litcheck.Registry
open LexSpec (lines)
open Runner (line digits padRight widest digits_no lines_flatten lines_line takeWhile_stop dropWhile_stop)

/-- The name of a format, as a user knows it. -/
def formatIs : Format → Str
  | .executable _ => "executable".toList
  | _ => "shtest".toList

theorem formatName_eq (f : Format) : formatName f = formatIs f := by cases f <;> rfl

theorem format_no (f : Format) : '=' ∉ formatIs f ∧ '\n' ∉ formatIs f := by
  cases f
  · exact (by decide : '=' ∉ "shtest".toList ∧ '\n' ∉ "shtest".toList)
  · exact (by decide : '=' ∉ "shtest".toList ∧ '\n' ∉ "shtest".toList)
  · exact (by decide : '=' ∉ "executable".toList ∧ '\n' ∉ "executable".toList)

theorem formatIs_eq (f : Format) : ∀ c ∈ (formatIs f).reverse, (c != '=') = true := by
  intro c hc
  have := (format_no f).1
  simp only [bne_iff_ne, ne_eq]
  rintro rfl
  exact this (List.mem_reverse.1 hc)

/-- The line of a test. -/
def testLine (t : Found) : Str := "  ".toList ++ t.name ++ " (format=".toList ++ formatIs t.config.format ++ ")".toList

theorem showTests_eq (r : Reg) : showTests r = (("-- Available Tests --".toList :: r.allTests.map testLine).map line).flatten := by
  simp only [showTests, List.map_cons, List.flatten_cons, List.map_map]
  congr 3
  funext t
  simp only [Function.comp_apply, testLine, Found.name, formatName_eq, showRelative, List.append_assoc]

theorem test_line (t : Found) : ListingSpec.test (testLine t) = (t.name, formatIs t.config.format) := by
  have h : (testLine t).reverse.drop 1 = (formatIs t.config.format).reverse ++ '=' :: ("tamrof( ".toList ++ (t.name.reverse ++ "  ".toList)) := by
    simp [testLine]
  simp only [ListingSpec.test, h]
  rw [dropWhile_stop (formatIs_eq _) (by decide), takeWhile_stop (formatIs_eq _) (by decide), List.reverse_reverse]
  simp

/-- **C99.** What `show-tests` prints, read line by line, is the tests found, each with its name and its format, in order, each
exactly once. -/
theorem C99_tests {r : Reg} (hn : ∀ t ∈ r.allTests, '\n' ∉ t.name) :
    ListingSpec.tests (lines (showTests r)) = r.allTests.map fun t => (t.name, formatIs t.config.format) := by
  rw [showTests_eq, lines_flatten, ListingSpec.tests]
  · simp only [List.cons_append, List.drop_succ_cons, List.drop_zero, List.filter_append]
    rw [List.filter_eq_self.2]
    · simp only [List.filter_singleton, List.isEmpty_nil, Bool.not_true, Bool.false_eq_true, if_false, List.append_nil, List.map_map, cond_false]
      congr 1
      funext t
      exact test_line t
    · intro l hl
      obtain ⟨t, _, rfl⟩ := List.mem_map.1 hl
      simp [testLine]
  · intro l hl
    rcases List.mem_cons.1 hl with rfl | hl
    · decide
    · obtain ⟨t, ht, rfl⟩ := List.mem_map.1 hl
      have := hn t ht
      have := (format_no t.config.format).2
      simp only [testLine, List.mem_append, not_or]
      refine ⟨⟨⟨⟨by decide, by assumption⟩, by decide⟩, by assumption⟩, by decide⟩

/-! ## Suites -/

/-- The text has no line feed anywhere. -/
structure OneLine (workingDir : Suite → DPath) (s : Suite) : Prop where
  name : '\n' ∉ s.decl.name
  source : '\n' ∉ showAbsolute s.sourceDir
  working : '\n' ∉ showAbsolute (workingDir s)
  features : ∀ f ∈ s.decl.config.features, '\n' ∉ f
  substitutions : ∀ e ∈ s.decl.config.substitutions, '\n' ∉ e.1 ∧ '\n' ∉ e.2
  env : ∀ e ∈ s.decl.config.env, '\n' ∉ e.1 ∧ '\n' ∉ e.2

/-- The lines of a map. -/
def entryLines (es : SubSet) : List Str :=
  es.map fun e => "        - ".toList ++ padRight e.1 (widest (es.map (·.1))) ++ ": ".toList ++ e.2

/-- The lines of a suite after the first. -/
def suiteRest (workingDir : Suite → DPath) (s : Suite) : List Str :=
  ["    Source Root  : ".toList ++ showAbsolute s.sourceDir,
    "    Exec Root    : ".toList ++ showAbsolute (workingDir s),
    "    Test Format  : ".toList ++ formatIs s.decl.config.format,
    "    Available Features:".toList]
    ++ s.decl.config.features.map (fun f => "        - ".toList ++ f)
    ++ "    Available Substitutions:".toList :: entryLines s.decl.config.substitutions
    ++ "    Environment Variables:".toList :: entryLines s.decl.config.env

/-- The first line of a suite. -/
def suiteLine (s : Suite) (n : Nat) : Str := "  * ".toList ++ s.decl.name ++ " - ".toList ++ digits n ++ " tests".toList

theorem showSuite_eq (workingDir : Suite → DPath) (s : Suite) (n : Nat) :
    showSuite workingDir s n = ((suiteLine s n :: suiteRest workingDir s).map line).flatten := by
  simp [showSuite, suiteLine, suiteRest, showEntries, entryLines, formatName_eq, Function.comp_def]

theorem suite_line (s : Suite) (n : Nat) : ListingSpec.suite (suiteLine s n) = some (s.decl.name, digits n) := by
  have h1 : "  * ".toList.isPrefixOf (suiteLine s n) = true := by simp [suiteLine]
  have h2 : ((suiteLine s n).drop 4).reverse.drop " tests".toList.length
      = (digits n).reverse ++ ' ' :: ("- ".toList ++ s.decl.name.reverse) := by simp [suiteLine]
  have hd : ∀ c ∈ (digits n).reverse, (c != ' ') = true := by
    intro c hc
    have : ' ' ∉ digits n := digits_no (by decide)
    simp only [bne_iff_ne, ne_eq]
    rintro rfl
    exact this (List.mem_reverse.1 hc)
  rw [ListingSpec.suite, if_pos h1]
  simp only [h2]
  rw [dropWhile_stop hd (by decide), takeWhile_stop hd (by decide), List.reverse_reverse]
  simp

theorem rest_not (workingDir : Suite → DPath) (s : Suite) : ∀ l ∈ suiteRest workingDir s, ListingSpec.suite l = none := by
  have key : ∀ x : Str, ListingSpec.suite ("    ".toList ++ x) = none := fun x => rfl
  intro l hl
  obtain ⟨x, rfl⟩ : ∃ x, l = "    ".toList ++ x := by
    simp only [suiteRest, entryLines, List.mem_append, List.mem_cons, List.mem_map, List.not_mem_nil, or_false, List.cons_append,
      List.nil_append] at hl
    rcases hl with rfl | rfl | rfl | rfl | h
    · exact ⟨_, rfl⟩
    · exact ⟨_, rfl⟩
    · exact ⟨_, rfl⟩
    · exact ⟨_, rfl⟩
    · rcases h with ((⟨_, _, rfl⟩ | rfl | ⟨_, _, rfl⟩) | rfl | ⟨_, _, rfl⟩) <;> exact ⟨_, rfl⟩
  exact key x

theorem rest_clean {workingDir : Suite → DPath} {s : Suite} (h : OneLine workingDir s) : ∀ l ∈ suiteRest workingDir s, '\n' ∉ l := by
  have entries : ∀ es : SubSet, (∀ e ∈ es, '\n' ∉ e.1 ∧ '\n' ∉ e.2) → ∀ l ∈ entryLines es, '\n' ∉ l := by
    intro es hes l hl
    obtain ⟨e, he, rfl⟩ := List.mem_map.1 hl
    simp only [List.mem_append, padRight, not_or]
    refine ⟨⟨⟨by decide, (hes e he).1, ?_⟩, by decide⟩, (hes e he).2⟩
    intro hm
    have := List.eq_of_mem_replicate hm
    revert this
    decide
  intro l hl
  rw [suiteRest, List.mem_append, List.mem_append, List.mem_append] at hl
  have sep : ∀ a b : Str, '\n' ∉ a → '\n' ∉ b → '\n' ∉ a ++ b := by
    intro a b ha hb hm
    rcases List.mem_append.1 hm with hm | hm
    · exact ha hm
    · exact hb hm
  rcases hl with ((h1 | h1) | h1) | h1
  · simp only [List.mem_cons, List.not_mem_nil, or_false] at h1
    rcases h1 with rfl | rfl | rfl | rfl
    · exact sep _ _ (by decide) h.source
    · exact sep _ _ (by decide) h.working
    · exact sep _ _ (by decide) (format_no _).2
    · decide
  · obtain ⟨f, hf, rfl⟩ := List.mem_map.1 h1
    exact sep _ _ (by decide) (h.features f hf)
  · rcases List.mem_cons.1 h1 with rfl | h1
    · decide
    · exact entries _ h.substitutions l h1
  · rcases List.mem_cons.1 h1 with rfl | h1
    · decide
    · exact entries _ h.env l h1

/-- The lines of all suites. -/
def suiteLines (workingDir : Suite → DPath) (size : Suite → Nat) (ss : List Suite) : List Str :=
  (ss.map fun s => suiteLine s (size s) :: suiteRest workingDir s).flatten

theorem loop_eq {workingDir : Suite → DPath} {r : Reg} {size : Suite → Nat} :
    ∀ {ss : List Suite}, (∀ s ∈ ss, r.sizeOfSuite s.key = .ok (size s)) →
      showSuiteLoop workingDir r ss = .ok (((suiteLines workingDir size ss).map line).flatten)
  | [], _ => rfl
  | s :: ss, h => by
    rw [showSuiteLoop, h s List.mem_cons_self, loop_eq fun x hx => h x (List.mem_cons_of_mem _ hx)]
    show Out.ok (showSuite workingDir s (size s) ++ _) = _
    rw [showSuite_eq, suiteLines, suiteLines, List.map_cons (l := ss), List.flatten_cons, List.map_append, List.flatten_append]

theorem read_suites (workingDir : Suite → DPath) (size : Suite → Nat) (ss : List Suite) :
    ListingSpec.suites (suiteLines workingDir size ss) = ss.map fun s => (s.decl.name, digits (size s)) := by
  induction ss with
  | nil => rfl
  | cons s ss ih =>
    rw [suiteLines, List.map_cons, List.flatten_cons, ListingSpec.suites, List.filterMap_append, List.filterMap_cons, suite_line]
    dsimp only
    rw [List.filterMap_eq_nil_iff.2 (rest_not workingDir s)]
    rw [List.map_cons, ← ih]
    rfl

theorem size_listed {d : Disk} {n : Nat} {inputs : List (Option DPath)} {r : Reg} (h : load d n inputs = .ok r) {s : Suite} (hs : s ∈ r.suites.iter) :
    r.sizeOfSuite s.key = .ok (r.allTests.filter fun t => t.suite.key = s.key).length := by
  have hi : Inv r := Inv.loadInputs d n inputs .empty h
  obtain ⟨_, _, _, _, _, _, _, h8⟩ := C46_load d n inputs r h
  rw [h8, if_pos]
  obtain ⟨e, he, rfl⟩ := List.mem_map.1 hs
  have := (hi.suites.get_iff e.1 e.2).2 he
  rw [hi.own e he, SuiteSet.get, this]
  rfl

/-- **C99.** `show-suites` prints, whatever the disk holds and whatever is asked for, each suite which was loaded, once, with the number of its tests
which were found; these numbers add up to the number of all tests. It does not panic. -/
theorem C99_suites {d : Disk} {n : Nat} {inputs : List (Option DPath)} {r : Reg} (h : load d n inputs = .ok r) (workingDir : Suite → DPath) :
    ∃ text, showSuites workingDir r = .ok text ∧
      ((∀ s ∈ r.suites.iter, OneLine workingDir s) → ListingSpec.suites (lines text) =
        r.suites.iter.map fun s => (s.decl.name, Nat.toDigits 10 (r.allTests.filter fun t => t.suite.key = s.key).length)) ∧
      (r.suites.iter.map Suite.key).Nodup ∧
      (r.suites.iter.map fun s => (r.allTests.filter fun t => t.suite.key = s.key).length).sum = r.allTests.length := by
  have hi : Inv r := Inv.loadInputs d n inputs .empty h
  have hk : r.suites.iter.map Suite.key = r.suites.suites.map (·.1) := by
    rw [SuiteSet.iter, List.map_map]
    exact List.map_congr_left fun e he => hi.own e he
  refine ⟨(("-- Test Suites --".toList :: suiteLines workingDir (fun s => (r.allTests.filter fun t => t.suite.key = s.key).length)
      r.suites.iter).map line).flatten, ?_, ?_, ?_, ?_⟩
  · rw [showSuites, loop_eq fun s hs => size_listed h hs]
    rfl
  · intro hc
    rw [lines_flatten, ListingSpec.suites, List.filterMap_append, List.filterMap_cons]
    · have h1 : ListingSpec.suite "-- Test Suites --".toList = none := rfl
      have h2 : [([] : Str)].filterMap ListingSpec.suite = [] := rfl
      rw [h1, h2, List.append_nil]
      exact read_suites _ _ _
    · intro l hl
      rcases List.mem_cons.1 hl with rfl | hl
      · decide
      · obtain ⟨ls, hls, hl⟩ := List.mem_flatten.1 hl
        obtain ⟨s, hs, rfl⟩ := List.mem_map.1 hls
        rcases List.mem_cons.1 hl with rfl | hl
        · have h1 := (hc s hs).name
          have h2 : '\n' ∉ digits (r.allTests.filter fun t => t.suite.key = s.key).length := digits_no (by decide)
          simp only [suiteLine, List.mem_append, not_or]
          exact ⟨⟨⟨⟨by decide, h1⟩, by decide⟩, h2⟩, by decide⟩
        · exact rest_clean (hc s hs) l hl
  · rw [hk]
    exact hi.suites.nodup
  · have hm : r.suites.iter.map (fun s => (r.allTests.filter fun t => t.suite.key = s.key).length) = r.tests.map fun e => e.2.len := by
      have : ∀ k : Key, (r.allTests.filter fun t => t.suite.key = k).length = ((r.tests.get k).map (·.len)).getD 0 := by
        intro k
        rw [Reg.allTests, filter_tests hi.tests (fun e he => (hi.lists e he).2)]
        cases hg : r.tests.get k with
        | none => rfl
        | some l =>
          have := (hi.lists _ (KMap.get_mem hg)).1
          simp only [TestList.Exact] at this
          simp [this]
      rw [show (fun s : Suite => (r.allTests.filter fun t => t.suite.key = s.key).length) =
        (fun k => ((r.tests.get k).map (·.len)).getD 0) ∘ Suite.key from funext fun s => this s.key, ← List.map_map, hk, ← hi.keys, List.map_map]
      refine List.map_congr_left fun e he => ?_
      rw [Function.comp_apply, (hi.tests.get_iff e.1 e.2).2 he]
      rfl
    rw [hm]
    exact (C46_load d n inputs r h).1

/-! ## The subcommands -/

/-- **C99.** `lit run` hands tests to its workers exactly if `show-tests` with the same inputs lists tests, and they are those which it lists,
in order. -/
theorem C99_run {d : Disk} {n : Nat} {inputs : List (Option DPath)} (workingDir : Suite → DPath) (selected : Str → Bool) (l : TestList Found) :
    litRun d n workingDir .run inputs selected = .ok (.start l) →
    ∃ text, litRun d n workingDir .tests inputs selected = .ok (.exit 0 text []) ∧
      ((∀ t ∈ l.tests, '\n' ∉ t.name) → ListingSpec.tests (lines text) = l.tests.map fun t => (t.name, formatIs t.config.format)) := by
  intro h
  cases hr : load d n inputs with
  | ok r =>
    have h1 : litRun d n workingDir .run inputs selected = if r.isEmpty then
        .ok (.exit 100 [] (line "did not discover any test suites for provided path(s)".toList))
      else if r.isEmpty then .err else .ok (.start r.intoList) := by
      rw [litRun, hr]
      show (if r.isEmpty = true then _ else _) = _
      rfl
    have h2 : litRun d n workingDir .tests inputs selected = if r.isEmpty then
        .ok (.exit 100 [] (line "did not discover any test suites for provided path(s)".toList))
      else if r.isEmpty then .err else .ok (.exit 0 (showTests r) []) := by
      rw [litRun, hr]
      show (if r.isEmpty = true then _ else _) = _
      rfl
    rw [h1] at h
    rw [h2]
    by_cases he : r.isEmpty = true
    · rw [if_pos he] at h
      cases h
    · rw [if_neg he, if_neg he] at h ⊢
      have hl : l = r.intoList := by
        simp only [Out.ok.injEq, LitOut.start.injEq] at h
        exact h.symm
      have ht : l.tests = r.allTests := by rw [hl]; exact (C46_load d n inputs r hr).2.1
      refine ⟨_, rfl, ?_⟩
      intro hn
      rw [ht] at hn ⊢
      exact C99_tests hn
  | err => rw [litRun, hr] at h; cases h
  | panic => rw [litRun, hr] at h; cases h
  | hang => rw [litRun, hr] at h; cases h

/-- **C99.** The report at the end of `lit run` lists the tests which `show-tests` lists, each exactly once, less those which ended with an error. -/
theorem C99_report {d : Disk} {n : Nat} {inputs : List (Option DPath)} {workingDir : Suite → DPath} {selected : Str → Bool} {l : TestList Found}
    (hs : litRun d n workingDir .run inputs selected = .ok (.start l)) (hn : ∀ t ∈ l.tests, '\n' ∉ t.name)
    {Exec : Found → Option Status → Prop} (hr : Runner.Ran Exec) {workers : Nat} {es : List (Runner.Event Found)} {s : Runner.State Found}
    (h : Runner.Steps (fun t => selected t.name) Exec (Runner.init workers l.tests) es s) (hf : Runner.Finished s) {r : Runner.Results Found}
    (hc : Runner.collectResults (fun t => selected t.name) s.reports s.queue = .ok r) {pct : Nat → Nat → Str} (hp : ∀ a b, '\n' ∉ pct a b) :
    ∃ text, litRun d n workingDir .tests inputs selected = .ok (.exit 0 text []) ∧
      (Runner.listedNames (Runner.printResults false pct Found.name r) ++ (Runner.errors es).map Found.name).Perm
        ((ListingSpec.tests (lines text)).map Prod.fst) := by
  obtain ⟨text, h1, h2⟩ := C99_run workingDir selected l hs
  refine ⟨text, h1, ?_⟩
  rw [h2 hn, List.map_map]
  exact Runner.C97_run_partial hr h hf hc hp hn

/-- **C99.** If no suite is found nothing is listed and nothing is run: each of the subcommands prints one message to the standard error and exits with 100. -/
theorem C99_none {d : Disk} {n : Nat} {inputs : List (Option DPath)} {r : Reg} (h : load d n inputs = .ok r) (workingDir : Suite → DPath)
    (mode : LitMode) (selected : Str → Bool) :
    (r.suites.iter = [] → litRun d n workingDir mode inputs selected =
      .ok (.exit 100 [] "did not discover any test suites for provided path(s)\n".toList)) ∧
    (r.suites.iter ≠ [] → ∀ code out err, litRun d n workingDir mode inputs selected = .ok (.exit code out err) → code = 0 ∧ err = [] ∧ mode ≠ .run) := by
  have he := (C46_load d n inputs r h).2.2.2.2.2.1
  have h1 : litRun d n workingDir mode inputs selected = if r.isEmpty then
        .ok (.exit 100 [] (line "did not discover any test suites for provided path(s)".toList))
      else if mode = .suites then (do let out ← showSuites workingDir r; pure (.exit 0 out []))
      else if r.isEmpty then .err else if mode = .tests then .ok (.exit 0 (showTests r) []) else .ok (.start r.intoList) := by
    rw [litRun, h]
    rfl
  constructor
  · intro hn
    rw [h1, if_pos (he.2 hn)]
    rfl
  · intro hn code out err hx
    have hne : ¬ r.isEmpty = true := fun e => hn (he.1 e)
    rw [h1, if_neg hne, if_neg hne] at hx
    obtain ⟨text, ht, _⟩ := C99_suites h workingDir
    cases mode with
    | run =>
      rw [if_neg (by decide), if_neg (by decide)] at hx
      simp at hx
    | suites =>
      rw [if_pos rfl, ht] at hx
      have : (.ok (.exit 0 text []) : Out LitOut) = .ok (.exit code out err) := hx
      simp only [Out.ok.injEq, LitOut.exit.injEq] at this
      exact ⟨this.1.symm, this.2.2.symm, by decide⟩
    | tests =>
      rw [if_neg (by decide), if_pos rfl] at hx
      simp only [Out.ok.injEq, LitOut.exit.injEq] at hx
      exact ⟨hx.1.symm, hx.2.2.symm, by decide⟩

/-- What is listed for an example disk. -/
def exListed (mode : LitMode) (selected : Str → Bool) (out : Str → Bool) : Bool :=
  match litRun Ex.d1 2 (fun _ => Ex.at_ ["tmp"]) mode [some (Ex.at_ ["w", "tests"])] selected with
  | .ok (.exit 0 text []) => out text
  | _ => false

/-- Four tests are listed, two suites, with three tests and one. -/
example : exListed .tests (fun _ => true) (fun text => ListingSpec.tests (lines text) ==
      [("inner::e.txt".toList, "shtest".toList), ("tests::a.txt".toList, "shtest".toList), ("tests::b.txt".toList, "shtest".toList),
        ("tests::sub/c.txt".toList, "shtest".toList)]) = true ∧
    exListed .suites (fun _ => true) (fun text => ListingSpec.suites (lines text) ==
      [("inner".toList, "1".toList), ("tests".toList, "3".toList)]) = true := by
  constructor <;> decide +kernel

/-- The theorems apply to it. -/
example : ∃ r, load Ex.d1 2 [some (Ex.at_ ["w", "tests"])] = .ok r ∧ (∀ t ∈ r.allTests, '\n' ∉ t.name) ∧ r.allTests.length = 4 ∧
    (∀ s ∈ r.suites.iter, OneLine (fun _ => Ex.at_ ["tmp"]) s) ∧ r.suites.iter.length = 2 := by
  have h : (match load Ex.d1 2 [some (Ex.at_ ["w", "tests"])] with
    | .ok r => (r.allTests.all fun t => !t.name.contains '\n') && r.allTests.length == 4 && r.suites.iter.length == 2 &&
      r.suites.iter.all fun s => !s.decl.name.contains '\n' && !(showAbsolute s.sourceDir).contains '\n' &&
        s.decl.config.features == [] && s.decl.config.substitutions == [] && s.decl.config.env == []
    | _ => false) = true := by decide +kernel
  cases hr : load Ex.d1 2 [some (Ex.at_ ["w", "tests"])] with
  | ok r =>
    rw [hr] at h
    simp only [Bool.and_eq_true, List.all_eq_true, Bool.not_eq_true', List.contains_eq_mem, decide_eq_false_iff_not, beq_iff_eq] at h
    obtain ⟨⟨⟨h1, h2⟩, h3⟩, h4⟩ := h
    refine ⟨r, rfl, h1, h2, ?_, h3⟩
    intro s hs
    obtain ⟨⟨⟨⟨a, b⟩, c⟩, e⟩, f⟩ := h4 s hs
    exact ⟨a, b, by decide, by rw [c]; simp, by rw [e]; simp, by rw [f]; simp⟩
  | err => rw [hr] at h; cases h
  | panic => rw [hr] at h; cases h
  | hang => rw [hr] at h; cases h

/-- `show-tests --filter` and `--filter-out` say that they select tests by name, as for `run`, but all are listed. -/
theorem C99_filter_refuted : (fun s : Str => "inner".toList.isPrefixOf s) "tests::a.txt".toList = false ∧
    exListed .tests (fun s => "inner".toList.isPrefixOf s) (fun text =>
      ((ListingSpec.tests (lines text)).map Prod.fst).contains "tests::a.txt".toList) = true :=
  ⟨by decide +kernel, by decide +kernel⟩

end Litcheck.Registry
