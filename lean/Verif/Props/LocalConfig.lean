import Verif.Props.Registry

/-!
# Local configurations: the properties
-/

namespace Litcheck.Registry

open Litcheck.RSpec Litcheck.PSpec

/-- The directories with a local configuration among those below `at'`, down along the components. -/
theorem localDirs_cons (d : Disk) (src : DPath) (x : Str) (xs : List Str) :
    localDirs d src (x :: xs) = (if d.isFile (src ++ [x] ++ [LOCAL]) then [src ++ [x]] else []) ++ localDirs d (src ++ [x]) xs := by
  have hi : xs.inits = [] :: xs.inits.tail := by cases xs <;> simp
  simp only [localDirs, List.inits, List.tail_cons]
  rw [hi]
  simp only [List.map_cons, List.filter_cons, List.tail_cons, List.map_map, Function.comp_def]
  split <;> simp

theorem localDirs_append (d : Disk) (src : DPath) (xs : List Str) (x : Str) :
    localDirs d src (xs ++ [x]) = localDirs d src xs ++ (if d.isFile (src ++ xs ++ [x] ++ [LOCAL]) then [src ++ xs ++ [x]] else []) := by
  induction xs generalizing src with
  | nil =>
    rw [List.nil_append, localDirs_cons]
    simp [localDirs]
  | cons y ys ih =>
    rw [List.cons_append, localDirs_cons, localDirs_cons, ih, List.append_assoc]
    simp

/-- The loop goes down the directories, and each local configuration met refines the one above. -/
theorem localLoop_fold {d : Disk} (s : Suite) (xs : List Str) (at' : DPath) (c : TestConfig) (t : PathTree TestConfig)
    (hx : ∀ q, q <+: xs → q ≠ [] → d.isFile (at' ++ q) = true → q.getLast? ≠ some LOCAL)
    {q : DPath} {c' : TestConfig} {t' : PathTree TestConfig} (h : localLoop d s xs at' c t = .ok (q, c', t'))
    (hfl : ∀ q, q <+: xs → q ≠ [] → d.isFile (at' ++ q) = true → d.isFile (at' ++ q ++ [LOCAL]) = false) :
    q = at' ++ xs ∧ c' = (localDirs d at' xs).foldl (refine d s.decl) c := by
  induction xs generalizing at' c t with
  | nil =>
    simp only [localLoop, Out.ok.injEq, Prod.mk.injEq] at h
    obtain ⟨rfl, rfl, rfl⟩ := h
    exact ⟨by simp, by simp [localDirs]⟩
  | cons x xs ih =>
    have hx' : ∀ q, q <+: xs → q ≠ [] → d.isFile (at' ++ [x] ++ q) = true → q.getLast? ≠ some LOCAL := by
      intro q h1 h2 h3 h4
      refine hx (x :: q) (List.cons_prefix_cons.2 ⟨rfl, h1⟩) (by simp) (by simpa using h3) ?_
      rw [List.getLast?_cons, h4]; rfl
    have hfl' : ∀ q, q <+: xs → q ≠ [] → d.isFile (at' ++ [x] ++ q) = true → d.isFile (at' ++ [x] ++ q ++ [LOCAL]) = false := by
      intro q h1 h2 h3
      have := hfl (x :: q) (List.cons_prefix_cons.2 ⟨rfl, h1⟩) (by simp) (by simpa using h3)
      simpa using this
    have hs : d.search (at' ++ [x]) LOCAL = if d.isFile (at' ++ [x] ++ [LOCAL]) then some (at' ++ [x] ++ [LOCAL]) else none := by
      unfold Disk.search
      by_cases hf : d.isFile (at' ++ [x]) = true
      · have h1 := hx [x] (List.cons_prefix_cons.2 ⟨rfl, List.nil_prefix⟩) (by simp) hf
        have h2 := hfl [x] (List.cons_prefix_cons.2 ⟨rfl, List.nil_prefix⟩) (by simp) hf
        rw [if_pos hf, h2]
        simp only [List.getLast?_singleton] at h1
        simp [h1]
      · rw [if_neg hf]
    simp only [localLoop] at h
    rw [hs] at h
    rw [localDirs_cons]
    by_cases hl : d.isFile (at' ++ [x] ++ [LOCAL]) = true
    · rw [if_pos hl] at h ⊢
      dsimp only at h
      cases hd : d.local_ (at' ++ [x] ++ [LOCAL]) with
      | none => rw [hd] at h; cases h
      | some cfg =>
        rw [hd] at h
        dsimp only at h
        obtain ⟨t2, _, h⟩ := (Out.bind_ok _ _ _).1 h
        obtain ⟨e1, e2⟩ := ih _ _ _ hx' h hfl'
        refine ⟨by simp [e1], ?_⟩
        rw [e2, List.foldl_append, List.foldl_cons, List.foldl_nil]
        simp only [refine, hd]
    · rw [if_neg hl] at h ⊢
      obtain ⟨e1, e2⟩ := ih _ _ _ hx' h hfl'
      exact ⟨by simp [e1], by simpa using e2⟩

/-- Below a file there is nothing. -/
theorem nothing_below {d : Disk} (ht : Tidy d.top) {p : DPath} (h : d.isFile p = true) (x : Str) : d.isFile (p ++ [x]) = false := by
  cases hh : d.isFile (p ++ [x]) with
  | false => rfl
  | true =>
    have := (isFile_parent hh).2
    rw [List.dropLast_concat, isFile_not_dir ht h] at this
    cases this

/-- The configuration of a file or directory of a suite, when none has been cached. -/
theorem localConfig_first {d : Disk} (ht : Tidy d.top) (s : Suite) (p : DPath) (hfile : d.isFile (s.sourceDir ++ p) = true)
    (hname : p.getLast? ≠ some LOCAL) (hpne : p ≠ []) {c : TestConfig} {t : PathTree TestConfig}
    (h : localConfig d s p .empty = .ok (c, t)) : c = (localDirs d s.sourceDir p.dropLast).foldl (refine d s.decl) s.decl.config := by
  unfold localConfig at h
  obtain ⟨g1, g2⟩ := cache_empty (V := TestConfig) d.fs (absolute (s.sourceDir ++ p).dropLast)
  have hnd := isFile_not_dir ht hfile
  simp only [hnd, Bool.false_eq_true, if_false] at h
  rw [show PathTree.get d.fs PathTree.empty (absolute (s.sourceDir ++ p).dropLast) = .ok none from g1] at h
  rw [show PathTree.nearestAncestor d.fs PathTree.empty (absolute (s.sourceDir ++ p).dropLast) = .ok none from g2] at h
  simp only [ofP, Out.bind_eq, Out.bind, pure] at h
  cases hl : localLoop d s p s.sourceDir s.decl.config .empty with
  | ok v =>
    obtain ⟨q, c', t'⟩ := v
    rw [hl] at h
    dsimp only at h
    have hfold := localLoop_fold s p s.sourceDir s.decl.config .empty (by
      intro q h1 h2 h3
      by_cases he : q = p
      · rw [he]; exact hname
      · exfalso
        have := file_no_below ht h3 hfile (by simpa using h1)
        simp at this
        exact he this) hl (fun q _ _ h3 => nothing_below ht h3 _)
    cases hc : cacheInsert d t' q c' with
    | ok t2 =>
      rw [hc] at h
      simp only [Out.ok.injEq, Prod.mk.injEq] at h
      rw [← h.1, hfold.2]
      congr 1
      obtain ⟨q', x, rfl⟩ : ∃ q' x, p = q' ++ [x] := ⟨p.dropLast, p.getLast hpne, (List.dropLast_append_getLast hpne).symm⟩
      rw [localDirs_append, List.dropLast_concat, ← List.append_assoc] at *
      rw [nothing_below ht hfile]
      simp
    | err => rw [hc] at h; cases h
    | panic => rw [hc] at h; cases h
    | hang => rw [hc] at h; cases h
  | err => rw [hl] at h; cases h
  | panic => rw [hl] at h; cases h
  | hang => rw [hl] at h; cases h

/-- **C63** for a run on one file: the file is tested with the settings of its suite, refined by the local configuration of every
directory that has one on the way from the suite's sources down to the file, in that order; and it is a test exactly if
those settings select it. Missing: other inputs, for which the property fails (`C63_suite_refuted`, `C63_top_refuted`,
`C63_cached_refuted`, `C63_panic_refuted`). -/
theorem C63_file_partial (d : Disk) (hp : Plain d) (n : Nat) (e p : DPath) (hin : InSuite d e (e ++ p)) (hname : p.getLast? ≠ some LOCAL)
    (r : Reg) (h : load d n [some (e ++ p)] = .ok r) :
    ∃ decl, d.suite (e ++ [SUITE]) = some decl ∧
      let c := (localDirs d e p.dropLast).foldl (refine d decl) decl.config
      (∀ t ∈ r.allTests, t.suite.path = e ++ [SUITE] ∧ t.suite.decl = decl ∧ t.config = c ∧ t.absolutePath = e ++ t.path) ∧
      (r.allTests.map Found.path = [p] ∨ r.allTests = []) ∧ (r.allTests ≠ [] ↔ ¬ Hidden p ∧ Chosen d c p) := by
  obtain ⟨hf, hne, hc⟩ := hin
  simp only [load, loadInputs] at h
  obtain ⟨r0, h0, h⟩ := (Out.bind_ok _ _ _).1 h
  simp only [Out.ok.injEq] at h
  subst h
  cases n with
  | zero => cases h0
  | succ n =>
    obtain ⟨hfne, hdir⟩ := isFile_parent hf
    have hpne : p ≠ [] := by
      rintro rfl
      rw [List.append_nil] at hf
      have := isFile_not_dir hp.tidy hf
      rw [isFile_dir hne.2.1] at this
      cases this
    simp only [loadFromPath] at h0
    split at h0
    case isFalse => cases h0
    obtain ⟨⟨r1, found⟩, h1, h0⟩ := (Out.bind_ok _ _ _).1 h0
    unfold findNearest at h1
    rw [isFile_not_dir hp.tidy hf] at h1
    simp only [Bool.false_eq_true, if_false] at h1
    unfold findContaining at h1
    have hce : PathTree.nearestAncestor d.fs Reg.empty.cache (absolute (e ++ p)) = .ok none := (cache_empty (V := Key) d.fs _).2
    rw [hce] at h1
    simp only [ofP, Out.bind_eq, Out.bind] at h1
    rw [isFile_not_dir hp.tidy hf] at h1
    simp only [Bool.false_eq_true, if_false] at h1
    obtain ⟨s, rfl, h2⟩ := searchAncestors_plain hp hf hne hc h1
    obtain ⟨e1, e2⟩ := loadWithoutCache_suite h2
    have hsrc : s.sourceDir = e := hp.own _ _ e2
    dsimp only at h0
    rw [show strip s.sourceDir (e ++ p) = some p from (strip_iff _ _ _).2 (by rw [hsrc])] at h0
    simp only [ne_eq, hpne, not_false_eq_true, if_true] at h0
    unfold loadWithoutCache at h2
    rw [e2] at h2
    dsimp only at h2
    obtain ⟨c1, h3, h2⟩ := (Out.bind_ok _ _ _).1 h2
    obtain ⟨c2, h4, h2⟩ := (Out.bind_ok _ _ _).1 h2
    simp only [pure, Out.ok.injEq, Prod.mk.injEq] at h2
    obtain ⟨rfl, hs⟩ := h2
    rw [hs] at h3 h4 h0
    have hid : s.id = 0 := by rw [← hs]; rfl
    refine ⟨s.decl, e2, ?_⟩
    intro c
    clear h1 h2 h3 h4 hce h
    unfold loadTests at h0
    obtain ⟨r2, h1, h0⟩ := (Out.bind_ok _ _ _).1 h0
    unfold modifyTests at h1
    dsimp only [Reg.empty] at h1
    rw [KMap.get_insert, if_pos rfl] at h1
    simp only [Out.ok.injEq] at h1
    subst h1
    simp only [hid, List.nil_append, List.getElem?_cons_zero, Option.getD_some, List.set_cons_zero, insertPath, List.isEmpty_cons,
      Bool.false_eq_true, if_false, searchLoop] at h0
    obtain ⟨r3, h3, h0⟩ := (Out.bind_ok _ _ _).1 h0
    simp only [pure, Out.ok.injEq] at h0
    obtain ⟨⟨c', t⟩, h4, h3⟩ := (Out.bind_ok _ _ _).1 h3
    have hcc : c' = c := by
      have := localConfig_first hp.tidy s p (by rw [hsrc]; exact hf) hname hpne h4
      rw [this, hsrc]
    subst hcc
    dsimp only at h3
    obtain ⟨⟨r4, u⟩, h5, h3⟩ := (Out.bind_ok _ _ _).1 h3
    obtain ⟨r5, h6, h3⟩ := (Out.bind_ok _ _ _).1 h3
    simp only [Out.ok.injEq] at h3
    unfold findTests at h5
    rw [isFile_not_dir hp.tidy (by rw [hsrc]; exact hf)] at h5
    simp only [Bool.false_eq_true, if_false, Out.ok.injEq, Prod.mk.injEq] at h5
    obtain ⟨rfl, rfl⟩ := h5
    unfold modifyTests at h6
    dsimp only at h6
    rw [KMap.get_insert, if_pos rfl] at h6
    simp only [Out.ok.injEq] at h6
    subst h6
    subst h3
    subst h0
    have hiff := isFileBasedTest_iff (d := d) (s := s) (c := c) hpne
    have hall : ∀ (fl : List (List DPath)) (su : SuiteSet) (ca : PathTree Key) (lo : PathTree TestConfig) (l l1 l2 : TestList Found),
        Reg.allTests ⟨fl, su, ((KMap.insert ([] : KMap (TestList Found)) s.key l).insert s.key l1).insert s.key l2, ca, lo⟩ = l2.tests := by
      intro fl su ca lo l l1 l2; simp [Reg.allTests, KMap.insert]
    dsimp only [Reg.empty]
    rw [hall]
    rw [hsrc] at hiff
    rw [TestList.append_eq]
    by_cases ht : isFileBasedTest d (e ++ p) s c = true
    · have hx : ([] : List Found) ++ (TestList.empty.pushBack (⟨s, c, p⟩ : Found)).tests = [⟨s, c, p⟩] := rfl
      simp only [hsrc, ht, if_true, TestList.clear]
      rw [hx]
      refine ⟨?_, .inl rfl, ?_⟩
      · intro t htm
        simp only [List.mem_singleton] at htm
        subst htm
        exact ⟨e1, rfl, rfl, by simp [Found.absolutePath, hsrc]⟩
      · exact iff_of_true (by simp) (hiff.1 ht).2
    · simp only [hsrc, ht, if_false, TestList.clear]
      refine ⟨?_, .inr rfl, ?_⟩
      · intro t htm; cases htm
      · exact iff_of_false (by simp [TestList.empty]) (fun hh => ht (hiff.2 ⟨hf, hh⟩))

/-- A suite with local configurations, also in its own directory and in a nested directory. -/
def Ex.d3 : Disk := Ex.disk [Ex.dir "w" [Ex.dir "tests" [Ex.f "lit.suite.toml", Ex.f "lit.local.toml", Ex.f "t.txt",
  Ex.dir "a" [Ex.f "lit.local.toml", Ex.f "x.txt", Ex.dir "b" [Ex.f "lit.local.toml", Ex.f "y.txt"]],
  Ex.dir "c" [Ex.f "z.txt", Ex.dir "inner" [Ex.f "lit.suite.toml", Ex.f "lit.local.toml", Ex.dir "foo" [Ex.f "e.txt"]]]]]]

theorem Ex.d3_plain : Plain Ex.d3 := Ex.plain_of _ (by decide +kernel) (by decide +kernel)

/-- The environment each test would run with. -/
def Ex.envs (r : Out Reg) : Out (List (String × List (String × String))) :=
  match r with
  | .ok r => .ok (r.allTests.map fun t => (String.ofList t.name, t.config.env.map fun x => (String.ofList x.1, String.ofList x.2)))
  | .err => .err
  | .panic => .panic
  | .hang => .hang

/-- The runs below, by their inputs. -/
def Ex.run (l : List (List String)) : Out (List (String × List (String × String))) :=
  Ex.envs (load Ex.d3 4 (l.map fun x => some (Ex.at_ x)))

/-- The hypotheses of `C63_file_partial` are met, with two local configurations on the way. -/
example : Plain Ex.d3 ∧ InSuite Ex.d3 (Ex.at_ ["w", "tests"]) (Ex.at_ ["w", "tests"] ++ Ex.at_ ["a", "b", "y.txt"]) ∧
    localDirs Ex.d3 (Ex.at_ ["w", "tests"]) (Ex.at_ ["a", "b"]) = [Ex.at_ ["w", "tests", "a"], Ex.at_ ["w", "tests", "a", "b"]] ∧
    Ex.run [["w", "tests", "a", "b", "y.txt"]] = .ok [("tests::a/b/y.txt", [("AT", "w/tests/a/b/lit.local.toml")])] ∧
    Ex.run [["w", "tests", "a", "x.txt"]] = .ok [("tests::a/x.txt", [("AT", "w/tests/a/lit.local.toml")])] :=
  ⟨Ex.d3_plain, ⟨by decide +kernel, Ex.nearest (by decide +kernel) (by decide +kernel) (by decide +kernel), by decide +kernel⟩,
    by decide +kernel, by decide +kernel, by decide +kernel⟩

/-- C63 refuted: a run on a whole suite applies no local configuration at all. -/
theorem C63_suite_refuted : Plain Ex.d3 ∧ Ex.run [["w", "tests"]] =
    .ok [("inner::foo/e.txt", []), ("tests::t.txt", []), ("tests::a/x.txt", []), ("tests::a/b/y.txt", []), ("tests::c/z.txt", [])] :=
  ⟨Ex.d3_plain, by decide +kernel⟩

/-- C63 refuted: a run on a directory applies its local configuration to every test below it, but none of the ones further down. -/
theorem C63_directory_refuted : Plain Ex.d3 ∧ Ex.run [["w", "tests", "a"]] =
    .ok [("tests::x.txt", [("AT", "w/tests/a/lit.local.toml")]), ("tests::b/y.txt", [("AT", "w/tests/a/lit.local.toml")])] :=
  ⟨Ex.d3_plain, by decide +kernel⟩

/-- C63 refuted: the local configuration in the directory of the suite itself is never applied. -/
theorem C63_top_refuted : Plain Ex.d3 ∧ Ex.d3.isFile (Ex.at_ ["w", "tests", "lit.local.toml"]) = true ∧
    Ex.run [["w", "tests", "t.txt"]] = .ok [("tests::t.txt", [])] := ⟨Ex.d3_plain, by decide +kernel, by decide +kernel⟩

/-- C63 refuted: when a configuration of a directory above is in the cache, the deeper ones are not looked for. The configuration
of `a/b/y.txt` depends on whether `a` was given before it. -/
theorem C63_cached_refuted : Plain Ex.d3 ∧
    Ex.run [["w", "tests", "a", "x.txt"], ["w", "tests", "a", "b", "y.txt"]] =
      .ok [("tests::a/b/y.txt", [("AT", "w/tests/a/lit.local.toml")]), ("tests::a/x.txt", [("AT", "w/tests/a/lit.local.toml")])] ∧
    Ex.run [["w", "tests", "a", "b", "y.txt"], ["w", "tests", "a", "x.txt"]] =
      .ok [("tests::a/b/y.txt", [("AT", "w/tests/a/b/lit.local.toml")]), ("tests::a/x.txt", [("AT", "w/tests/a/lit.local.toml")])] :=
  ⟨Ex.d3_plain, by decide +kernel, by decide +kernel⟩

/-- C63 refuted: a directory of one suite, and a file of a suite nested in it, panic. -/
theorem C63_panic_refuted : Plain Ex.d3 ∧ Ex.run [["w", "tests", "c"], ["w", "tests", "c", "inner", "foo", "e.txt"]] = .panic :=
  ⟨Ex.d3_plain, by decide +kernel⟩

end Litcheck.Registry
