import Verif.Proofs.Files

/-!
# Suites and test discovery: the properties
-/

namespace Litcheck.Registry

open Litcheck.RSpec Litcheck.PSpec

/-! ## Examples -/

namespace Ex

/-- A configuration that selects by one pattern. -/
def cfg : TestConfig := { TestConfig.empty with patterns := ["*.txt".toList] }

def f (s : String) : FNode := .file s.toList

def dir (s : String) (l : List FNode) : FNode := .dir s.toList l

def at_ (l : List String) : DPath := l.map String.toList

/-- A disk with the given entries, where every pattern selects the `.txt` files, suites are called after their directory and have their
sources there, and a local configuration says where it is from. -/
def disk (top : List FNode) : Disk where
  top := top
  cwd := at_ ["w"]
  suite := fun p => if p.getLast? = some SUITE then some ⟨(p.dropLast.getLast?.getD []), p.dropLast, cfg⟩ else none
  local_ := fun p => some { TestConfig.empty with env := [("AT".toList, "/".toList.intercalate p)] }
  glob := fun _ p => match p.getLast? with
    | some (.normal s) => s.reverse.take 4 == "txt.".toList
    | _ => false
  defaults := fun _ _ => []
  features := []

/-- The names of the tests and their files. -/
def names (r : Out Reg) : Out (List (String × String)) :=
  match r with
  | .ok r => .ok (r.allTests.map fun t => (String.ofList t.name, String.ofList ("/".toList.intercalate t.absolutePath)))
  | .err => .err
  | .panic => .panic
  | .hang => .hang

/-- A suite with a subdirectory, and another suite inside. -/
def d1 : Disk := disk [dir "w" [dir "tests" [f "lit.suite.toml", f "a.txt", f "b.txt", f ".h.txt", f "x.c",
  dir "sub" [f "c.txt"], dir "inner" [f "lit.suite.toml", f "e.txt"]]]]

/-- The disks above are plain if they are tidy and no directory has the name of a configuration file. -/
theorem plain (top : List FNode) (h1 : Tidy top) (h2 : ∀ e, (disk top).isDir (e ++ [SUITE]) = false) : Plain (disk top) := by
  refine ⟨h1, ?_, h2⟩
  intro e decl h
  simp only [disk, List.getLast?_append, List.getLast?_singleton, Option.some_or, if_true, Option.some.injEq,
    List.dropLast_append_of_ne_nil (show [SUITE] ≠ [] by simp), List.dropLast_singleton, List.append_nil] at h
  rw [← h]

mutual

/-- No directory of that name, at any depth, decided. -/
def noDirL (name : Str) : List FNode → Bool
  | [] => true
  | n :: ns => noDirN name n && noDirL name ns

def noDirN (name : Str) : FNode → Bool
  | .file _ => true
  | .dir x ch => x != name && noDirL name ch

end

theorem noDirL_mem {name : Str} {ns : List FNode} (h : noDirL name ns = true) {x : Str} {ch : List FNode} (hm : .dir x ch ∈ ns) :
    x ≠ name ∧ noDirL name ch = true := by
  induction ns with
  | nil => cases hm
  | cons n ns ih =>
    rw [noDirL, Bool.and_eq_true] at h
    rcases List.mem_cons.1 hm with e | hm
    · rw [← e, noDirN, Bool.and_eq_true] at h
      exact ⟨by simpa using h.1.1, h.1.2⟩
    · exact ih h.2 hm

theorem noDir_of {name : Str} {ns : List FNode} (h : noDirL name ns = true) (e : DPath) : entriesAt ns (e ++ [name]) = none := by
  induction e generalizing ns with
  | nil =>
    simp only [List.nil_append, entriesAt]
    split
    · rename_i y ch hf
      have h1 := List.find?_some hf
      simp only [FNode.name, beq_iff_eq] at h1
      exact absurd h1 (noDirL_mem h (List.mem_of_find?_eq_some hf)).1
    · rfl
  | cons x xs ih =>
    simp only [List.cons_append, entriesAt]
    split
    · rename_i y ch hf
      exact ih (noDirL_mem h (List.mem_of_find?_eq_some hf)).2
    · rfl

mutual

/-- Tidiness, decided. -/
def tidyL : List FNode → Bool
  | [] => true
  | n :: ns => !(ns.map FNode.name).contains n.name && tidyN n && tidyL ns

def tidyN : FNode → Bool
  | .file _ => true
  | .dir _ ch => tidyL ch

end

theorem tidyL_nodup {ns : List FNode} (h : tidyL ns = true) : (ns.map FNode.name).Nodup := by
  induction ns with
  | nil => simp
  | cons n ns ih =>
    rw [tidyL, Bool.and_eq_true, Bool.and_eq_true] at h
    rw [List.map_cons, List.nodup_cons]
    exact ⟨by simpa using h.1.1, ih h.2⟩

mutual

theorem tidy_of (ns : List FNode) (h : tidyL ns = true) : Tidy ns :=
  .mk (tidyL_nodup h) (tidy_subs ns h)

theorem tidy_subs (ns : List FNode) (h : tidyL ns = true) : ∀ x ch, FNode.dir x ch ∈ ns → Tidy ch := by
  match ns with
  | [] => intro x ch hm; cases hm
  | n :: ns =>
    rw [tidyL, Bool.and_eq_true, Bool.and_eq_true] at h
    intro x ch hm
    rcases List.mem_cons.1 hm with e | hm
    · subst e
      have h2 := h.1.2
      rw [tidyN] at h2
      exact tidy_of ch h2
    · exact tidy_subs ns h.2 x ch hm

end

theorem plain_of (top : List FNode) (h1 : tidyL top = true) (h2 : noDirL SUITE top = true) : Plain (disk top) :=
  plain top (tidy_of top h1) (fun e => by
    have : (disk top).isDir (e ++ [SUITE]) = (entriesAt top (e ++ [SUITE])).isSome := rfl
    rw [this, noDir_of h2]; rfl)

theorem d1_plain : Plain d1 := plain_of _ (by decide +kernel) (by decide +kernel)

end Ex

/-! ## C46: the registry's books -/

/-- **C46.** A set of suites holds, for each key, the first suite registered with it, in the order of the keys, and knows
how many there are. -/
theorem C46_set (xs : List Suite) :
    let s := xs.foldl (fun s x => (s.insert x).2) SuiteSet.empty
    (∀ k, s.get k = xs.find? (fun x => x.key = k)) ∧
    (∀ x, x ∈ s.iter ↔ s.get x.key = some x) ∧
    s.len = s.iter.length ∧ (s.iter.map fun x => x.key.code).Pairwise (· < ·) ∧ (s.iter.map Suite.key).Nodup ∧
    s.isEmpty = xs.isEmpty := by
  have main : ∀ (xs : List Suite) (s : SuiteSet), Sorted s.suites → s.len = s.suites.length → (∀ e ∈ s.suites, e.2.key = e.1) →
      let s' := xs.foldl (fun s x => (s.insert x).2) s
      (Sorted s'.suites ∧ s'.len = s'.suites.length ∧ ∀ e ∈ s'.suites, e.2.key = e.1) ∧
      (∀ k, s'.get k = (s.get k).or (xs.find? (fun x => x.key = k))) ∧ s'.isEmpty = (s.isEmpty && xs.isEmpty) := by
    intro xs
    induction xs with
    | nil => intro s h1 h2 h3; exact ⟨⟨h1, h2, h3⟩, by simp, by simp⟩
    | cons x xs ih =>
      intro s h1 h2 h3
      have hs : Sorted ((s.insert x).2).suites := by
        simp only [SuiteSet.insert]
        split
        · exact h1
        · exact h1.insert _ _
      have hlen : ((s.insert x).2).len = ((s.insert x).2).suites.length := by
        simp only [SuiteSet.insert]
        split
        · exact h2
        · rename_i hn
          dsimp only
          rw [KMap.length_insert_new _ hn, h2]
      have hown : ∀ e ∈ ((s.insert x).2).suites, e.2.key = e.1 := by
        simp only [SuiteSet.insert]
        split
        · exact h3
        · intro e he
          rcases KMap.mem_insert he with rfl | he
          · rfl
          · exact h3 e he
      obtain ⟨g1, g2, g3⟩ := ih (s.insert x).2 hs hlen hown
      refine ⟨g1, ?_, ?_⟩
      · intro k
        rw [List.foldl_cons, g2 k, suiteSet_get_insert, List.find?_cons]
        by_cases hk : k = x.key
        · subst hk
          simp only [if_true, decide_true]
          cases s.get x.key <;> simp
        · rw [if_neg hk]
          simp [Ne.symm hk]
      · rw [List.foldl_cons, g3]
        have : ((s.insert x).2).isEmpty = false := by
          simp only [SuiteSet.insert, SuiteSet.isEmpty]
          split
          · rename_i v hv
            have := KMap.get_mem hv
            cases hsu : s.suites with
            | nil => rw [hsu] at this; cases this
            | cons a l => rfl
          · rename_i hn
            have := KMap.length_insert_new (k := x.key) x hn
            dsimp only
            cases hsu : KMap.insert s.suites x.key x with
            | nil => rw [hsu] at this; simp at this
            | cons a l => rfl
        rw [this]
        simp
  obtain ⟨⟨g1, g2, g3⟩, g4, g5⟩ := main xs SuiteSet.empty (by simp [SuiteSet.empty, Sorted]) rfl (by simp [SuiteSet.empty])
  have hcode : ∀ m : KMap Suite, (∀ e ∈ m, e.2.key = e.1) → ((m.map (·.2)).map fun x => x.key.code) = m.map fun e => e.1.code := by
    intro m hm
    rw [List.map_map]
    exact List.map_congr_left fun e he => by simp [hm e he]
  have hkeys : ∀ m : KMap Suite, (∀ e ∈ m, e.2.key = e.1) → ((m.map (·.2)).map Suite.key) = m.map (·.1) := by
    intro m hm
    rw [List.map_map]
    exact List.map_congr_left fun e he => by simp [hm e he]
  refine ⟨?_, ?_, ?_, ?_, ?_, ?_⟩
  · intro k
    rw [g4 k]
    simp [SuiteSet.empty, SuiteSet.get, KMap.get]
  · intro x
    rw [SuiteSet.get, g1.get_iff, SuiteSet.iter, List.mem_map]
    constructor
    · rintro ⟨⟨k, v⟩, h1, rfl⟩
      have := g3 _ h1
      dsimp only at this ⊢
      rw [this]; exact h1
    · intro h; exact ⟨_, h, rfl⟩
  · rw [g2, SuiteSet.iter, List.length_map]
  · rw [SuiteSet.iter, hcode _ g3]; exact g1
  · rw [SuiteSet.iter, hkeys _ g3]; exact g1.nodup
  · rw [g5]; rfl

/-- **C46.** Registering a suite whose key is known changes nothing and says so; otherwise it is added, and says so. -/
theorem C46_insert (s : SuiteSet) (x : Suite) :
    ((s.insert x).1 = true ↔ s.get x.key = none) ∧ ((s.insert x).1 = false → (s.insert x).2 = s) ∧
    ((s.insert x).1 = true → (s.insert x).2.get x.key = some x ∧ (s.insert x).2.len = s.len + 1) ∧
    ∀ k, k ≠ x.key → (s.insert x).2.get k = s.get k := by
  refine ⟨?_, ?_, ?_, ?_⟩
  · simp only [SuiteSet.insert, SuiteSet.get]
    split <;> rename_i h <;> simp [h]
  · simp only [SuiteSet.insert]
    split <;> simp
  · intro h
    refine ⟨?_, ?_⟩
    · rw [suiteSet_get_insert, if_pos rfl]
      cases hg : s.get x.key with
      | none => rfl
      | some v =>
        simp only [SuiteSet.insert] at h
        rw [SuiteSet.get] at hg
        rw [hg] at h
        cases h
    · simp only [SuiteSet.insert] at h ⊢
      split at h
      · cases h
      · rfl
  · intro k hk
    rw [suiteSet_get_insert, if_neg hk]

/-- Two suites of the same name in different directories, one of them registered twice. -/
example :
    let a : Suite := ⟨⟨"s".toList, [], Ex.cfg⟩, Ex.at_ ["w", "x", "lit.suite.toml"], 0⟩
    let b : Suite := ⟨⟨"s".toList, [], Ex.cfg⟩, Ex.at_ ["w", "a", "lit.suite.toml"], 1⟩
    let s := [a, b, { a with id := 2 }].foldl (fun s x => (s.insert x).2) SuiteSet.empty
    s.iter.map (·.id) = [1, 0] ∧ s.len = 2 := by decide +kernel

theorem filter_tests {m : KMap (TestList Found)} (hs : Sorted m) (hl : ∀ e ∈ m, ∀ t ∈ e.2.tests, t.suite.key = e.1) (k : Key) :
    (m.flatMap fun e => e.2.tests).filter (fun t => t.suite.key = k) = ((m.get k).map (·.tests)).getD [] := by
  induction m with
  | nil => rfl
  | cons a m ih =>
    obtain ⟨k', l⟩ := a
    have nd := hs.nodup
    rw [List.map_cons, List.nodup_cons] at nd
    have hs' : Sorted m := by
      simp only [Sorted, List.map_cons, List.pairwise_cons] at hs
      exact hs.2
    have ih := ih hs' (fun e he => hl e (List.mem_cons_of_mem _ he))
    rw [List.flatMap_cons, List.filter_append, ih]
    have h0 := hl _ List.mem_cons_self
    by_cases hk : k' = k
    · subst hk
      have : KMap.get m k' = none := KMap.get_none.2 nd.1
      rw [this]
      simp only [KMap.get, List.find?_cons, beq_self_eq_true, Option.map_some, Option.map_none, Option.getD_some, Option.getD_none,
        List.append_nil]
      rw [List.filter_eq_self]
      intro t ht
      simpa using h0 t ht
    · have h1 : (l.tests).filter (fun t => t.suite.key = k) = [] := by
        rw [List.filter_eq_nil_iff]
        intro t ht
        have := h0 t ht
        dsimp only at this
        simp [this, hk]
      rw [h1, List.nil_append]
      simp [KMap.get, List.find?_cons, hk]

/-- **C46.** Whatever the disk holds and whatever is asked for, after loading the number of tests reported is the number
of tests listed, which are also the tests handed to the runner; every test is listed under a registered suite, each
suite's size is the number of its tests, and the number of suites is that of the registered ones. -/
theorem C46_load (d : Disk) (n : Nat) (inputs : List (Option DPath)) (r : Reg) (h : load d n inputs = .ok r) :
    r.numTests = r.allTests.length ∧ r.intoList.tests = r.allTests ∧ r.intoList.len = r.allTests.length ∧
    r.numSuites = r.suites.len ∧ r.numSuites = r.suites.iter.length ∧ (r.isEmpty = true ↔ r.suites.iter = []) ∧
    (∀ t ∈ r.allTests, (r.suites.get t.suite.key).isSome) ∧
    ∀ k, r.sizeOfSuite k = if (r.suites.get k).isSome then .ok (r.allTests.filter fun t => t.suite.key = k).length else .panic := by
  have hi : Inv r := Inv.loadInputs d n inputs .empty h
  have hlen : r.tests.length = r.suites.suites.length := by
    have := congrArg List.length hi.keys
    simpa using this
  have hsum : ∀ m : KMap (TestList Found), (∀ e ∈ m, e.2.Exact) → (m.map fun e => e.2.len).sum = (m.flatMap fun e => e.2.tests).length := by
    intro m hm
    induction m with
    | nil => rfl
    | cons a m ih =>
      rw [List.map_cons, List.sum_cons, List.flatMap_cons, List.length_append, ih (fun e he => hm e (List.mem_cons_of_mem _ he))]
      have := hm a List.mem_cons_self
      simp only [TestList.Exact] at this
      rw [this]
  have hfold : ∀ (m : KMap (TestList Found)) (l : TestList Found),
      m.foldl (fun l e => l.append e.2) l = ⟨l.len + (m.map fun e => e.2.len).sum, l.tests ++ m.flatMap fun e => e.2.tests⟩ := by
    intro m
    induction m with
    | nil => intro l; simp
    | cons a m ih =>
      intro l
      rw [List.foldl_cons, ih, TestList.append_eq]
      simp [Nat.add_assoc]
  have hex : ∀ e ∈ r.tests, e.2.Exact := fun e he => (hi.lists e he).1
  have hnum : r.numTests = r.allTests.length := hsum _ hex
  have hinto : r.intoList = ⟨r.numTests, r.allTests⟩ := by
    unfold Reg.intoList Reg.numTests Reg.allTests
    cases hr : r.tests with
    | nil => rfl
    | cons a m => simp [hfold]
  refine ⟨hnum, by rw [hinto], by rw [hinto]; exact hnum, ?_, ?_, ?_, ?_, ?_⟩
  · rw [Reg.numSuites, hlen, hi.len]
  · rw [Reg.numSuites, hlen, SuiteSet.iter, List.length_map]
  · rw [Reg.isEmpty, List.isEmpty_iff, SuiteSet.iter, List.map_eq_nil_iff, ← List.length_eq_zero_iff, hlen, List.length_eq_zero_iff]
  · intro t ht
    obtain ⟨e, he, hte⟩ := List.mem_flatMap.1 ht
    have := (hi.lists e he).2 t hte
    rw [this, hi.get_tests, (hi.tests.get_iff e.1 e.2).2 he]
    rfl
  · intro k
    rw [hi.get_tests, Reg.allTests, filter_tests hi.tests (fun e he => (hi.lists e he).2), Reg.sizeOfSuite]
    cases hg : r.tests.get k with
    | none => rfl
    | some l =>
      have := (hi.lists _ (KMap.get_mem hg)).1
      simp only [TestList.Exact] at this
      simp [this]

/-- Two suites, four tests. -/
example : ∃ r, load Ex.d1 2 [some (Ex.at_ ["w", "tests"])] = .ok r ∧ r.numTests = 4 ∧ r.numSuites = 2 := by
  have h : (match load Ex.d1 2 [some (Ex.at_ ["w", "tests"])] with
    | .ok r => decide (r.numTests = 4 ∧ r.numSuites = 2)
    | _ => false) = true := by decide +kernel
  cases hr : load Ex.d1 2 [some (Ex.at_ ["w", "tests"])] with
  | ok r => rw [hr] at h; exact ⟨r, rfl, by simpa using h⟩
  | err => rw [hr] at h; cases h
  | panic => rw [hr] at h; cases h
  | hang => rw [hr] at h; cases h

/-! ## C61: discovery -/

/-- **C61** for inputs that are suite directories. The tests listed are, each once, the files that are not hidden, whose
nearest suite directory is at or below an input, and which that suite's patterns select; each with that suite, its
configuration and its path in that suite. Missing: inputs that are files or subdirectories of suites, and suites whose
sources are elsewhere. -/
theorem C61_directories_partial (d : Disk) (hp : Plain d) (n : Nat) (es : List DPath) (hes : ∀ e ∈ es, SuiteDir d e) (r : Reg)
    (h : load d n (es.map some) = .ok r) :
    (∀ t ∈ r.allTests, ∃ e, (∃ a ∈ es, a <+: e) ∧ t.suite.path = e ++ [SUITE] ∧ t.config = t.suite.decl.config ∧
      t.absolutePath = e ++ t.path ∧ IsTest d e t.suite.decl t.path) ∧
    (∀ e decl p, (∃ a ∈ es, a <+: e) → IsTest d e decl p →
      ∃ t ∈ r.allTests, t.suite.path = e ++ [SUITE] ∧ t.suite.decl = decl ∧ t.path = p) ∧
    (r.allTests.map Found.absolutePath).Nodup := by
  obtain ⟨hi, hgood, _, hkeys⟩ := loadInputs_loaded hp n es hes (CInv.empty d) h
  have hall : ∀ x ∈ r.tests, ∃ e decl, (∃ a ∈ es, a <+: e) ∧ d.suite (e ++ [SUITE]) = some decl ∧ x.1 = keyAt decl e ∧
      GoodList d e decl x.2.tests := by
    intro x hx
    have hg := (hi.inv.tests.get_iff x.1 x.2).2 hx
    rcases hkeys x.1 (by rw [hg]; rfl) with h0 | ⟨a, ha, e, decl, h1, h2, h3, h4⟩
    · simp [Reg.empty, KMap.get] at h0
    · obtain ⟨decl', l, g1, g2, g3⟩ := hgood a ha e h1 h2
      rw [h3] at g1
      injection g1 with g1
      subst g1
      rw [← h4, hg] at g2
      injection g2 with g2
      subst g2
      exact ⟨e, decl, ⟨a, ha, h1⟩, h3, h4, g3⟩
  have hsrc : ∀ {e decl}, d.suite (e ++ [SUITE]) = some decl → ∀ t : Found, t.suite.decl = decl → t.absolutePath = e ++ t.path := by
    intro e decl hd t ht
    unfold Found.absolutePath Suite.sourceDir
    rw [ht, hp.own _ _ hd]
  refine ⟨?_, ?_, ?_⟩
  · intro t ht
    obtain ⟨x, hx, htx⟩ := List.mem_flatMap.1 ht
    obtain ⟨e, decl, ha, hd, _, hg⟩ := hall x hx
    obtain ⟨f1, f2, f3⟩ := hg.from_ t htx
    have := (hg.exact_ t.path).1 (List.mem_map.2 ⟨t, htx, rfl⟩)
    refine ⟨e, ha, f2, by rw [f3, f1], hsrc hd t f1, by rw [f1]; exact this⟩
  · rintro e decl p ⟨a, ha, hae⟩ ht
    obtain ⟨decl', l, g1, g2, g3⟩ := hgood a ha e hae ht.2.2.1.2.1
    have : decl' = decl := by
      have h4 := ht.2.2.2.1
      rw [g1] at h4
      injection h4
    subst this
    obtain ⟨t, ht1, ht2⟩ := List.mem_map.1 ((g3.exact_ p).2 ht)
    obtain ⟨f1, f2, _⟩ := g3.from_ t ht1
    exact ⟨t, List.mem_flatMap.2 ⟨_, KMap.get_mem g2, ht1⟩, f2, f1, ht2⟩
  · have hnd := hi.inv.tests.nodup
    have : ∀ m : KMap (TestList Found), (m.map (·.1)).Nodup → (∀ x ∈ m, ∃ e decl, d.suite (e ++ [SUITE]) = some decl ∧ x.1 = keyAt decl e ∧
        GoodList d e decl x.2.tests) → ((m.flatMap fun e => e.2.tests).map Found.absolutePath).Nodup := by
      intro m
      induction m with
      | nil => intro _ _; simp
      | cons x m ih =>
        intro hn hm
        rw [List.map_cons, List.nodup_cons] at hn
        rw [List.flatMap_cons, List.map_append]
        obtain ⟨e, decl, hd, hk, hg⟩ := hm x List.mem_cons_self
        refine List.Nodup.append ?_ (ih hn.2 fun y hy => hm y (List.mem_cons_of_mem _ hy)) ?_
        · have heq : (x.2.tests.map Found.absolutePath) = (x.2.tests.map Found.path).map (e ++ ·) := by
            rw [List.map_map]
            exact List.map_congr_left fun t ht => by simp [hsrc hd t (hg.from_ t ht).1]
          rw [heq]
          exact List.Nodup.map (fun a b h => List.append_cancel_left h) hg.once
        · intro p h1 h2
          obtain ⟨t, ht, rfl⟩ := List.mem_map.1 h1
          obtain ⟨t', ht', he'⟩ := List.mem_map.1 h2
          obtain ⟨y, hy, hty⟩ := List.mem_flatMap.1 ht'
          obtain ⟨e2, decl2, hd2, hk2, hg2⟩ := hm y (List.mem_cons_of_mem _ hy)
          have n1 := ((hg.exact_ t.path).1 (List.mem_map.2 ⟨t, ht, rfl⟩)).2.2.1
          have n2 := ((hg2.exact_ t'.path).1 (List.mem_map.2 ⟨t', hty, rfl⟩)).2.2.1
          rw [← hsrc hd t (hg.from_ t ht).1] at n1
          rw [← hsrc hd2 t' (hg2.from_ t' hty).1, he'] at n2
          have e12 : e = e2 := by
            have a1 := n1.2.2 e2 n2.1 n2.2.1
            have a2 := n2.2.2 e n1.1 n1.2.1
            exact a2.eq_of_length_le a1.length_le
          subst e12
          rw [hd] at hd2
          injection hd2 with hd2
          subst hd2
          exact hn.1 (List.mem_map.2 ⟨y, hy, by rw [hk2, hk]⟩)
    exact this _ hnd fun x hx => by
      obtain ⟨e, decl, _, h1, h2, h3⟩ := hall x hx
      exact ⟨e, decl, h1, h2, h3⟩

/-- A suite with another inside, given twice: the hypotheses hold and four tests are found. -/
example : Plain Ex.d1 ∧ (∀ e ∈ [Ex.at_ ["w", "tests"], Ex.at_ ["w", "tests", "inner"]], SuiteDir Ex.d1 e) ∧
    Ex.names (load Ex.d1 2 [some (Ex.at_ ["w", "tests"]), some (Ex.at_ ["w", "tests", "inner"])]) =
      .ok [("inner::e.txt", "w/tests/inner/e.txt"), ("tests::a.txt", "w/tests/a.txt"), ("tests::b.txt", "w/tests/b.txt"),
        ("tests::sub/c.txt", "w/tests/sub/c.txt")] := by
  refine ⟨Ex.d1_plain, ?_, by decide +kernel⟩
  unfold SuiteDir
  decide +kernel

/-- C61 refuted for a subdirectory of a suite: `lit tests/sub` lists the test in it under a name and a path that are
those of another file, `tests/c.txt`, which does not exist. -/
theorem C61_subdirectory_refuted : Plain Ex.d1 ∧
    Ex.names (load Ex.d1 2 [some (Ex.at_ ["w", "tests", "sub"])]) = .ok [("tests::c.txt", "w/tests/c.txt")] ∧
    Ex.d1.isFile (Ex.at_ ["w", "tests", "c.txt"]) = false ∧ Ex.d1.isFile (Ex.at_ ["w", "tests", "sub", "c.txt"]) = true :=
  ⟨Ex.d1_plain, by decide +kernel, by decide +kernel, by decide +kernel⟩

/-! ## C62: several inputs -/

/-- C62 refuted: `lit tests/a.txt tests` and `lit tests tests/a.txt` run one of the four tests of the two suites, and all but two
of them, although `lit tests` alone runs all. -/
theorem C62_union_refuted : Plain Ex.d1 ∧
    Ex.names (load Ex.d1 2 [some (Ex.at_ ["w", "tests", "a.txt"]), some (Ex.at_ ["w", "tests"])]) =
      .ok [("tests::a.txt", "w/tests/a.txt")] ∧
    Ex.names (load Ex.d1 2 [some (Ex.at_ ["w", "tests"]), some (Ex.at_ ["w", "tests", "a.txt"])]) =
      .ok [("inner::e.txt", "w/tests/inner/e.txt"), ("tests::a.txt", "w/tests/a.txt")] :=
  ⟨Ex.d1_plain, by decide +kernel, by decide +kernel⟩

/-- Some case of C62 with a disk without local configurations. -/
theorem Ex.noLocal_of (top : List FNode) (h : Tidy top)
    (hn : ∀ ms x p, entriesAt top p = some ms → FNode.file x ∈ ms → x ≠ LOCAL) : NoLocal (Ex.disk top) := by
  intro p
  cases hf : (Ex.disk top).isFile (p ++ [LOCAL]) with
  | false => rfl
  | true =>
    obtain ⟨ms, h1, h2⟩ := (isFile_snoc (d := Ex.disk top) h p LOCAL).1 hf
    exact absurd rfl (hn ms LOCAL p h1 h2)

mutual

/-- No file of that name, at any depth, decided. -/
def Ex.noFileL (name : Str) : List FNode → Bool
  | [] => true
  | n :: ns => Ex.noFileN name n && Ex.noFileL name ns

def Ex.noFileN (name : Str) : FNode → Bool
  | .file x => x != name
  | .dir _ ch => Ex.noFileL name ch

end

theorem Ex.noFileL_mem {name : Str} {ns : List FNode} (h : Ex.noFileL name ns = true) {n : FNode} (hm : n ∈ ns) : Ex.noFileN name n = true := by
  induction ns with
  | nil => cases hm
  | cons m ns ih =>
    rw [Ex.noFileL, Bool.and_eq_true] at h
    rcases List.mem_cons.1 hm with rfl | hm
    · exact h.1
    · exact ih h.2 hm

theorem Ex.noFile_at {name : Str} {ns ms : List FNode} (h : Ex.noFileL name ns = true) {p : DPath} (he : entriesAt ns p = some ms) :
    Ex.noFileL name ms = true := by
  induction p generalizing ns with
  | nil => simp only [entriesAt, Option.some.injEq] at he; exact he ▸ h
  | cons x xs ih =>
    simp only [entriesAt] at he
    split at he
    · rename_i y ch hf
      have := Ex.noFileL_mem h (List.mem_of_find?_eq_some hf)
      rw [Ex.noFileN] at this
      exact ih this he
    · cases he

theorem Ex.noLocal (top : List FNode) (h : Ex.tidyL top = true) (hn : Ex.noFileL LOCAL top = true) : NoLocal (Ex.disk top) := by
  refine Ex.noLocal_of top (Ex.tidy_of top h) ?_
  intro ms x p h1 h2
  have := Ex.noFileL_mem (Ex.noFile_at hn h1) h2
  rw [Ex.noFileN] at this
  simpa using this

theorem Ex.d1_noLocal : NoLocal Ex.d1 := Ex.noLocal _ (by decide +kernel) (by decide +kernel)

/-- **C62** for files of one suite, on a disk without local configurations: the tests listed are, each once, those of the
given files that are tests of the suite, whatever their order and however often each was given. Missing: other inputs, for which the
property fails (`C62_union_refuted`), files of several suites (`C47_cached_refuted`), and local configurations (C63). -/
theorem C62_files_partial (d : Disk) (hp : Plain d) (hn : NoLocal d) (n : Nat) (e : DPath) (fs : List DPath) (hfs : fs ≠ [])
    (hin : ∀ f ∈ fs, InSuite d e f) (r : Reg) (h : load d n (fs.map some) = .ok r) :
    ∃ decl, d.suite (e ++ [SUITE]) = some decl ∧
      (∀ t ∈ r.allTests, t.suite.path = e ++ [SUITE] ∧ t.suite.decl = decl ∧ t.config = decl.config ∧ t.absolutePath = e ++ t.path) ∧
      (r.allTests.map Found.path).Nodup ∧
      ∀ p, p ∈ r.allTests.map Found.path ↔ e ++ p ∈ fs ∧ IsTest d e decl p := by
  cases fs with
  | nil => exact absurd rfl hfs
  | cons f fs =>
    simp only [load, List.map_cons, loadInputs] at h
    obtain ⟨r1, h1, h2⟩ := (Out.bind_ok _ _ _).1 h
    clear h
    obtain ⟨i1, i2, i3⟩ := hin f List.mem_cons_self
    have hinv : Inv r := Inv.loadInputs d n (fs.map some) (Inv.loadFromPath d n _ _ _ .empty h1) h2
    obtain ⟨s, p0, s1, s2, s3, rfl, hi⟩ := loadFromPath_first hp hn i1 i2 i3 h1
    -- the other files, by their paths in the suite
    obtain ⟨ps, hps, hpsne⟩ : ∃ ps : List DPath, fs = ps.map (s.sourceDir ++ ·) ∧ ∀ p ∈ ps, p ≠ [] := by
      have : ∀ f ∈ fs, ∃ p, p ≠ [] ∧ f = s.sourceDir ++ p := by
        intro f hf
        obtain ⟨j1, j2, _⟩ := hin f (List.mem_cons_of_mem _ hf)
        rw [s3]
        exact nearest_below (isFile_parent j1).1 j2
      clear h2 hfs hin
      induction fs with
      | nil => exact ⟨[], rfl, by simp⟩
      | cons g gs ih =>
        obtain ⟨ps, e1, e2⟩ := ih fun f hf => this f (List.mem_cons_of_mem _ hf)
        obtain ⟨q, e3, e4⟩ := this g List.mem_cons_self
        refine ⟨q :: ps, by simp [e1, e4], ?_⟩
        intro p hp
        rcases List.mem_cons.1 hp with rfl | hp
        · exact e3
        · exact e2 p hp
    subst hps
    have hfile : ∀ p ∈ ps, d.isFile (s.sourceDir ++ p) = true := fun p hpm =>
      (hin _ (List.mem_cons_of_mem _ (List.mem_map.2 ⟨p, hpm, rfl⟩))).1
    have hlast := loadInputs_files hp hn n ps hpsne hfile [p0] (by
      intro q hq
      simp only [List.mem_singleton] at hq
      subst hq
      rw [s3]; exact i1) hi (by simpa [List.map_map, Function.comp_def] using h2)
    obtain ⟨l, qs, t1, t2, t3, t4⟩ := hlast.tests
    have hall : r.allTests = fileList d s qs := by
      have hf := filter_tests hinv.tests (fun x hx => (hinv.lists x hx).2) s.key
      rw [t1] at hf
      simp only [Option.map_some, Option.getD_some] at hf
      rw [← t2, ← hf]
      unfold Reg.allTests
      rw [eq_comm, List.filter_eq_self]
      intro t ht
      obtain ⟨x, hx, htx⟩ := List.mem_flatMap.1 ht
      have hk := (hinv.lists x hx).2 t htx
      by_contra hne
      have hne' : x.1 ≠ s.key := by
        intro he
        rw [he] at hk
        simp [hk] at hne
      have := (hinv.tests.get_iff x.1 x.2).2 hx
      rw [hlast.alone x.1 hne'] at this
      cases this
    have hsd : d.suite (e ++ [SUITE]) = some s.decl := by rw [← s1]; exact s2
    have hpaths : r.allTests.map Found.path = qs.filter fun p => isFileBasedTest d (s.sourceDir ++ p) s s.decl.config := by
      rw [hall]
      simp [fileList, Function.comp_def]
    refine ⟨s.decl, hsd, ?_, ?_, ?_⟩
    · intro t ht
      rw [hall] at ht
      obtain ⟨p, _, rfl⟩ := List.mem_map.1 ht
      refine ⟨s1, rfl, rfl, ?_⟩
      unfold Found.absolutePath
      rw [s3]
    · rw [hpaths]
      exact t3.nodup.filter _
    · intro p
      rw [hpaths, List.mem_filter, t4]
      have hmem : p ∈ ps.reverse ++ [p0] ↔ e ++ p ∈ (e ++ p0) :: ps.map (s.sourceDir ++ ·) := by
        rw [s3]
        simp [or_comm]
      rw [hmem]
      constructor
      · rintro ⟨h3, h4⟩
        refine ⟨h3, ?_⟩
        obtain ⟨j1, j2, _⟩ := hin _ h3
        have hpne : p ≠ [] := by
          rintro rfl
          rw [List.append_nil] at j1
          have := isFile_not_dir hp.tidy j1
          rw [isFile_dir i2.2.1] at this
          cases this
        obtain ⟨k1, k2, k3⟩ := (isFileBasedTest_iff hpne).1 h4
        exact ⟨j1, k2, j2, hsd, k3⟩
      · rintro ⟨h3, k1, k2, k3, _, k5⟩
        refine ⟨h3, ?_⟩
        have hpne : p ≠ [] := by
          rintro rfl
          rw [List.append_nil] at k1
          have := isFile_not_dir hp.tidy k1
          rw [isFile_dir i2.2.1] at this
          cases this
        exact (isFileBasedTest_iff hpne).2 ⟨by rw [s3]; exact k1, k2, k5⟩

/-- The directories between a suite and a file, decided. -/
theorem Ex.nearest {d : Disk} {f e : DPath} (h1 : e.isPrefixOf f.dropLast = true) (h2 : d.isFile (e ++ [SUITE]) = true)
    (h3 : ∀ a ∈ f.dropLast.inits, d.isFile (a ++ [SUITE]) = true → a.length ≤ e.length) : Nearest d f e := by
  have h1' := List.isPrefixOf_iff_prefix.1 h1
  refine ⟨h1', h2, ?_⟩
  intro e' h4 h5
  have := h3 e' ((List.mem_inits _ _).2 h4) h5
  exact List.prefix_of_prefix_length_le h4 h1' this

/-- Three files, one given twice: the hypotheses hold, and the tests among them are found. -/
example : Plain Ex.d1 ∧ NoLocal Ex.d1 ∧
    (∀ f ∈ [Ex.at_ ["w", "tests", "b.txt"], Ex.at_ ["w", "tests", "x.c"], Ex.at_ ["w", "tests", "a.txt"], Ex.at_ ["w", "tests", "b.txt"],
      Ex.at_ ["w", "tests", "sub", "c.txt"]], InSuite Ex.d1 (Ex.at_ ["w", "tests"]) f) ∧
    Ex.names (load Ex.d1 2 ([Ex.at_ ["w", "tests", "b.txt"], Ex.at_ ["w", "tests", "x.c"], Ex.at_ ["w", "tests", "a.txt"], Ex.at_ ["w", "tests", "b.txt"],
      Ex.at_ ["w", "tests", "sub", "c.txt"]].map some)) =
      .ok [("tests::a.txt", "w/tests/a.txt"), ("tests::b.txt", "w/tests/b.txt"), ("tests::sub/c.txt", "w/tests/sub/c.txt")] := by
  refine ⟨Ex.d1_plain, Ex.d1_noLocal, ?_, by decide +kernel⟩
  intro f hf
  simp only [List.mem_cons, List.not_mem_nil, or_false] at hf
  rcases hf with rfl | rfl | rfl | rfl | rfl <;>
    exact ⟨by decide +kernel, Ex.nearest (by decide +kernel) (by decide +kernel) (by decide +kernel), by decide +kernel⟩

/-! ## C47: which suite an input belongs to -/

/-- **C47** for the first input: it resolves to the nearest directory, going up from the input's own directory and not above the
working directory, with a suite whose sources are around the input's directory; or, when the input is itself a directory
with a suite, to that suite. When there is no such directory the input resolves to nothing. Missing: later inputs, which may be
resolved by the cache instead (`C47_cached_refuted`). -/
theorem C47_first_partial (d : Disk) (ht : Tidy d.top) (path : DPath) (hex : d.isDir path = true ∨ d.isFile path = true)
    (hc : d.cwd <+: path) (hcd : d.isDir d.cwd = true) (r : Reg) (found : Option Suite)
    (h : findNearest d .empty path = .ok (r, found)) :
    let dir := if d.isDir path then path else path.dropLast
    match found with
    | some s => ∃ a, d.cwd <+: a ∧ a <+: dir ∧ SuiteDir d a ∧ s.path = a ++ [SUITE] ∧ d.suite s.path = some s.decl ∧
        (a = path ∨ (s.sourceDir <+: dir ∧ ∀ b, a <+: b → b <+: dir → b ≠ a → ¬ Contains d b dir))
    | none => ∀ b, d.cwd <+: b → b <+: dir → ¬ Contains d b dir := by
  intro dir
  have hdir : d.isDir dir = true := by
    show d.isDir (if d.isDir path then path else path.dropLast) = true
    rcases hex with hex | hex
    · rw [if_pos hex]; exact hex
    · rw [isFile_not_dir ht hex]; exact (isFile_parent hex).2
  have hcdir : d.cwd <+: dir := by
    show d.cwd <+: (if d.isDir path then path else path.dropLast)
    by_cases hp : d.isDir path = true
    · rw [if_pos hp]; exact hc
    · rw [if_neg hp]
      refine prefix_dropLast hc ?_
      rintro e
      rw [e] at hcd
      exact hp hcd
  -- the search among the ancestors
  have up : ∀ found : Option Suite, findContaining d .empty path = .ok (r, found) → FoundIn d dir (ancestors dir) found := by
    intro found h
    unfold findContaining at h
    have hce : PathTree.nearestAncestor d.fs Reg.empty.cache (absolute path) = .ok none := (cache_empty (V := Key) d.fs (absolute path)).2
    rw [hce] at h
    simp only [ofP, Out.bind_eq, Out.bind] at h
    exact searchAncestors_spec ht _ (fun a ha => isDir_prefix ((mem_ancestors _ _).1 ha) hdir) h
  have conv : FoundIn d dir (ancestors dir) found → match found with
      | some s => ∃ a, d.cwd <+: a ∧ a <+: dir ∧ SuiteDir d a ∧ s.path = a ++ [SUITE] ∧ d.suite s.path = some s.decl ∧
          (a = path ∨ (s.sourceDir <+: dir ∧ ∀ b, a <+: b → b <+: dir → b ≠ a → ¬ Contains d b dir))
      | none => ∀ b, d.cwd <+: b → b <+: dir → ¬ Contains d b dir := by
    intro hfi
    cases found with
    | some s =>
      obtain ⟨pre, a, post, g1, g2, g3, g4, g5, g6, g7⟩ := hfi
      have ha : a <+: dir := by rw [← mem_ancestors, g1]; simp
      have hsp := ancestors_split g1
      refine ⟨a, ?_, ha, g4, g5, g6, .inr ⟨g7, fun b h1 h2 h3 => g3 b ((hsp.1 b).2 ⟨h1, h2, h3⟩)⟩⟩
      rcases List.prefix_or_prefix_of_prefix hcdir ha with h1 | h1
      · exact h1
      · by_cases he : d.cwd = a
        · rw [he]
        · exact absurd ((hsp.1 d.cwd).2 ⟨h1, hcdir, he⟩) g2
    | none =>
      intro b h1 h2
      obtain ⟨pre, post, hs⟩ := List.append_of_mem ((mem_ancestors dir b).2 h2)
      refine hfi pre b post hs ?_
      intro hm
      obtain ⟨h3, _, h4⟩ := ((ancestors_split hs).1 d.cwd).1 hm
      exact h4 (h1.eq_of_length_le h3.length_le)
  unfold findNearest at h
  by_cases hp : d.isDir path = true
  · have hdp : dir = path := if_pos hp
    rw [if_pos hp] at h
    have hce : PathTree.get d.fs Reg.empty.cache (absolute path) = .ok none := (cache_empty (V := Key) d.fs (absolute path)).1
    rw [hce] at h
    simp only [ofP, Out.bind_eq, Out.bind] at h
    rw [search_dir ht hp] at h
    by_cases hs : d.isFile (path ++ [SUITE]) = true
    · rw [if_pos hs] at h
      obtain ⟨⟨r1, s1⟩, h1, h⟩ := (Out.bind_ok _ _ _).1 h
      simp only [pure, Out.ok.injEq, Prod.mk.injEq] at h
      obtain ⟨rfl, rfl⟩ := h
      obtain ⟨e1, e2⟩ := loadWithoutCache_suite h1
      exact ⟨path, hc, by rw [hdp], hs, e1, by rw [e1]; exact e2, .inl rfl⟩
    · rw [if_neg hs] at h
      exact conv (up _ h)
  · rw [if_neg hp] at h
    exact conv (up _ h)

/-- The hypotheses are met, by a directory of a suite, a file of a nested suite, and a directory of no suite. -/
example : Tidy Ex.d1.top ∧ Ex.d1.isDir Ex.d1.cwd = true ∧
    ([["w", "tests", "sub"], ["w", "tests", "inner", "e.txt"], ["w"]].map fun p => match findNearest Ex.d1 .empty (Ex.at_ p) with
      | .ok (_, some s) => some s.path
      | _ => none) = [some (Ex.at_ ["w", "tests", "lit.suite.toml"]), some (Ex.at_ ["w", "tests", "inner", "lit.suite.toml"]), none] :=
  ⟨Ex.d1_plain.tidy, by decide +kernel, by decide +kernel⟩

/-- **C47.** An input that is a suite directory resolves to its own suite, whatever suite directories were loaded before. -/
theorem C47_directory_partial (d : Disk) (hp : Plain d) (n : Nat) (es : List DPath) (hes : ∀ e ∈ es, SuiteDir d e) (r r' : Reg)
    (h : load d n (es.map some) = .ok r) (e : DPath) (he : SuiteDir d e) (found : Option Suite)
    (hf : findNearest d r e = .ok (r', found)) :
    ∃ s, found = some s ∧ s.path = e ++ [SUITE] ∧ d.suite s.path = some s.decl ∧ s.sourceDir = e := by
  obtain ⟨hi, _⟩ := loadInputs_loaded hp n es hes (CInv.empty d) h
  obtain ⟨s, h1, _, h2, h3, _⟩ := hi.findNearest hp he hf
  exact ⟨s, h1, h2, h3, by rw [h2] at h3; exact hp.own _ _ h3⟩

/-- C47 refuted: after `tests/a.txt`, the file `tests/inner/e.txt` is taken to belong to the outer suite, although there is
a suite in its own directory, to which it belongs when it is given first. -/
theorem C47_cached_refuted : Plain Ex.d1 ∧ NoLocal Ex.d1 ∧
    Ex.names (load Ex.d1 2 [some (Ex.at_ ["w", "tests", "a.txt"]), some (Ex.at_ ["w", "tests", "inner", "e.txt"])]) =
      .ok [("tests::a.txt", "w/tests/a.txt"), ("tests::inner/e.txt", "w/tests/inner/e.txt")] ∧
    Ex.names (load Ex.d1 2 [some (Ex.at_ ["w", "tests", "inner", "e.txt"]), some (Ex.at_ ["w", "tests", "a.txt"])]) =
      .ok [("inner::e.txt", "w/tests/inner/e.txt"), ("tests::a.txt", "w/tests/a.txt")] :=
  ⟨Ex.d1_plain, Ex.d1_noLocal, by decide +kernel, by decide +kernel⟩

/-- The same disk, but the inner suite says that its sources are elsewhere. -/
def Ex.d2 : Disk := { Ex.d1 with
  suite := fun p => if p = Ex.at_ ["w", "tests", "inner", "lit.suite.toml"] then some ⟨"inner".toList, Ex.at_ ["w", "tests", "sub"], Ex.cfg⟩
    else Ex.d1.suite p }

/-- C47 refuted: a suite directory whose configuration says that the sources are in another directory makes the run panic. -/
theorem C47_elsewhere_refuted : Ex.names (load Ex.d2 2 [some (Ex.at_ ["w", "tests", "inner"])]) = .panic ∧
    Ex.names (load Ex.d2 3 [some (Ex.at_ ["w", "tests"])]) = .panic := ⟨by decide +kernel, by decide +kernel⟩

end Litcheck.Registry
