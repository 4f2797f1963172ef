import Verif.Proofs.Registry

/-!
# Lemmas about loading suites
-/

namespace Litcheck.Registry

open Litcheck.RSpec Litcheck.PSpec
open Litcheck.PathTree (Built Deep RootIsDir canon canonFallback canonStep)

/-! ## Paths in the tree -/

theorem canonFallback_normals (p : DPath) (acc : FPath) :
    (p.map Comp.normal).foldl canonStep acc = (p.map Comp.normal).reverse ++ acc := by
  induction p generalizing acc with
  | nil => rfl
  | cons x xs ih => simp [ih, canonStep]

theorem canonFallback_absolute (p : DPath) : canonFallback (absolute p) = absolute p := by
  simp [canonFallback, absolute, canonStep, canonFallback_normals]

theorem filterMap_normals (p : DPath) : (p.map Comp.normal).filterMap compName = p := by
  induction p with
  | nil => rfl
  | cons x xs ih => simp [compName, ih]

theorem fs_absolute (d : Disk) (p : DPath) :
    d.fs (absolute p) = if d.isDir p then some (absolute p, .dir) else if d.isFile p then some (absolute p, .file) else none := by
  simp only [Disk.fs, absolute, filterMap_normals, relative, if_true]

theorem canon_absolute (d : Disk) (p : DPath) : (canon d.fs (absolute p)).1 = absolute p := by
  simp only [canon, fs_absolute]
  split
  · rename_i r h
    split at h
    · injection h with h; rw [← h]
    · split at h
      · injection h with h; rw [← h]
      · cases h
  · exact canonFallback_absolute p

theorem canon_dir (d : Disk) (p : DPath) (h : d.isDir p = true) : (canon d.fs (absolute p)).2 = .dir := by
  simp [canon, fs_absolute, h]

theorem absolute_inj {p q : DPath} (h : absolute p = absolute q) : p = q := by
  simp only [absolute, List.cons.injEq, true_and] at h
  exact List.map_injective_iff.2 (fun a b e => by injection e) h

theorem absolute_ne (p : DPath) : absolute p ≠ [] := by simp [absolute]

theorem cacheInsert_built {V : Type} {d : Disk} {t t' : PathTree V} {p : DPath} {v : V} {h : Hist V} (hb : Built t h)
    (hi : cacheInsert d t p v = .ok t') : Built t' (h ++ [(absolute p, (canon d.fs (absolute p)).2, v)]) := by
  unfold cacheInsert at hi
  split at hi
  · rename_i u t2 e
    injection hi with hi
    subst hi
    have := Built.accepted d.fs (absolute p) v hb e
    rw [canon_absolute] at this
    exact this
  · cases hi

/-! ## What holds of every registry -/

/-- The bookkeeping of a registry is consistent. -/
structure Inv (r : Reg) : Prop where
  suites : Sorted r.suites.suites
  tests : Sorted r.tests
  len : r.suites.len = r.suites.suites.length
  keys : r.tests.map (·.1) = r.suites.suites.map (·.1)
  own : ∀ e ∈ r.suites.suites, e.2.key = e.1
  lists : ∀ e ∈ r.tests, e.2.Exact ∧ ∀ t ∈ e.2.tests, t.suite.key = e.1

theorem Inv.empty : Inv .empty := by
  constructor <;> simp [Reg.empty, SuiteSet.empty, Sorted]

theorem Inv.insert_suite {r : Reg} (hi : Inv r) (s : Suite) (f : List (List DPath)) (c : PathTree Key) :
    Inv { r with filters := f, suites := (r.suites.insert s).2, tests := r.tests.insert s.key .empty, cache := c } := by
  have hkeys : (r.tests.insert s.key TestList.empty).map (·.1) = ((r.suites.insert s).2).suites.map (·.1) := by
    simp only [SuiteSet.insert]
    cases hg : r.suites.suites.get s.key with
    | none => exact KMap.keys_insert_congr _ _ hi.keys _ _ _
    | some v =>
      dsimp only
      rw [← hi.keys]
      refine KMap.keys_insert_old _ ?_ hi.tests
      cases hg' : r.tests.get s.key with
      | some v' => rfl
      | none =>
        exfalso
        rw [KMap.get_none, hi.keys, ← KMap.get_none, hg] at hg'
        cases hg'
  refine ⟨?_, hi.tests.insert _ _, ?_, hkeys, ?_, ?_⟩
  · simp only [SuiteSet.insert]
    split
    · exact hi.suites
    · exact hi.suites.insert _ _
  · simp only [SuiteSet.insert]
    split
    · exact hi.len
    · rename_i hn
      dsimp only
      rw [KMap.length_insert_new _ hn, hi.len]
  · simp only [SuiteSet.insert]
    split
    · exact hi.own
    · intro e he
      rcases KMap.mem_insert he with rfl | he
      · rfl
      · exact hi.own e he
  · intro e he
    rcases KMap.mem_insert he with rfl | he
    · simp [TestList.Exact, TestList.empty]
    · exact hi.lists e he

theorem Inv.loadWithoutCache {d : Disk} {r r' : Reg} {p : DPath} {s : Suite} (hi : Inv r)
    (h : loadWithoutCache d r p = .ok (r', s)) : Inv r' := by
  unfold Registry.loadWithoutCache at h
  split at h
  · cases h
  · obtain ⟨c1, _, h⟩ := (Out.bind_ok _ _ _).1 h
    obtain ⟨c2, _, h⟩ := (Out.bind_ok _ _ _).1 h
    injection h with h
    injection h with h1 h2
    subst h1
    exact hi.insert_suite _ _ _

theorem Inv.searchAncestors {d : Disk} {dir : DPath} (as : List DPath) {r r' : Reg} {s : Option Suite} (hi : Inv r)
    (h : searchAncestors d dir as r = .ok (r', s)) : Inv r' := by
  induction as generalizing r with
  | nil => simp only [Registry.searchAncestors, Out.ok.injEq, Prod.mk.injEq] at h; exact h.1 ▸ hi
  | cons a as ih =>
    simp only [Registry.searchAncestors] at h
    split at h
    · obtain ⟨⟨r1, s1⟩, h1, h⟩ := (Out.bind_ok _ _ _).1 h
      have hi1 := hi.loadWithoutCache h1
      dsimp only at h
      split at h
      · injection h with h; injection h with h _; exact h ▸ hi1
      · split at h
        · injection h with h; injection h with h _; exact h ▸ hi1
        · exact ih hi1 h
    · split at h
      · injection h with h; injection h with h _; exact h ▸ hi
      · exact ih hi h

theorem Inv.findContaining {d : Disk} {p : DPath} {r r' : Reg} {s : Option Suite} (hi : Inv r)
    (h : findContaining d r p = .ok (r', s)) : Inv r' := by
  unfold Registry.findContaining at h
  obtain ⟨x, _, h⟩ := (Out.bind_ok _ _ _).1 h
  split at h
  · obtain ⟨s1, _, h⟩ := (Out.bind_ok _ _ _).1 h
    injection h with h; injection h with h _; exact h ▸ hi
  · exact hi.searchAncestors _ h

theorem Inv.findNearest {d : Disk} {p : DPath} {r r' : Reg} {s : Option Suite} (hi : Inv r)
    (h : findNearest d r p = .ok (r', s)) : Inv r' := by
  unfold Registry.findNearest at h
  split at h
  · obtain ⟨x, _, h⟩ := (Out.bind_ok _ _ _).1 h
    split at h
    · obtain ⟨s1, _, h⟩ := (Out.bind_ok _ _ _).1 h
      injection h with h; injection h with h _; exact h ▸ hi
    · split at h
      · obtain ⟨⟨r1, s1⟩, h1, h⟩ := (Out.bind_ok _ _ _).1 h
        injection h with h; injection h with h _; subst h
        exact hi.loadWithoutCache h1
      · exact hi.findContaining h
  · exact hi.findContaining h

theorem Inv.filters {r : Reg} (hi : Inv r) (f : List (List DPath)) : Inv { r with filters := f } :=
  ⟨hi.suites, hi.tests, hi.len, hi.keys, hi.own, hi.lists⟩

theorem Inv.locals {r : Reg} (hi : Inv r) (t : PathTree TestConfig) : Inv { r with locals := t } :=
  ⟨hi.suites, hi.tests, hi.len, hi.keys, hi.own, hi.lists⟩

theorem Inv.modifyTests {r r' : Reg} {k : Key} {f : TestList Found → TestList Found} (hi : Inv r)
    (h : modifyTests r k f = .ok r')
    (hf : ∀ l, l.Exact → (∀ t ∈ l.tests, t.suite.key = k) → (f l).Exact ∧ ∀ t ∈ (f l).tests, t.suite.key = k) : Inv r' := by
  unfold Registry.modifyTests at h
  split at h
  · cases h
  · rename_i l hl
    injection h with h
    subst h
    have hm := KMap.get_mem hl
    refine ⟨hi.suites, hi.tests.insert _ _, hi.len, ?_, hi.own, ?_⟩
    · dsimp only
      rw [KMap.keys_insert_old _ (by rw [hl]; rfl) hi.tests, hi.keys]
    · intro e he
      rcases KMap.mem_insert he with rfl | he
      · exact hf l (hi.lists _ hm).1 (hi.lists _ hm).2
      · exact hi.lists e he

theorem Inv.append {r r' : Reg} {k : Key} {u : TestList Found} (hi : Inv r) (h : Registry.modifyTests r k (·.append u) = .ok r')
    (hu : u.Exact) (hk : ∀ t ∈ u.tests, t.suite.key = k) : Inv r' := by
  refine hi.modifyTests h ?_
  intro l hl hm
  rw [TestList.append_eq]
  refine ⟨?_, ?_⟩
  · simp only [TestList.Exact, List.length_append] at hl hu ⊢
    rw [hl, hu]
  · intro t ht
    rcases List.mem_append.1 ht with ht | ht
    · exact hm t ht
    · exact hk t ht

/-- The recursive call keeps what `P` says. -/
def Keeps (P : Reg → Prop) (load : Reg → DPath → Out Reg) : Prop := ∀ r p r', P r → load r p = .ok r' → P r'

theorem loadNested_keeps {P : Reg → Prop} {load : Reg → DPath → Out Reg} (hl : Keeps P load) (sp sd : DPath) (ps : List DPath)
    {r r' : Reg} (hi : P r) (h : loadNested load sp sd ps r = .ok r') : P r' := by
  induction ps generalizing r with
  | nil => simp only [loadNested, Out.ok.injEq] at h; exact h ▸ hi
  | cons p ps ih =>
    simp only [loadNested] at h
    split at h
    · exact ih hi h
    · obtain ⟨r1, h1, h⟩ := (Out.bind_ok _ _ _).1 h
      exact ih (hl _ _ _ hi h1) h

/-- The list of tests made of the files found. -/
def foundList (s : Suite) (c : TestConfig) (sp : DPath) (ps : List DPath) : List Found :=
  ps.map fun p => (⟨s, c, (strip sp p).getD p⟩ : Found)

theorem foldl_found (s : Suite) (c : TestConfig) (sp : DPath) (ps : List DPath) :
    ps.foldl (fun l p => l.pushBack (⟨s, c, (strip sp p).getD p⟩ : Found)) TestList.empty =
      ⟨ps.length, foundList s c sp ps⟩ := by
  have : ps.foldl (fun l p => l.pushBack (⟨s, c, (strip sp p).getD p⟩ : Found)) TestList.empty =
      (foundList s c sp ps).foldl TestList.pushBack TestList.empty := by
    rw [foundList, List.foldl_map]
  rw [this, TestList.foldl_push]
  simp [TestList.empty, foundList]

/-- What a search of a directory comes to. -/
theorem fileTests_ok {d : Disk} {load : Reg → DPath → Out Reg} {r r' : Reg} {s : Suite} {sp : DPath} {c : TestConfig}
    {l : TestList Found} (h : fileTests d load r s sp c = .ok (r', l)) :
    ∃ ns, entriesAt d.top sp = some ns ∧
      loadNested load sp s.sourceDir (walk (isFileBasedTest d · s c) (fun p => p == sp || p == s.sourceDir)
        (fun p => d.isDir (p ++ [SUITE]) || d.isFile (p ++ [SUITE])) sp ns).2 r = .ok r' ∧
      l = ⟨(walk (isFileBasedTest d · s c) (fun p => p == sp || p == s.sourceDir)
        (fun p => d.isDir (p ++ [SUITE]) || d.isFile (p ++ [SUITE])) sp ns).1.length,
        foundList s c sp (walk (isFileBasedTest d · s c) (fun p => p == sp || p == s.sourceDir)
        (fun p => d.isDir (p ++ [SUITE]) || d.isFile (p ++ [SUITE])) sp ns).1⟩ := by
  unfold fileTests at h
  split at h
  · cases h
  · rename_i ns hns
    refine ⟨ns, hns, ?_⟩
    simp only [foldl_found] at h
    obtain ⟨r1, h1, h⟩ := (Out.bind_ok _ _ _).1 h
    injection h with h
    injection h with e1 e2
    subst e1
    exact ⟨h1, e2.symm⟩

theorem fileTests_list {d : Disk} {load : Reg → DPath → Out Reg} {r r' : Reg} {s : Suite} {sp : DPath} {c : TestConfig}
    {l : TestList Found} (h : fileTests d load r s sp c = .ok (r', l)) : l.Exact ∧ ∀ t ∈ l.tests, t.suite = s := by
  obtain ⟨ns, _, _, rfl⟩ := fileTests_ok h
  refine ⟨by simp [TestList.Exact, foundList], ?_⟩
  intro t ht
  obtain ⟨p, _, rfl⟩ := List.mem_map.1 ht
  rfl

theorem Inv.fileTests {d : Disk} {load : Reg → DPath → Out Reg} (hl : Keeps Inv load) {r r' : Reg} {s : Suite} {sp : DPath}
    {c : TestConfig} {l : TestList Found} (hi : Inv r) (h : fileTests d load r s sp c = .ok (r', l)) : Inv r' := by
  obtain ⟨ns, _, h, _⟩ := fileTests_ok h
  exact loadNested_keeps hl _ _ _ hi h

theorem findTests_list {d : Disk} {load : Reg → DPath → Out Reg} {r r' : Reg} {s : Suite} {sp : DPath} {c : TestConfig}
    {l : TestList Found} (h : findTests d load r s sp c = .ok (r', l)) : l.Exact ∧ ∀ t ∈ l.tests, t.suite = s := by
  unfold findTests at h
  split at h
  · exact fileTests_list h
  · injection h with h
    injection h with _ h
    subst h
    split <;> simp [TestList.Exact, TestList.empty, TestList.pushBack]

theorem Inv.findTests {d : Disk} {load : Reg → DPath → Out Reg} (hl : Keeps Inv load) {r r' : Reg} {s : Suite} {sp : DPath}
    {c : TestConfig} {l : TestList Found} (hi : Inv r) (h : findTests d load r s sp c = .ok (r', l)) : Inv r' := by
  unfold Registry.findTests at h
  split at h
  · exact hi.fileTests hl h
  · injection h with h
    injection h with h _
    exact h ▸ hi

theorem Inv.searchLoop {d : Disk} {load : Reg → DPath → Out Reg} (hl : Keeps Inv load) {s : Suite} (ps : List DPath) {r r' : Reg}
    (hi : Inv r) (h : searchLoop d load s ps r = .ok r') : Inv r' := by
  induction ps generalizing r with
  | nil => simp only [Registry.searchLoop, Out.ok.injEq] at h; exact h ▸ hi
  | cons p ps ih =>
    simp only [Registry.searchLoop] at h
    obtain ⟨⟨c, t⟩, _, h⟩ := (Out.bind_ok _ _ _).1 h
    obtain ⟨⟨r1, l⟩, h1, h⟩ := (Out.bind_ok _ _ _).1 h
    obtain ⟨r2, h2, h⟩ := (Out.bind_ok _ _ _).1 h
    have hl1 := findTests_list h1
    have hi1 := (hi.locals t).findTests hl h1
    exact ih (hi1.append h2 hl1.1 (fun t ht => by rw [hl1.2 t ht])) h

theorem Inv.loadTests {d : Disk} {load : Reg → DPath → Out Reg} (hl : Keeps Inv load) {s : Suite} {r r' : Reg}
    (hi : Inv r) (h : loadTests d load r s = .ok r') : Inv r' := by
  unfold Registry.loadTests at h
  obtain ⟨r1, h1, h⟩ := (Out.bind_ok _ _ _).1 h
  have hi1 : Inv r1 := hi.modifyTests h1 (by intro l _ _; simp [TestList.clear, TestList.Exact])
  dsimp only at h
  split at h
  · obtain ⟨⟨r3, l⟩, h3, h⟩ := (Out.bind_ok _ _ _).1 h
    obtain ⟨r4, h4, h⟩ := (Out.bind_ok _ _ _).1 h
    injection h with h
    subst h
    have hl1 := fileTests_list h3
    exact Inv.filters (((hi1.filters _).fileTests hl h3).append h4 hl1.1 (fun t ht => by rw [hl1.2 t ht])) _
  · obtain ⟨r4, h4, h⟩ := (Out.bind_ok _ _ _).1 h
    injection h with h
    subst h
    exact Inv.filters ((hi1.filters _).searchLoop hl _ h4) _

theorem Inv.loadFromPath (d : Disk) (n : Nat) : Keeps Inv (loadFromPath d n) := by
  induction n with
  | zero => intro r p r' _ h; cases h
  | succ n ih =>
    intro r p r' hi h
    simp only [Registry.loadFromPath] at h
    split at h
    · obtain ⟨⟨r1, found⟩, h1, h⟩ := (Out.bind_ok _ _ _).1 h
      have hi1 := hi.findNearest h1
      dsimp only at h
      split at h
      · injection h with h; exact h ▸ hi1
      · split at h
        · cases h
        · refine Inv.loadTests ih ?_ h
          split
          · exact hi1.filters _
          · exact hi1
    · cases h

theorem Inv.loadInputs (d : Disk) (n : Nat) (ins : List (Option DPath)) {r r' : Reg} (hi : Inv r)
    (h : loadInputs d n ins r = .ok r') : Inv r' := by
  induction ins generalizing r with
  | nil => simp only [Registry.loadInputs, Out.ok.injEq] at h; exact h ▸ hi
  | cons i ins ih =>
    cases i with
    | none => simp [Registry.loadInputs] at h
    | some p =>
      simp only [Registry.loadInputs] at h
      obtain ⟨r1, h1, h⟩ := (Out.bind_ok _ _ _).1 h
      exact ih (Inv.loadFromPath d n _ _ _ hi h1) h

/-! ## Disks where every suite's sources are its own directory -/

/-- The key of the suite declared in a directory. -/
def keyAt (decl : SuiteDecl) (e : DPath) : Key := ⟨decl.name, e ++ [SUITE]⟩

/-- What holds of a registry when only suite directories have been given as inputs. -/
structure CInv (d : Disk) (r : Reg) : Prop where
  inv : Inv r
  filt : ∀ i : Nat, r.filters[i]?.getD [] = []
  cache : ∃ h, Built r.cache h ∧ Deep h ∧ ∀ x ∈ h, ∃ e decl, SuiteDir d e ∧ d.suite (e ++ [SUITE]) = some decl ∧
    x.2.2 = keyAt decl e ∧ (x.1 = absolute (e ++ [SUITE]) ∨ x.1 = absolute e) ∧ (r.suites.get x.2.2).isSome
  suites : ∀ k s, r.suites.get k = some s → ∃ e, s.path = e ++ [SUITE] ∧ SuiteDir d e ∧ d.suite s.path = some s.decl

theorem Inv.get_key {r : Reg} (hi : Inv r) {k : Key} {s : Suite} (h : r.suites.get k = some s) : s.key = k :=
  hi.own _ (KMap.get_mem h)

theorem Inv.get_tests {r : Reg} (hi : Inv r) (k : Key) : (r.suites.get k).isSome = (r.tests.get k).isSome := by
  have : r.suites.get k = none ↔ r.tests.get k = none := by
    rw [SuiteSet.get, KMap.get_none, KMap.get_none, hi.keys]
  cases h1 : r.suites.get k <;> cases h2 : r.tests.get k <;> simp_all

theorem CInv.empty (d : Disk) : CInv d .empty := by
  refine ⟨.empty, ?_, ⟨[], .empty, ?_, ?_⟩, ?_⟩
  · intro i; simp [Reg.empty]
  · intro x hx; cases hx
  · intro x hx; cases hx
  · intro k s h; simp [Reg.empty, SuiteSet.empty, SuiteSet.get, KMap.get] at h

theorem deep_entry {d : Disk} {p : DPath} (hp : p ≠ [] ∨ d.isDir p = true) :
    2 ≤ (absolute p).length ∨ (canon d.fs (absolute p)).2 = .dir := by
  rcases hp with hp | hp
  · left
    cases p with
    | nil => exact absurd rfl hp
    | cons x xs => simp [absolute]
  · exact .inr (canon_dir d p hp)

theorem suiteSet_get_insert (ss : SuiteSet) (s : Suite) (k : Key) :
    ((ss.insert s).2).get k = if k = s.key then some ((ss.get s.key).getD s) else ss.get k := by
  simp only [SuiteSet.insert, SuiteSet.get]
  cases h : ss.suites.get s.key with
  | some v =>
    by_cases e : k = s.key
    · subst e; simp [h]
    · simp [e]
  | none =>
    simp only [KMap.get_insert]
    by_cases e : k = s.key
    · simp [e]
    · simp [e]

theorem CInv.loadWithoutCache {d : Disk} (hp : Plain d) {r r' : Reg} {e : DPath} {s : Suite} (hi : CInv d r) (he : SuiteDir d e)
    (h : loadWithoutCache d r (e ++ [SUITE]) = .ok (r', s)) :
    CInv d r' ∧ s.path = e ++ [SUITE] ∧ d.suite s.path = some s.decl ∧ (r'.suites.get s.key).isSome ∧
      ∀ k, k ≠ s.key → r'.tests.get k = r.tests.get k := by
  have hinv := hi.inv.loadWithoutCache h
  unfold Registry.loadWithoutCache at h
  split at h
  · cases h
  · rename_i decl hd
    obtain ⟨c1, h1, h⟩ := (Out.bind_ok _ _ _).1 h
    obtain ⟨c2, h2, h⟩ := (Out.bind_ok _ _ _).1 h
    injection h with h
    injection h with e1 e2
    subst e1
    have hsd : s.sourceDir = e := by rw [← e2]; exact hp.own _ _ hd
    have hk : s.key = keyAt decl e := by rw [← e2]; rfl
    rw [e2] at h1 h2
    refine ⟨⟨hinv, ?_, ?_, ?_⟩, by rw [← e2], by rw [← e2]; exact hd, ?_, ?_⟩
    · intro i
      dsimp only
      by_cases hlt : i < r.filters.length
      · rw [List.getElem?_append_left hlt]; exact hi.filt i
      · rw [List.getElem?_append_right (by omega)]
        cases hx : ([[]] : List (List DPath))[i - r.filters.length]? with
        | none => rfl
        | some v =>
          have := List.mem_of_getElem? hx
          simp only [List.mem_singleton] at this
          subst this; rfl
    · obtain ⟨hh, hb, hdeep, hx⟩ := hi.cache
      have hb1 := cacheInsert_built hb h1
      have hb2 := cacheInsert_built hb1 h2
      refine ⟨_, hb2, ?_, ?_⟩
      · intro x hxm
        rcases List.mem_append.1 hxm with hxm | hxm
        · rcases List.mem_append.1 hxm with hxm | hxm
          · exact hdeep x hxm
          · simp only [List.mem_singleton] at hxm
            subst hxm
            exact deep_entry (.inl (by simp))
        · simp only [List.mem_singleton] at hxm
          subst hxm
          rw [hsd]
          exact deep_entry (.inr (isFile_dir he))
      · have hsome : (((r.suites.insert s).2).get s.key).isSome := by
          rw [suiteSet_get_insert, if_pos rfl]; rfl
        intro x hxm
        dsimp only
        rw [e2]
        rcases List.mem_append.1 hxm with hxm | hxm
        · rcases List.mem_append.1 hxm with hxm | hxm
          · obtain ⟨e', decl', g1, g2, g3, g4, g5⟩ := hx x hxm
            refine ⟨e', decl', g1, g2, g3, g4, ?_⟩
            rw [suiteSet_get_insert]
            split
            · rfl
            · exact g5
          · simp only [List.mem_singleton] at hxm
            subst hxm
            exact ⟨e, decl, he, hd, hk, .inl rfl, hsome⟩
        · simp only [List.mem_singleton] at hxm
          subst hxm
          exact ⟨e, decl, he, hd, hk, .inr (by rw [hsd]), hsome⟩
    · intro k s' hk'
      dsimp only at hk'
      rw [e2, suiteSet_get_insert] at hk'
      split at hk'
      · injection hk' with hk'
        cases hg : r.suites.get s.key with
        | some v =>
          rw [hg] at hk'
          simp only [Option.getD_some] at hk'
          subst hk'
          exact hi.suites _ _ hg
        | none =>
          rw [hg] at hk'
          simp only [Option.getD_none] at hk'
          subst hk'
          exact ⟨e, by rw [← e2], he, by rw [← e2]; exact hd⟩
      · exact hi.suites _ _ hk'
    · dsimp only
      rw [e2, suiteSet_get_insert, if_pos rfl]; rfl
    · intro k hne
      dsimp only
      rw [KMap.get_insert, if_neg]
      rw [e2]
      exact hne

theorem CInv.findNearest {d : Disk} (hp : Plain d) {r r' : Reg} {e : DPath} {s : Option Suite} (hi : CInv d r) (he : SuiteDir d e)
    (h : findNearest d r e = .ok (r', s)) :
    ∃ s', s = some s' ∧ CInv d r' ∧ s'.path = e ++ [SUITE] ∧ d.suite s'.path = some s'.decl ∧ (r'.suites.get s'.key).isSome ∧
      ∀ k, k ≠ s'.key → r'.tests.get k = r.tests.get k := by
  unfold Registry.findNearest at h
  rw [if_pos (isFile_dir he)] at h
  obtain ⟨x, h1, h⟩ := (Out.bind_ok _ _ _).1 h
  obtain ⟨hh, hb, hdeep, hx⟩ := hi.cache
  have hget := (PathTree.get_is_last_partial d.fs r.cache hh (absolute e) hb hdeep.root (by rw [canon_absolute]; exact absolute_ne e)).1
  rw [hget, canon_absolute] at h1
  simp only [ofP, Out.ok.injEq] at h1
  subst h1
  split at h
  · rename_i k hk
    obtain ⟨s1, h2, h⟩ := (Out.bind_ok _ _ _).1 h
    injection h with h
    injection h with e1 e2
    subst e1
    unfold getSuite at h2
    split at h2
    · rename_i s2 hs2
      injection h2 with h2
      subst h2
      obtain ⟨y, hy, hyk⟩ := by
        unfold lastAt at hk
        exact Option.map_eq_some_iff.1 hk
      have hy1 := List.find?_some hy
      have hy2 := List.mem_of_find?_eq_some hy
      rw [List.mem_reverse] at hy2
      simp only [decide_eq_true_eq] at hy1
      obtain ⟨e', decl, g1, g2, g3, g4, g5⟩ := hx y hy2
      have hee : e' = e := by
        rcases g4 with g4 | g4
        · exfalso
          have := absolute_inj (g4.symm.trans hy1)
          have h3 := isFile_dir he
          rw [← this, hp.noDir] at h3
          cases h3
        · exact absolute_inj (g4.symm.trans hy1)
      subst hee
      obtain ⟨e3, p1, p2, p3⟩ := hi.suites _ _ hs2
      have hkey := hi.inv.get_key hs2
      have hpath : s2.path = e' ++ [SUITE] := by
        have : s2.key.path = (keyAt decl e').path := by rw [hkey, ← hyk, g3]
        exact this
      refine ⟨s2, e2.symm, hi, hpath, p3, ?_, fun _ _ => rfl⟩
      rw [hkey, hs2]; rfl
    · cases h2
  · have hs : d.search e SUITE = some (e ++ [SUITE]) := by
      unfold Disk.search
      have h3 : d.isFile e = false := by
        cases hf : d.isFile e with
        | false => rfl
        | true => rw [← isFile_not_dir hp.tidy hf]; exact (isFile_dir he).symm
      rw [h3, if_neg (by simp), if_pos (show d.isFile (e ++ [SUITE]) = true from he)]
    rw [hs] at h
    obtain ⟨⟨r1, s1⟩, h2, h⟩ := (Out.bind_ok _ _ _).1 h
    injection h with h
    injection h with e1 e2
    subst e1
    obtain ⟨g1, g2, g3, g4, g5⟩ := hi.loadWithoutCache hp he h2
    exact ⟨s1, e2.symm, g1, g2, g3, g4, g5⟩

/-- The list of a suite's tests is what it should be. -/
structure GoodList (d : Disk) (e : DPath) (decl : SuiteDecl) (l : List Found) : Prop where
  once : (l.map Found.path).Nodup
  exact_ : ∀ p, p ∈ l.map Found.path ↔ IsTest d e decl p
  from_ : ∀ t ∈ l, t.suite.decl = decl ∧ t.suite.path = e ++ [SUITE] ∧ t.config = decl.config

/-- The suite in a directory is loaded, with the right tests. -/
def Good (d : Disk) (r : Reg) (e : DPath) : Prop :=
  ∃ decl l, d.suite (e ++ [SUITE]) = some decl ∧ r.tests.get (keyAt decl e) = some l ∧ GoodList d e decl l.tests

theorem hidden_iff (p : DPath) : (p.getLast?.map fun n => n.head? == some '.').getD false = true ↔ Hidden p := by
  unfold Hidden
  cases h : p.getLast? with
  | none => simp
  | some n =>
    cases n with
    | nil => simp
    | cons c cs =>
      simp only [Option.map_some, List.head?_cons, Option.getD_some, beq_iff_eq, Option.some.injEq, List.cons.injEq]
      exact ⟨fun h => ⟨cs, h, rfl⟩, fun ⟨_, h, _⟩ => h⟩

theorem hidden_append (e p : DPath) (h : p ≠ []) : Hidden (e ++ p) ↔ Hidden p := by
  unfold Hidden
  rw [List.getLast?_append]
  cases hp : p.getLast? with
  | none => simp at hp; exact absurd hp h
  | some n => simp

theorem isFileBasedTest_iff {d : Disk} {s : Suite} {c : TestConfig} {p : DPath} (hp : p ≠ []) :
    isFileBasedTest d (s.sourceDir ++ p) s c = true ↔
      d.isFile (s.sourceDir ++ p) = true ∧ ¬ Hidden p ∧ Chosen d c p := by
  unfold isFileBasedTest
  simp only [strip_append]
  by_cases hh : Hidden (s.sourceDir ++ p)
  · rw [(hidden_iff _).2 hh]
    simp [(hidden_append _ _ hp).1 hh]
  · have h1 := mt (hidden_iff _).1 hh
    simp only [Bool.not_eq_true] at h1
    rw [h1]
    have h2 := mt (hidden_append s.sourceDir p hp).2 hh
    by_cases hf : d.isFile (s.sourceDir ++ p) = true
    · rw [hf]
      simp only [Bool.not_true, Bool.or_false, Bool.false_eq_true, if_false, true_and, h2, not_false_eq_true, Chosen]
      by_cases hm : c.patterns.any (fun x => d.glob x (relative p)) = true
      · rw [hm]
        rw [List.any_eq_true] at hm
        cases hx : c.exclude with
        | nil => simpa using hm
        | cons g gs =>
          simp only [List.isEmpty_cons, Bool.not_false, Bool.and_self, if_true]
          constructor
          · intro h
            refine ⟨hm, ?_⟩
            rintro ⟨g', h3, h4⟩
            have : (g :: gs).any (fun x => d.glob x (relative p)) = true := List.any_eq_true.2 ⟨g', h3, h4⟩
            rw [this] at h
            cases h
          · rintro ⟨_, h⟩
            cases ha : (g :: gs).any (fun x => d.glob x (relative p)) with
            | false => rfl
            | true => exact absurd (List.any_eq_true.1 ha) h
      · have hm' := hm
        simp only [Bool.not_eq_true] at hm'
        rw [hm']
        simp only [Bool.false_and, Bool.false_eq_true, if_false, false_iff]
        rintro ⟨h3, _⟩
        exact hm (List.any_eq_true.2 h3)
    · simp only [Bool.not_eq_true] at hf
      rw [hf]
      simp

/-- Between a suite directory and a file below it there is no other one. -/
theorem nearest_iff {d : Disk} {e p : DPath} (he : SuiteDir d e) (hp : p ≠ []) :
    Nearest d (e ++ p) e ↔ Way (fun q => ¬ SuiteDir d q) e p := by
  have hd : (e ++ p).dropLast = e ++ p.dropLast := List.dropLast_append_of_ne_nil hp
  unfold Nearest
  rw [hd]
  constructor
  · rintro ⟨_, _, h⟩ q hq hqp hne hs
    have h1 : q <+: p.dropLast := by
      obtain ⟨t, rfl⟩ := hqp
      have : t ≠ [] := by rintro rfl; simp at hne
      rw [List.dropLast_append_of_ne_nil this]
      exact ⟨_, rfl⟩
    have := h (e ++ q) ((List.prefix_append_right_inj e).2 h1) hs
    have := this.length_le
    simp only [List.length_append] at this
    have : q.length = 0 := by omega
    exact hq (List.length_eq_zero_iff.1 this)
  · intro hw
    refine ⟨⟨_, rfl⟩, he, ?_⟩
    intro e' h1 h2
    rcases List.prefix_or_prefix_of_prefix h1 ⟨p.dropLast, rfl⟩ with h | h
    · exact h
    · obtain ⟨q, rfl⟩ := h
      by_cases hq : q = []
      · subst hq; simp
      · exfalso
        have h3 : q <+: p.dropLast := (List.prefix_append_right_inj e).1 h1
        have h4 : q <+: p := h3.trans (List.dropLast_prefix p)
        refine hw q hq h4 ?_ h2
        rintro rfl
        have := h3.length_le
        simp only [List.length_dropLast] at this
        have : q.length = 0 := by omega
        exact hq (List.length_eq_zero_iff.1 this)

/-- The walk of a whole suite finds its tests. -/
theorem walk_good {d : Disk} (hp : Plain d) {s : Suite} {e : DPath} (he : SuiteDir d e) (hs : s.path = e ++ [SUITE])
    (hsd : d.suite s.path = some s.decl) {ns : List FNode} (hns : entriesAt d.top e = some ns) :
    GoodList d e s.decl (foundList s s.decl.config e (walk (isFileBasedTest d · s s.decl.config) (fun p => p == e || p == e)
        (fun p => d.isDir (p ++ [SUITE]) || d.isFile (p ++ [SUITE])) e ns).1) := by
  have hsrc : s.sourceDir = e := by rw [hs] at hsd; exact hp.own _ _ hsd
  generalize hw : (walk (isFileBasedTest d · s s.decl.config) (fun p => p == e || p == e)
        (fun p => d.isDir (p ++ [SUITE]) || d.isFile (p ++ [SUITE])) e ns).1 = ps
  have hmem : ∀ p, p ∈ ps ↔ ∃ rel, p = e ++ rel ∧ HasFile ns rel ∧ isFileBasedTest d p s s.decl.config = true ∧
      Way (fun q => (q == e || q == e) = true ∨ (d.isDir (q ++ [SUITE]) || d.isFile (q ++ [SUITE])) = false) e rel :=
    fun p => by rw [← hw]; exact walk_files _ _ _ _ _ _
  have hnd : ps.Nodup := by rw [← hw]; exact walk_nodup _ _ _ _ _ (entriesAt_tidy hp.tidy hns)
  have hmap : (foundList s s.decl.config e ps).map Found.path = ps.map fun p => (strip e p).getD p := by
    simp [foundList, Function.comp_def]
  have hform : ∀ p ∈ ps, ∃ rel, p = e ++ rel := fun p h => by
    obtain ⟨rel, h, _⟩ := (hmem p).1 h; exact ⟨rel, h⟩
  refine ⟨?_, ?_, ?_⟩
  · rw [hmap]
    refine List.Nodup.map_on ?_ hnd
    intro p h1 q h2 heq
    obtain ⟨a, rfl⟩ := hform p h1
    obtain ⟨b, rfl⟩ := hform q h2
    simp only [strip_append, Option.getD_some] at heq
    rw [heq]
  · intro p
    rw [hmap, List.mem_map]
    have : (∃ a ∈ ps, (strip e a).getD a = p) ↔ e ++ p ∈ ps := by
      constructor
      · rintro ⟨a, h1, h2⟩
        obtain ⟨rel, rfl⟩ := hform a h1
        simp only [strip_append, Option.getD_some] at h2
        subst h2; exact h1
      · intro h; exact ⟨_, h, by simp [strip_append]⟩
    rw [this, hmem]
    unfold IsTest
    constructor
    · rintro ⟨rel, h1, h2, h3, h4⟩
      have : p = rel := List.append_cancel_left h1
      subst this
      have hne : p ≠ [] := by rintro rfl; exact h2
      have h3 := h3
      rw [← hsrc, isFileBasedTest_iff hne, hsrc] at h3
      refine ⟨h3.1, h3.2.1, (nearest_iff he hne).2 ?_, by rw [← hs]; exact hsd, h3.2.2⟩
      intro q hq hqp hqn hsq
      rcases h4 q hq hqp hqn with h | h
      · simp [hq] at h
      · simp only [Bool.or_eq_false_iff] at h
        unfold SuiteDir at hsq
        rw [h.2] at hsq
        cases hsq
    · rintro ⟨h1, h2, h3, h4, h5⟩
      have hne : p ≠ [] := by
        rintro rfl
        rw [List.append_nil] at h1
        have h6 := isFile_not_dir hp.tidy h1
        rw [isFile_dir he] at h6
        cases h6
      refine ⟨p, rfl, (hasFile_iff hp.tidy hns p hne).2 h1, ?_, ?_⟩
      · have := (isFileBasedTest_iff (d := d) (s := s) (c := s.decl.config) hne).2 ⟨by rw [hsrc]; exact h1, h2, h5⟩
        rw [hsrc] at this
        exact this
      · intro q hq hqp hqn
        right
        have := (nearest_iff he hne).1 h3 q hq hqp hqn
        unfold SuiteDir at this
        simp only [Bool.not_eq_true] at this
        rw [this, hp.noDir]
        rfl
  · intro t ht
    obtain ⟨p, _, rfl⟩ := List.mem_map.1 ht
    exact ⟨rfl, hs, rfl⟩

/-- The directories set aside by the walk are the topmost suites below. -/
theorem walk_nested {d : Disk} (hp : Plain d) {keep : DPath → Bool} {e : DPath} {ns : List FNode} (hns : entriesAt d.top e = some ns)
    (q : DPath) :
    q ∈ (walk keep (fun p => p == e || p == e) (fun p => d.isDir (p ++ [SUITE]) || d.isFile (p ++ [SUITE])) e ns).2 ↔
      ∃ rel, rel ≠ [] ∧ q = e ++ rel ∧ SuiteDir d q ∧ Way (fun q => ¬ SuiteDir d q) e rel := by
  rw [walk_dirs]
  constructor
  · rintro ⟨rel, h1, h2, ⟨h3, h4⟩, h5⟩
    have hne : rel ≠ [] := by rintro rfl; exact h2
    refine ⟨rel, hne, h1, ?_, ?_⟩
    · rw [hp.noDir, Bool.false_or] at h4
      exact h4
    · intro q' hq hqp hqn hs
      rcases h5 q' hq hqp hqn with h | h
      · simp [hq] at h
      · simp only [Bool.or_eq_false_iff] at h
        unfold SuiteDir at hs
        rw [h.2] at hs
        cases hs
  · rintro ⟨rel, hne, h1, h2, h3⟩
    refine ⟨rel, h1, ?_, ⟨?_, ?_⟩, ?_⟩
    · rw [hasDir_disk hp.tidy hns rel hne, ← h1]
      exact isFile_dir h2
    · simp [h1, hne]
    · unfold SuiteDir at h2
      rw [h2, Bool.or_true]
    · intro q' hq hqp hqn
      right
      have := h3 q' hq hqp hqn
      unfold SuiteDir at this
      simp only [Bool.not_eq_true] at this
      rw [this, hp.noDir]
      rfl

/-- Along a path to a suite there is a first suite. -/
theorem first_suite {d : Disk} (e rel : DPath) (hr : rel ≠ []) (hs : SuiteDir d (e ++ rel)) :
    ∃ a, a ≠ [] ∧ a <+: rel ∧ SuiteDir d (e ++ a) ∧ Way (fun q => ¬ SuiteDir d q) e a := by
  generalize hn : rel.length = n
  induction n using Nat.strong_induction_on generalizing rel with
  | _ n ih =>
    by_cases h : Way (fun q => ¬ SuiteDir d q) e rel
    · exact ⟨rel, hr, List.prefix_refl _, hs, h⟩
    · unfold Way at h
      simp only [not_forall, not_not] at h
      obtain ⟨q, hq, hqp, hqn, hsq⟩ := h
      have hlt : q.length < n := by
        rcases Nat.lt_or_ge q.length n with h | h
        · exact h
        · exact absurd (hqp.eq_of_length_le (by omega)) hqn
      obtain ⟨a, h1, h2, h3, h4⟩ := ih q.length hlt q hq hsq rfl
      exact ⟨a, h1, h2.trans hqp, h3, h4⟩

/-- What loading a suite directory does. -/
structure Loaded (d : Disk) (r : Reg) (e : DPath) (r' : Reg) : Prop where
  inv : CInv d r'
  others : ∀ k : Key, (¬ ∃ e', e <+: e' ∧ k.path = e' ++ [SUITE]) → r'.tests.get k = r.tests.get k
  good : ∀ e', e <+: e' → SuiteDir d e' → Good d r' e'
  keys : ∀ k : Key, (r'.tests.get k).isSome → (r.tests.get k).isSome ∨
    ∃ e' decl, e <+: e' ∧ SuiteDir d e' ∧ d.suite (e' ++ [SUITE]) = some decl ∧ k = keyAt decl e'

theorem loadNested_loaded {d : Disk} {load : Reg → DPath → Out Reg}
    (hl : ∀ r e r', CInv d r → SuiteDir d e → load r e = .ok r' → Loaded d r e r') (e : DPath) (ps : List DPath)
    (hps : ∀ p ∈ ps, SuiteDir d p ∧ e <+: p ∧ p ≠ e) {r r' : Reg} (hi : CInv d r) (h : loadNested load e e ps r = .ok r') :
    CInv d r' ∧ (∀ k : Key, (¬ ∃ p ∈ ps, ∃ e', p <+: e' ∧ k.path = e' ++ [SUITE]) → r'.tests.get k = r.tests.get k) ∧
      (∀ p ∈ ps, ∀ e', p <+: e' → SuiteDir d e' → Good d r' e') ∧
      (∀ k : Key, (r'.tests.get k).isSome → (r.tests.get k).isSome ∨
        ∃ p ∈ ps, ∃ e' decl, p <+: e' ∧ SuiteDir d e' ∧ d.suite (e' ++ [SUITE]) = some decl ∧ k = keyAt decl e') := by
  induction ps generalizing r with
  | nil =>
    simp only [loadNested, Out.ok.injEq] at h
    subst h
    exact ⟨hi, fun _ _ => rfl, by simp, fun k hk => .inl hk⟩
  | cons p ps ih =>
    simp only [loadNested] at h
    have hp := hps p List.mem_cons_self
    rw [if_neg (by simp [hp.2.2])] at h
    obtain ⟨r1, h1, h⟩ := (Out.bind_ok _ _ _).1 h
    have l1 := hl _ _ _ hi hp.1 h1
    obtain ⟨g1, g2, g3, g4⟩ := ih (fun q hq => hps q (List.mem_cons_of_mem _ hq)) l1.inv h
    refine ⟨g1, ?_, ?_, ?_⟩
    · intro k hk
      rw [g2 k, l1.others k]
      · rintro ⟨e', h2, h3⟩
        exact hk ⟨p, List.mem_cons_self, e', h2, h3⟩
      · rintro ⟨q, hq, h2⟩
        exact hk ⟨q, List.mem_cons_of_mem _ hq, h2⟩
    · intro q hq e' h2 h3
      rcases List.mem_cons.1 hq with rfl | hq
      · by_cases hex : ∃ q' ∈ ps, q' <+: e'
        · obtain ⟨q', h4, h5⟩ := hex
          exact g3 q' h4 e' h5 h3
        · obtain ⟨decl, l, a1, a2, a3⟩ := l1.good e' h2 h3
          refine ⟨decl, l, a1, ?_, a3⟩
          rw [g2, a2]
          rintro ⟨q', h4, e2, h5, h6⟩
          have : e' = e2 := List.append_cancel_right h6
          subst this
          exact hex ⟨q', h4, h5⟩
      · exact g3 q hq e' h2 h3
    · intro k hk
      rcases g4 k hk with h2 | ⟨q, hq, h2⟩
      · rcases l1.keys k h2 with h3 | h3
        · exact .inl h3
        · exact .inr ⟨p, List.mem_cons_self, h3⟩
      · exact .inr ⟨q, List.mem_cons_of_mem _ hq, h2⟩

theorem CInv.modify {d : Disk} {r r' : Reg} {k : Key} {f : TestList Found → TestList Found} (hi : CInv d r)
    (h : Registry.modifyTests r k f = .ok r') (hv : Inv r') : CInv d r' := by
  unfold Registry.modifyTests at h
  split at h
  · cases h
  · injection h with h
    subst h
    exact ⟨hv, hi.filt, hi.cache, hi.suites⟩

theorem modifyTests_get {r r' : Reg} {k : Key} {f : TestList Found → TestList Found} (h : modifyTests r k f = .ok r') (q : Key) :
    ∃ l, r.tests.get k = some l ∧ r'.tests.get q = if q = k then some (f l) else r.tests.get q := by
  unfold modifyTests at h
  split at h
  · cases h
  · rename_i l hl
    injection h with h
    subst h
    exact ⟨l, hl, KMap.get_insert _ _ _ _⟩

theorem CInv.setFilters {d : Disk} {r : Reg} (hi : CInv d r) (i : Nat) : CInv d { r with filters := r.filters.set i [] } := by
  refine ⟨hi.inv.filters _, ?_, hi.cache, hi.suites⟩
  intro j
  dsimp only
  rw [List.getElem?_set]
  split
  · split <;> rfl
  · exact hi.filt j

theorem loadFromPath_loaded {d : Disk} (hp : Plain d) (n : Nat) :
    ∀ r e r', CInv d r → SuiteDir d e → loadFromPath d n r e = .ok r' → Loaded d r e r' := by
  induction n with
  | zero => intro r e r' _ _ h; cases h
  | succ n ih =>
    intro r e r' hi he h
    simp only [Registry.loadFromPath] at h
    split at h
    case isFalse => cases h
    obtain ⟨⟨r1, found⟩, h1, h⟩ := (Out.bind_ok _ _ _).1 h
    obtain ⟨s, rfl, hi1, hs, hsd, hreg, hfr⟩ := hi.findNearest hp he h1
    have hsrc : s.sourceDir = e := by rw [hs] at hsd; exact hp.own _ _ hsd
    have hkey : s.key = keyAt s.decl e := by unfold Suite.key keyAt; rw [hs]
    have hst : strip s.sourceDir e = some [] := by rw [strip_iff, hsrc, List.append_nil]
    dsimp only at h
    rw [hst] at h
    simp only [ne_eq, not_true_eq_false, if_false] at h
    unfold Registry.loadTests at h
    obtain ⟨r2, h2, h⟩ := (Out.bind_ok _ _ _).1 h
    have hi2 : CInv d r2 := hi1.modify h2 (hi1.inv.modifyTests h2 (by intro l _ _; simp [TestList.clear, TestList.Exact]))
    have hemp : r2.filters[s.id]?.getD [] = [] := hi2.filt s.id
    dsimp only at h
    rw [hemp] at h
    simp only [List.isEmpty_nil, if_true] at h
    obtain ⟨⟨r3, l⟩, h3, h⟩ := (Out.bind_ok _ _ _).1 h
    obtain ⟨r4, h4, h⟩ := (Out.bind_ok _ _ _).1 h
    injection h with h
    have hl1 := fileTests_list h3
    obtain ⟨ns, hns, hnest, hl⟩ := fileTests_ok h3
    rw [hsrc] at hns hnest hl
    have hgl := walk_good hp he hs hsd hns
    obtain ⟨g1, g2, g3, g4⟩ := loadNested_loaded ih e _ (fun q hq => by
      obtain ⟨rel, a1, a2, a3, _⟩ := (walk_nested hp hns q).1 hq
      refine ⟨a3, ⟨rel, a2.symm⟩, ?_⟩
      rintro rfl
      simp [a1] at a2) (hi2.setFilters s.id) hnest
    -- the list is still empty after the nested suites
    have hself : r3.tests.get s.key = some ⟨0, []⟩ := by
      rw [g2]
      · obtain ⟨l0, b1, b2⟩ := modifyTests_get h2 s.key
        dsimp only
        rw [b2, if_pos rfl]
        rfl
      · rintro ⟨q, hq, e', c1, c2⟩
        obtain ⟨rel, a1, a2, _⟩ := (walk_nested hp hns q).1 hq
        rw [hkey] at c2
        have : e = e' := List.append_cancel_right c2
        subst this
        have := c1.length_le
        rw [a2, List.length_append] at this
        exact a1 (List.length_eq_zero_iff.1 (by omega))
    have hi4 : CInv d r4 := g1.modify h4 (g1.inv.append h4 hl1.1 (fun t ht => by rw [hl1.2 t ht]))
    have hget4 : ∀ q, r4.tests.get q = if q = s.key then some ⟨l.len, l.tests⟩ else r3.tests.get q := by
      intro q
      obtain ⟨l0, b1, b2⟩ := modifyTests_get h4 q
      rw [hself] at b1
      injection b1 with b1
      subst b1
      rw [b2, TestList.append_eq]
      simp
    subst h
    have hgoode : Good d r4 e := by
      refine ⟨s.decl, l, by rw [← hs]; exact hsd, ?_, ?_⟩
      · rw [hget4, if_pos hkey.symm]
      · rw [hl]; exact hgl
    have hpath : s.key.path = e ++ [SUITE] := hs
    refine ⟨hi4.setFilters s.id, ?_, ?_, ?_⟩
    · intro k hk
      dsimp only
      have hne : k ≠ s.key := by
        rintro rfl
        exact hk ⟨e, List.prefix_refl _, hpath⟩
      rw [hget4, if_neg hne, g2]
      · dsimp only
        obtain ⟨l0, _, b2⟩ := modifyTests_get h2 k
        rw [b2, if_neg hne]
        exact hfr k hne
      · rintro ⟨q, hq, e', c1, c2⟩
        obtain ⟨rel, a1, a2, _⟩ := (walk_nested hp hns q).1 hq
        refine hk ⟨e', ?_, c2⟩
        exact List.IsPrefix.trans ⟨rel, a2.symm⟩ c1
    · intro e' he' hs'
      obtain ⟨rel, rfl⟩ := he'
      by_cases hrel : rel = []
      · subst hrel
        rw [List.append_nil]
        exact hgoode
      · obtain ⟨a, a1, a2, a3, a4⟩ := first_suite e rel hrel hs'
        have hm := (walk_nested hp (keep := (isFileBasedTest d · s s.decl.config)) hns (e ++ a)).2 ⟨a, a1, rfl, a3, a4⟩
        obtain ⟨decl, l', b1, b2, b3⟩ := g3 _ hm (e ++ rel) ((List.prefix_append_right_inj e).2 a2) hs'
        refine ⟨decl, l', b1, ?_, b3⟩
        dsimp only
        rw [hget4, if_neg, b2]
        intro heq
        have : (keyAt decl (e ++ rel)).path = s.key.path := by rw [heq]
        rw [hpath] at this
        have : e ++ rel = e := List.append_cancel_right this
        simp [hrel] at this
    · intro k hk
      dsimp only at hk
      rw [hget4] at hk
      by_cases hks : k = s.key
      · subst hks
        exact .inr ⟨e, s.decl, List.prefix_refl _, he, by rw [← hs]; exact hsd, hkey⟩
      · rw [if_neg hks] at hk
        rcases g4 k hk with h5 | ⟨q, hq, e', decl, c1, c2, c3, c4⟩
        · dsimp only at h5
          obtain ⟨l0, _, b2⟩ := modifyTests_get h2 k
          rw [b2, if_neg hks, hfr k hks] at h5
          exact .inl h5
        · obtain ⟨rel, a1, a2, _⟩ := (walk_nested hp hns q).1 hq
          exact .inr ⟨e', decl, List.IsPrefix.trans ⟨rel, a2.symm⟩ c1, c2, c3, c4⟩

/-- What loading several suite directories does. -/
theorem loadInputs_loaded {d : Disk} (hp : Plain d) (n : Nat) (es : List DPath) (hes : ∀ e ∈ es, SuiteDir d e) {r r' : Reg}
    (hi : CInv d r) (h : loadInputs d n (es.map some) r = .ok r') :
    CInv d r' ∧ (∀ e ∈ es, ∀ e', e <+: e' → SuiteDir d e' → Good d r' e') ∧
      (∀ k : Key, (¬ ∃ p ∈ es, ∃ e', p <+: e' ∧ k.path = e' ++ [SUITE]) → r'.tests.get k = r.tests.get k) ∧
      (∀ k : Key, (r'.tests.get k).isSome → (r.tests.get k).isSome ∨
        ∃ p ∈ es, ∃ e' decl, p <+: e' ∧ SuiteDir d e' ∧ d.suite (e' ++ [SUITE]) = some decl ∧ k = keyAt decl e') := by
  induction es generalizing r with
  | nil =>
    simp only [List.map_nil, Registry.loadInputs, Out.ok.injEq] at h
    subst h
    exact ⟨hi, by simp, fun _ _ => rfl, fun k hk => .inl hk⟩
  | cons p ps ih =>
    simp only [List.map_cons, Registry.loadInputs] at h
    obtain ⟨r1, h1, h⟩ := (Out.bind_ok _ _ _).1 h
    have l1 := loadFromPath_loaded hp n _ _ _ hi (hes p List.mem_cons_self) h1
    obtain ⟨g1, g3, g2, g4⟩ := ih (fun q hq => hes q (List.mem_cons_of_mem _ hq)) l1.inv h
    refine ⟨g1, ?_, ?_, ?_⟩
    · intro q hq e' h2 h3
      rcases List.mem_cons.1 hq with rfl | hq
      · by_cases hex : ∃ q' ∈ ps, q' <+: e'
        · obtain ⟨q', h4, h5⟩ := hex
          exact g3 q' h4 e' h5 h3
        · obtain ⟨decl, l, a1, a2, a3⟩ := l1.good e' h2 h3
          refine ⟨decl, l, a1, ?_, a3⟩
          rw [g2, a2]
          rintro ⟨q', h4, e2, h5, h6⟩
          have : e' = e2 := List.append_cancel_right h6
          subst this
          exact hex ⟨q', h4, h5⟩
      · exact g3 q hq e' h2 h3
    · intro k hk
      rw [g2 k, l1.others k]
      · rintro ⟨e', h2, h3⟩
        exact hk ⟨p, List.mem_cons_self, e', h2, h3⟩
      · rintro ⟨q, hq, h2⟩
        exact hk ⟨q, List.mem_cons_of_mem _ hq, h2⟩
    · intro k hk
      rcases g4 k hk with h2 | ⟨q, hq, h2⟩
      · rcases l1.keys k h2 with h3 | h3
        · exact .inl h3
        · exact .inr ⟨p, List.mem_cons_self, h3⟩
      · exact .inr ⟨q, List.mem_cons_of_mem _ hq, h2⟩

end Litcheck.Registry
