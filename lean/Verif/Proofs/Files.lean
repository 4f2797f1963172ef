import Verif.Proofs.Discovery
import Mathlib.Data.List.Infix

/-!
# Lemmas about resolving inputs to suites, and about inputs that are files
-/

namespace Litcheck.Registry

open Litcheck.RSpec Litcheck.PSpec
open Litcheck.PathTree (Built Deep RootIsDir canon canonFallback canonStep)

/-! ## Going up -/

theorem loadWithoutCache_suite {d : Disk} {r r' : Reg} {p : DPath} {s : Suite} (h : loadWithoutCache d r p = .ok (r', s)) :
    s.path = p ∧ d.suite p = some s.decl := by
  unfold loadWithoutCache at h
  split at h
  · cases h
  · rename_i decl hd
    obtain ⟨c1, _, h⟩ := (Out.bind_ok _ _ _).1 h
    obtain ⟨c2, _, h⟩ := (Out.bind_ok _ _ _).1 h
    injection h with h
    injection h with _ h
    subst h
    exact ⟨rfl, hd⟩

theorem search_dir {d : Disk} (ht : Tidy d.top) {a : DPath} (ha : d.isDir a = true) (name : Str) :
    d.search a name = if d.isFile (a ++ [name]) then some (a ++ [name]) else none := by
  unfold Disk.search
  have : d.isFile a = false := by
    cases hf : d.isFile a with
    | false => rfl
    | true => rw [← isFile_not_dir ht hf]; exact ha.symm
  rw [this]
  rfl

/-- What the search among some directories may return. -/
def FoundIn (d : Disk) (dir : DPath) (as : List DPath) : Option Suite → Prop
  | some s => ∃ pre a post, as = pre ++ a :: post ∧ d.cwd ∉ pre ∧ (∀ b ∈ pre, ¬ Contains d b dir) ∧ SuiteDir d a ∧
      s.path = a ++ [SUITE] ∧ d.suite s.path = some s.decl ∧ s.sourceDir <+: dir
  | none => ∀ pre b post, as = pre ++ b :: post → d.cwd ∉ pre → ¬ Contains d b dir

theorem searchAncestors_spec {d : Disk} (ht : Tidy d.top) {dir : DPath} (as : List DPath) (has : ∀ a ∈ as, d.isDir a = true)
    {r r' : Reg} {found : Option Suite} (h : searchAncestors d dir as r = .ok (r', found)) :
    FoundIn d dir as found := by
  induction as generalizing r with
  | nil =>
    simp only [searchAncestors, Out.ok.injEq, Prod.mk.injEq] at h
    rw [← h.2]
    intro pre b post e
    simp at e
  | cons a as ih =>
    have hs := search_dir ht (has a List.mem_cons_self) SUITE
    have ih := @ih (fun b hb => has b (List.mem_cons_of_mem _ hb))
    -- going on after `a` when it contains nothing
    have next : ∀ (r : Reg), ¬ Contains d a dir → (if a = d.cwd then Out.ok (r, none) else searchAncestors d dir as r) = .ok (r', found) →
        FoundIn d dir (a :: as) found := by
      intro r hna h
      by_cases hc : a = d.cwd
      · rw [if_pos hc] at h
        simp only [Out.ok.injEq, Prod.mk.injEq] at h
        rw [← h.2]
        intro pre b post e hpre
        cases pre with
        | nil => simp only [List.nil_append, List.cons.injEq] at e; rw [← e.1]; exact hna
        | cons x pre =>
          simp only [List.cons_append, List.cons.injEq] at e
          exact absurd (by rw [← hc, e.1]; exact List.mem_cons_self) hpre
      · rw [if_neg hc] at h
        have := ih h
        cases found with
        | some s =>
          obtain ⟨pre, a', post, g1, g2, g3, g4⟩ := this
          refine ⟨a :: pre, a', post, by simp [g1], ?_, ?_, g4⟩
          · simp only [List.mem_cons, not_or]; exact ⟨fun e => hc e.symm, g2⟩
          · intro b hb
            rcases List.mem_cons.1 hb with rfl | hb
            · exact hna
            · exact g3 b hb
        | none =>
          intro pre b post e hpre
          cases pre with
          | nil => simp only [List.nil_append, List.cons.injEq] at e; rw [← e.1]; exact hna
          | cons x pre =>
            simp only [List.cons_append, List.cons.injEq] at e
            exact this pre b post e.2 (fun hm => hpre (List.mem_cons_of_mem _ hm))
    simp only [searchAncestors] at h
    rw [hs] at h
    by_cases hf : d.isFile (a ++ [SUITE]) = true
    · rw [if_pos hf] at h
      dsimp only at h
      obtain ⟨⟨r1, s1⟩, h1, h⟩ := (Out.bind_ok _ _ _).1 h
      obtain ⟨e1, e2⟩ := loadWithoutCache_suite h1
      dsimp only at h
      by_cases hc : s1.sourceDir <+: dir
      · rw [if_pos hc] at h
        injection h with h
        injection h with _ h
        rw [← h]
        exact ⟨[], a, as, rfl, by simp, by simp, hf, e1, by rw [e1]; exact e2, hc⟩
      · rw [if_neg hc] at h
        refine next r1 ?_ h
        rintro ⟨_, decl, g1, g2⟩
        rw [e2] at g1
        injection g1 with g1
        subst g1
        exact hc g2
    · rw [if_neg hf] at h
      exact next r (fun hh => hf hh.1) h

theorem mem_ancestors (p a : DPath) : a ∈ ancestors p ↔ a <+: p := by
  unfold ancestors
  rw [List.mem_reverse, List.mem_inits]

theorem ancestors_sorted (p : DPath) : (ancestors p).Pairwise fun x y => y <+: x ∧ y ≠ x := by
  unfold ancestors
  rw [List.pairwise_reverse]
  induction p with
  | nil => simp
  | cons x xs ih =>
    rw [List.inits_cons, List.pairwise_cons]
    refine ⟨?_, ?_⟩
    · intro y hy
      obtain ⟨z, _, rfl⟩ := List.mem_map.1 hy
      simp
    · rw [List.pairwise_map]
      exact ih.imp (fun {a b} hab => by simpa using hab)

theorem ancestors_split {p a : DPath} {pre post : List DPath} (h : ancestors p = pre ++ a :: post) :
    (∀ b, b ∈ pre ↔ (a <+: b ∧ b <+: p ∧ b ≠ a)) ∧ (∀ b ∈ post, b <+: a) := by
  have sorted := ancestors_sorted p
  rw [h, List.pairwise_append] at sorted
  obtain ⟨_, h2, h3⟩ := sorted
  rw [List.pairwise_cons] at h2
  refine ⟨?_, fun b hb => (h2.1 b hb).1⟩
  intro b
  constructor
  · intro hb
    have := h3 b hb a List.mem_cons_self
    refine ⟨this.1, ?_, fun e => this.2 e.symm⟩
    rw [← mem_ancestors, h]
    exact List.mem_append_left _ hb
  · rintro ⟨h4, h5, h6⟩
    rw [← mem_ancestors, h] at h5
    rcases List.mem_append.1 h5 with h5 | h5
    · exact h5
    · rcases List.mem_cons.1 h5 with rfl | h5
      · exact absurd rfl h6
      · have := (h2.1 b h5).1
        exact absurd (this.eq_of_length_le h4.length_le) h6

theorem prefix_dropLast {a p : DPath} (h : a <+: p) (hn : a ≠ p) : a <+: p.dropLast := by
  obtain ⟨t, rfl⟩ := h
  have : t ≠ [] := by rintro rfl; simp at hn
  rw [List.dropLast_append_of_ne_nil this]
  exact ⟨_, rfl⟩

theorem isFile_parent {d : Disk} {p : DPath} (h : d.isFile p = true) : p ≠ [] ∧ d.isDir p.dropLast = true := by
  have hp : p ≠ [] := by rintro rfl; simp [Disk.isFile] at h
  refine ⟨hp, ?_⟩
  have e := (List.dropLast_append_getLast hp).symm
  rw [e] at h
  exact isFile_dir h

/-- An empty cache knows nothing. -/
theorem cache_empty {V : Type} (fs : FPath → Option (FPath × PathTree.Ty)) (p : FPath) :
    PathTree.get fs (PathTree.empty : PathTree V) p = .ok none ∧ PathTree.nearestAncestor fs (PathTree.empty : PathTree V) p = .ok none := by
  simp [PathTree.get, PathTree.nearestAncestor, PathTree.empty, PathTree.getRoots, PathTree.nearestRoots]

/-! ## Search paths -/

theorem pathCode_inj {a b : DPath} (h : pathCode a = pathCode b) : a = b := by
  refine List.map_injective_iff.2 ?_ h
  intro x y e
  exact map_toNat_inj e

/-- Search paths in order. -/
def PSorted (l : List DPath) : Prop := l.Pairwise fun a b => pathCode a < pathCode b

theorem mem_insertPath (l : List DPath) (p q : DPath) : q ∈ insertPath l p ↔ q = p ∨ q ∈ l := by
  induction l with
  | nil => simp [insertPath]
  | cons a l ih =>
    simp only [insertPath]
    split
    · rename_i e
      subst e
      simp only [List.mem_cons]
      constructor
      · exact .inr
      · rintro (h | h)
        · exact .inl h
        · exact h
    · split
      · simp
      · simp only [List.mem_cons, ih]
        constructor
        · rintro (h | h | h)
          · exact .inr (.inl h)
          · exact .inl h
          · exact .inr (.inr h)
        · rintro (h | h | h)
          · exact .inr (.inl h)
          · exact .inl h
          · exact .inr (.inr h)

theorem PSorted.insert {l : List DPath} (h : PSorted l) (p : DPath) : PSorted (insertPath l p) := by
  induction l with
  | nil => simp [insertPath, PSorted]
  | cons a l ih =>
    simp only [PSorted, List.pairwise_cons] at h
    simp only [insertPath]
    split
    · exact List.pairwise_cons.2 h
    · rename_i ne
      split
      · rename_i lt
        refine List.pairwise_cons.2 ⟨?_, List.pairwise_cons.2 h⟩
        intro b hb
        rcases List.mem_cons.1 hb with rfl | hb
        · exact lt
        · exact lt_trans lt (h.1 b hb)
      · rename_i nlt
        refine List.pairwise_cons.2 ⟨?_, ih h.2⟩
        intro b hb
        rcases (mem_insertPath _ _ _).1 hb with rfl | hb
        · rcases lt_trichotomy (pathCode a) (pathCode b) with hl | he | hg
          · exact hl
          · exact absurd (pathCode_inj he) ne
          · exact absurd hg nlt
        · exact h.1 b hb

theorem PSorted.nodup {l : List DPath} (h : PSorted l) : l.Nodup :=
  List.Pairwise.imp (fun {a b} hlt (e : a = b) => by subst e; exact lt_irrefl _ hlt) h

/-! ## Inputs that are files of one suite -/

/-- What is in the cache of local configurations when only files have been given. -/
def LInv (d : Disk) (c : TestConfig) (t : PathTree TestConfig) : Prop :=
  ∃ h, Built t h ∧ Deep h ∧ ∀ x ∈ h, x.2.2 = c ∧ x.2.1 = .file ∧ ∃ p, d.isFile p = true ∧ x.1 = absolute p

theorem absolute_append (p q : DPath) : absolute (p ++ q) = absolute p ++ q.map Comp.normal := by simp [absolute]

theorem absolute_above {p : FPath} {q : DPath} (h : Above p (absolute q)) : ∃ a, p = absolute a ∧ a <+: q ∧ a ≠ q := by
  obtain ⟨h1, r, h2, h3⟩ := h
  cases p with
  | nil => exact absurd rfl h1
  | cons c cs =>
    simp only [absolute, List.cons_append, List.cons.injEq] at h3
    obtain ⟨rfl, h3⟩ := h3
    obtain ⟨a, b, rfl, rfl, rfl⟩ := List.map_eq_append_iff.1 h3
    refine ⟨a, rfl, ⟨b, rfl⟩, ?_⟩
    intro e
    have : b = [] := by simpa using e
    subst this
    exact h2 rfl

theorem file_no_below {d : Disk} (ht : Tidy d.top) {a b : DPath} (ha : d.isFile a = true) (hb : d.isFile b = true) (hab : a <+: b) : a = b := by
  by_contra hne
  have h1 := (isFile_parent hb).2
  have h2 := isDir_prefix (prefix_dropLast hab hne) h1
  rw [isFile_not_dir ht ha] at h2
  cases h2

theorem LInv.lookup {d : Disk} (ht : Tidy d.top) {c : TestConfig} {t : PathTree TestConfig} (hl : LInv d c t) {p : DPath}
    (hp : d.isDir p = true) :
    PathTree.get d.fs t (absolute p) = .ok none ∧ PathTree.nearestAncestor d.fs t (absolute p) = .ok none := by
  obtain ⟨h, hb, hd, hx⟩ := hl
  constructor
  · rw [(PathTree.get_is_last_partial d.fs t h (absolute p) hb hd.root (by rw [canon_absolute]; exact absolute_ne p)).1, canon_absolute]
    congr 1
    cases hla : lastAt h (absolute p) with
    | none => rfl
    | some v =>
      have := (PathTree.registered_iff h (absolute p)).2 (by rw [hla]; rfl)
      obtain ⟨x, hxm, hxp⟩ := this
      obtain ⟨_, _, q, hq, hxq⟩ := hx x hxm
      have := absolute_inj (hxp.symm.trans hxq)
      subst this
      rw [isFile_not_dir ht hq] at hp
      cases hp
  · obtain ⟨r, h1, h2⟩ := PathTree.nearest_is_longest_partial d.fs t h (absolute p) hb hd (by rw [canon_absolute]; exact absolute_ne p)
    rw [h1]
    cases r with
    | none => rfl
    | some pv =>
      obtain ⟨q, v⟩ := pv
      exfalso
      rw [canon_absolute] at h2
      obtain ⟨ha, ⟨⟨x, hxm, hxq⟩, hdir⟩, _⟩ := h2
      rcases hdir with ⟨y, hym, hyq, hyd⟩ | ⟨q', hab, ⟨y, hym, hyq⟩⟩
      · rw [(hx y hym).2.1] at hyd
        cases hyd
      · obtain ⟨_, _, f1, hf1, e1⟩ := hx x hxm
        obtain ⟨_, _, f2, hf2, e2⟩ := hx y hym
        rw [← hyq, e2, ← hxq, e1] at hab
        obtain ⟨a, e3, e4, e5⟩ := absolute_above hab
        have := absolute_inj e3
        subst this
        exact e5 (file_no_below ht hf1 hf2 e4)

theorem canon_file {d : Disk} (ht : Tidy d.top) {p : DPath} (h : d.isFile p = true) : (canon d.fs (absolute p)).2 = .file := by
  simp [canon, fs_absolute, isFile_not_dir ht h, h]

theorem localLoop_none {d : Disk} (ht : Tidy d.top) (hn : NoLocal d) (s : Suite) (xs : List Str) (at' : DPath) (c : TestConfig)
    (t : PathTree TestConfig) (h : d.isFile (at' ++ xs) = true) : localLoop d s xs at' c t = .ok (at' ++ xs, c, t) := by
  induction xs generalizing at' with
  | nil => simp [localLoop]
  | cons x xs ih =>
    have hs : d.search (at' ++ [x]) LOCAL = none := by
      unfold Disk.search
      have h2 : d.isFile (at' ++ [x] ++ [LOCAL]) = false := hn _
      rw [h2]
      split
      · rename_i hf
        split
        · rename_i hl
          exfalso
          rw [List.getLast?_append, List.getLast?_singleton, Option.some_or] at hl
          injection hl with hl
          subst hl
          rw [hn at'] at hf
          cases hf
        · rfl
      · rfl
    simp only [localLoop]
    rw [hs]
    dsimp only
    rw [ih (at' ++ [x]) (by simpa using h)]
    simp

theorem localConfig_file {d : Disk} (ht : Tidy d.top) (hn : NoLocal d) {s : Suite} {p : DPath} {t t' : PathTree TestConfig} {c : TestConfig}
    (hl : LInv d s.decl.config t) (hf : d.isFile (s.sourceDir ++ p) = true) (h : localConfig d s p t = .ok (c, t')) :
    c = s.decl.config ∧ LInv d s.decl.config t' := by
  unfold localConfig at h
  have hnd := isFile_not_dir ht hf
  obtain ⟨_, hpar⟩ := isFile_parent hf
  obtain ⟨g1, g2⟩ := hl.lookup ht hpar
  simp only [hnd, Bool.false_eq_true, if_false, g1, g2, ofP] at h
  simp only [Out.bind_eq, Out.bind, pure] at h
  rw [localLoop_none ht hn s p s.sourceDir _ _ hf] at h
  dsimp only at h
  cases hc : cacheInsert d t (s.sourceDir ++ p) s.decl.config with
  | ok t2 =>
    rw [hc] at h
    simp only [Out.ok.injEq, Prod.mk.injEq] at h
    obtain ⟨rfl, rfl⟩ := h
    refine ⟨rfl, ?_⟩
    obtain ⟨hh, hb, hd, hx⟩ := hl
    refine ⟨_, cacheInsert_built hb hc, ?_, ?_⟩
    · intro x hxm
      rcases List.mem_append.1 hxm with hxm | hxm
      · exact hd x hxm
      · simp only [List.mem_singleton] at hxm
        subst hxm
        exact deep_entry (.inl (isFile_parent hf).1)
    · intro x hxm
      rcases List.mem_append.1 hxm with hxm | hxm
      · exact hx x hxm
      · simp only [List.mem_singleton] at hxm
        subst hxm
        exact ⟨rfl, canon_file ht hf, _, hf, rfl⟩
  | err => rw [hc] at h; cases h
  | panic => rw [hc] at h; cases h
  | hang => rw [hc] at h; cases h

/-- The tests among some files of a suite. -/
def fileList (d : Disk) (s : Suite) (ps : List DPath) : List Found :=
  (ps.filter fun p => isFileBasedTest d (s.sourceDir ++ p) s s.decl.config).map fun p => ⟨s, s.decl.config, p⟩

theorem searchLoop_files {d : Disk} (ht : Tidy d.top) (hn : NoLocal d) {load : Reg → DPath → Out Reg} {s : Suite} (ps : List DPath)
    (hps : ∀ p ∈ ps, d.isFile (s.sourceDir ++ p) = true) {r r' : Reg} (hl : LInv d s.decl.config r.locals) {l : TestList Found}
    (hg : r.tests.get s.key = some l) (h : searchLoop d load s ps r = .ok r') :
    r'.filters = r.filters ∧ r'.suites = r.suites ∧ r'.cache = r.cache ∧ LInv d s.decl.config r'.locals ∧
      (∃ l', r'.tests.get s.key = some l' ∧ l'.tests = l.tests ++ fileList d s ps) ∧
      ∀ k, k ≠ s.key → r'.tests.get k = r.tests.get k := by
  induction ps generalizing r l with
  | nil =>
    simp only [searchLoop, Out.ok.injEq] at h
    subst h
    exact ⟨rfl, rfl, rfl, hl, ⟨l, hg, by simp [fileList]⟩, fun _ _ => rfl⟩
  | cons p ps ih =>
    simp only [searchLoop] at h
    obtain ⟨⟨c, t⟩, h1, h⟩ := (Out.bind_ok _ _ _).1 h
    obtain ⟨⟨r1, u⟩, h2, h⟩ := (Out.bind_ok _ _ _).1 h
    obtain ⟨r2, h3, h⟩ := (Out.bind_ok _ _ _).1 h
    have hpf := hps p List.mem_cons_self
    obtain ⟨rfl, hl1⟩ := localConfig_file ht hn hl hpf h1
    unfold findTests at h2
    dsimp only at h2
    rw [isFile_not_dir ht hpf] at h2
    simp only [Bool.false_eq_true, if_false, Out.ok.injEq, Prod.mk.injEq] at h2
    obtain ⟨rfl, rfl⟩ := h2
    unfold modifyTests at h3
    dsimp only at h3
    rw [hg] at h3
    simp only [Out.ok.injEq] at h3
    subst h3
    obtain ⟨g1, g2, g3, g4, ⟨l', g5, g6⟩, g7⟩ := ih (fun q hq => hps q (List.mem_cons_of_mem _ hq)) hl1
      (by dsimp only; rw [KMap.get_insert, if_pos rfl]) h
    refine ⟨g1, g2, g3, g4, ⟨l', g5, ?_⟩, ?_⟩
    · rw [g6, TestList.append_eq]
      dsimp only
      rw [List.append_assoc]
      congr 1
      unfold fileList
      rw [List.filter_cons]
      split
      · simp [TestList.pushBack, TestList.empty]
      · simp [TestList.empty]
    · intro k hk
      rw [g7 k hk]
      dsimp only
      rw [KMap.get_insert, if_neg hk]

/-- What holds after files of the suite `s`, whose paths in it are `done`, have been given. -/
structure FInv (d : Disk) (s : Suite) (done : List DPath) (r : Reg) : Prop where
  suite : r.suites.get s.key = some s
  alone : ∀ k, k ≠ s.key → r.tests.get k = none
  filt : ∃ l, r.filters[s.id]? = some l ∧ PSorted l ∧ ∀ p, p ∈ l ↔ p ∈ done
  cache : ∃ h, Built r.cache h ∧ Deep h ∧ (∃ x ∈ h, x.1 = absolute s.sourceDir ∧ x.2.1 = .dir) ∧ ∀ x ∈ h, x.2.2 = s.key
  locals : LInv d s.decl.config r.locals
  tests : ∃ l ps, r.tests.get s.key = some l ∧ l.tests = fileList d s ps ∧ PSorted ps ∧ ∀ p, p ∈ ps ↔ p ∈ done

/-- Loading the tests, once the search path of a file has been added. -/
theorem loadTests_files {d : Disk} (ht : Tidy d.top) (hn : NoLocal d) {load : Reg → DPath → Out Reg} {s : Suite} {r r' : Reg}
    {l0 : List DPath} {done : List DPath} {p : DPath} (hf0 : r.filters[s.id]? = some l0) (hs0 : PSorted l0) (hm0 : ∀ q, q ∈ l0 ↔ q ∈ done)
    (hp : d.isFile (s.sourceDir ++ p) = true) (hdone : ∀ q ∈ done, d.isFile (s.sourceDir ++ q) = true)
    (hsu : r.suites.get s.key = some s) (hal : ∀ k, k ≠ s.key → r.tests.get k = none)
    (hc : ∃ h, Built r.cache h ∧ Deep h ∧ (∃ x ∈ h, x.1 = absolute s.sourceDir ∧ x.2.1 = .dir) ∧ ∀ x ∈ h, x.2.2 = s.key)
    (hl : LInv d s.decl.config r.locals)
    (h : loadTests d load { r with filters := r.filters.set s.id (insertPath (r.filters[s.id]?.getD []) p) } s = .ok r') :
    FInv d s (p :: done) r' := by
  have hlen : s.id < r.filters.length := (List.getElem?_eq_some_iff.1 hf0).1
  unfold loadTests at h
  obtain ⟨r1, h1, h⟩ := (Out.bind_ok _ _ _).1 h
  unfold modifyTests at h1
  split at h1
  · cases h1
  rename_i l1 hl1
  simp only [Out.ok.injEq] at h1
  subst h1
  have hmem : ∀ q, q ∈ insertPath l0 p ↔ q ∈ p :: done := by
    intro q; rw [mem_insertPath, List.mem_cons, hm0]
  simp only [hf0, Option.getD_some, List.getElem?_set_self hlen] at h
  have hne : (insertPath l0 p).isEmpty = false := by
    have := (mem_insertPath l0 p p).2 (.inl rfl)
    cases hh : insertPath l0 p with
    | nil => rw [hh] at this; cases this
    | cons a b => rfl
  rw [hne] at h
  simp only [Bool.false_eq_true, if_false] at h
  obtain ⟨r2, h2, h⟩ := (Out.bind_ok _ _ _).1 h
  simp only [pure, Out.ok.injEq] at h
  subst h
  obtain ⟨g1, g2, g3, g4, ⟨l', g5, g6⟩, g7⟩ := searchLoop_files ht hn (insertPath l0 p) (by
    intro q hq
    rcases List.mem_cons.1 ((hmem q).1 hq) with rfl | hq
    · exact hp
    · exact hdone q hq) (by exact hl) (l := TestList.clear l1) (by rw [KMap.get_insert, if_pos rfl]) h2
  dsimp only at g1 g2 g3 g4 g7
  refine ⟨?_, ?_, ?_, ?_, g4, ?_⟩
  · dsimp only; rw [g2]; exact hsu
  · intro k hk
    dsimp only
    rw [g7 k hk, KMap.get_insert, if_neg hk]
    exact hal k hk
  · refine ⟨insertPath l0 p, ?_, hs0.insert p, hmem⟩
    dsimp only
    rw [List.getElem?_set_self]
    rw [g1]
    simp [hlen]
  · dsimp only; rw [g3]; exact hc
  · exact ⟨l', insertPath l0 p, g5, by simpa [TestList.clear] using g6, hs0.insert p, hmem⟩

/-- A suite directory above a file, at or below the working directory. -/
theorem searchAncestors_plain {d : Disk} (hp : Plain d) {f e : DPath} (hf : d.isFile f = true) (hn : Nearest d f e) (hc : d.cwd <+: e)
    {r r' : Reg} {found : Option Suite} (h : searchAncestors d f.dropLast (ancestors f.dropLast) r = .ok (r', found)) :
    ∃ s, found = some s ∧ loadWithoutCache d r (e ++ [SUITE]) = .ok (r', s) := by
  obtain ⟨_, hdir⟩ := isFile_parent hf
  have main : ∀ as : List DPath, (∀ a ∈ as, a <+: f.dropLast ∧ e <+: a) → e ∈ as → (as.Pairwise fun x y => y <+: x ∧ y ≠ x) →
      ∀ post, searchAncestors d f.dropLast (as ++ post) r = .ok (r', found) →
      ∃ s, found = some s ∧ loadWithoutCache d r (e ++ [SUITE]) = .ok (r', s) := by
    intro as
    induction as with
    | nil => intro _ h; cases h
    | cons a as ih =>
      intro ha he hpw post h
      obtain ⟨ha1, ha2⟩ := ha a List.mem_cons_self
      have hs := search_dir hp.tidy (isDir_prefix ha1 hdir) SUITE
      simp only [List.cons_append, searchAncestors] at h
      rw [hs] at h
      by_cases hae : a = e
      · subst hae
        rw [if_pos (show d.isFile (a ++ [SUITE]) = true from hn.2.1)] at h
        dsimp only at h
        obtain ⟨⟨r1, s1⟩, h1, h⟩ := (Out.bind_ok _ _ _).1 h
        obtain ⟨e1, e2⟩ := loadWithoutCache_suite h1
        have hsrc : s1.sourceDir = a := hp.own _ _ e2
        dsimp only at h
        rw [if_pos (by rw [hsrc]; exact ha1)] at h
        simp only [pure, Out.ok.injEq, Prod.mk.injEq] at h
        obtain ⟨rfl, rfl⟩ := h
        exact ⟨s1, rfl, h1⟩
      · have hns : d.isFile (a ++ [SUITE]) = false := by
          cases hh : d.isFile (a ++ [SUITE]) with
          | false => rfl
          | true =>
            have := hn.2.2 a ha1 hh
            exact absurd (this.eq_of_length_le ha2.length_le) hae
        rw [hns] at h
        simp only [Bool.false_eq_true, if_false] at h
        have hac : a ≠ d.cwd := by
          rintro rfl
          exact hae (hc.eq_of_length_le ha2.length_le)
        rw [if_neg hac] at h
        rcases List.mem_cons.1 he with rfl | he
        · exact absurd rfl hae
        · rw [List.pairwise_cons] at hpw
          exact ih (fun b hb => ha b (List.mem_cons_of_mem _ hb)) he hpw.2 post h
  have hea : e ∈ ancestors f.dropLast := (mem_ancestors _ _).2 hn.1
  obtain ⟨pre, post, hsplit⟩ := List.append_of_mem hea
  have hsp := ancestors_split hsplit
  have sorted : (pre ++ [e]).Pairwise fun x y => y <+: x ∧ y ≠ x := by
    have := ancestors_sorted f.dropLast
    rw [hsplit] at this
    refine this.sublist ?_
    simp
  refine main (pre ++ [e]) ?_ (by simp) sorted post (by rw [hsplit] at h; simpa using h)
  intro a ha
  rcases List.mem_append.1 ha with ha | ha
  · obtain ⟨h1, h2, _⟩ := (hsp.1 a).1 ha
    exact ⟨h2, h1⟩
  · simp only [List.mem_singleton] at ha
    subst ha
    exact ⟨hn.1, List.prefix_refl _⟩

theorem nearest_below {d : Disk} {f e : DPath} (hf : f ≠ []) (h : Nearest d f e) : ∃ p, p ≠ [] ∧ f = e ++ p := by
  obtain ⟨t, ht⟩ := h.1
  refine ⟨t ++ [f.getLast hf], by simp, ?_⟩
  rw [← List.append_assoc, ht, List.dropLast_append_getLast]

/-- The first file. -/
theorem loadFromPath_first {d : Disk} (hp : Plain d) (hn : NoLocal d) {n : Nat} {f e : DPath} (hf : d.isFile f = true)
    (hne : Nearest d f e) (hc : d.cwd <+: e) {r : Reg} (h : loadFromPath d n .empty f = .ok r) :
    ∃ s p, s.path = e ++ [SUITE] ∧ d.suite s.path = some s.decl ∧ s.sourceDir = e ∧ f = e ++ p ∧ FInv d s [p] r := by
  cases n with
  | zero => cases h
  | succ n =>
    obtain ⟨hfne, hdir⟩ := isFile_parent hf
    obtain ⟨p, hpne, hfp⟩ := nearest_below hfne hne
    simp only [loadFromPath] at h
    split at h
    case isFalse => cases h
    obtain ⟨⟨r1, found⟩, h1, h⟩ := (Out.bind_ok _ _ _).1 h
    unfold findNearest at h1
    rw [isFile_not_dir hp.tidy hf] at h1
    simp only [Bool.false_eq_true, if_false] at h1
    unfold findContaining at h1
    have hce := (cache_empty (V := Key) d.fs (absolute f)).2
    have hce' : PathTree.nearestAncestor d.fs Reg.empty.cache (absolute f) = .ok none := hce
    rw [hce'] at h1
    simp only [ofP, Out.bind_eq, Out.bind] at h1
    rw [isFile_not_dir hp.tidy hf] at h1
    simp only [Bool.false_eq_true, if_false] at h1
    obtain ⟨s, rfl, h2⟩ := searchAncestors_plain hp hf hne hc h1
    obtain ⟨e1, e2⟩ := loadWithoutCache_suite h2
    have hsrc : s.sourceDir = e := hp.own _ _ e2
    dsimp only at h
    rw [show strip s.sourceDir f = some p from (strip_iff _ _ _).2 (by rw [hsrc]; exact hfp)] at h
    simp only [ne_eq, hpne, not_false_eq_true, if_true] at h
    refine ⟨s, p, e1, by rw [e1]; exact e2, hsrc, hfp, ?_⟩
    unfold loadWithoutCache at h2
    rw [e2] at h2
    dsimp only at h2
    obtain ⟨c1, h3, h2⟩ := (Out.bind_ok _ _ _).1 h2
    obtain ⟨c2, h4, h2⟩ := (Out.bind_ok _ _ _).1 h2
    simp only [pure, Out.ok.injEq, Prod.mk.injEq] at h2
    obtain ⟨rfl, hs⟩ := h2
    rw [hs] at h3 h4 h
    have hid : s.id = 0 := by rw [← hs]; rfl
    refine loadTests_files hp.tidy hn (l0 := []) (done := []) ?_ ?_ ?_ ?_ ?_ ?_ ?_ ?_ ?_ h
    · dsimp only [Reg.empty]; rw [hid]; rfl
    · exact List.Pairwise.nil
    · intro q; simp
    · rw [hsrc, ← hfp]; exact hf
    · intro q hq; cases hq
    · dsimp only
      rw [suiteSet_get_insert, if_pos rfl]
      rfl
    · intro k hk
      dsimp only
      rw [KMap.get_insert, if_neg hk]
      rfl
    · have hb1 := cacheInsert_built (Built.empty) h3
      have hb2 := cacheInsert_built hb1 h4
      refine ⟨_, hb2, ?_, ?_, ?_⟩
      · intro x hx
        simp only [List.nil_append, List.cons_append, List.mem_cons, List.not_mem_nil, or_false] at hx
        rcases hx with rfl | rfl
        · exact deep_entry (.inl (by simp))
        · rw [hsrc]; exact deep_entry (.inr (isFile_dir hne.2.1))
      · refine ⟨(absolute s.sourceDir, (canon d.fs (absolute s.sourceDir)).2, s.key), by simp, rfl, ?_⟩
        rw [hsrc]
        exact canon_dir d e (isFile_dir hne.2.1)
      · intro x hx
        simp only [List.nil_append, List.cons_append, List.mem_cons, List.not_mem_nil, or_false] at hx
        rcases hx with rfl | rfl <;> rfl
    · refine ⟨[], .empty, ?_, ?_⟩
      · intro x hx; cases hx
      · intro x hx; cases hx

/-- The next file. -/
theorem loadFromPath_next {d : Disk} (hp : Plain d) (hn : NoLocal d) {n : Nat} {s : Suite} {done : List DPath} {p : DPath} (hpne : p ≠ [])
    (hf : d.isFile (s.sourceDir ++ p) = true) (hdone : ∀ q ∈ done, d.isFile (s.sourceDir ++ q) = true) {r r' : Reg} (hi : FInv d s done r)
    (h : loadFromPath d n r (s.sourceDir ++ p) = .ok r') : FInv d s (p :: done) r' := by
  cases n with
  | zero => cases h
  | succ n =>
    simp only [loadFromPath] at h
    split at h
    case isFalse => cases h
    obtain ⟨⟨r1, found⟩, h1, h⟩ := (Out.bind_ok _ _ _).1 h
    unfold findNearest at h1
    rw [isFile_not_dir hp.tidy hf] at h1
    simp only [Bool.false_eq_true, if_false] at h1
    unfold findContaining at h1
    obtain ⟨hh, hb, hd, ⟨x0, hx0, hx1, hx2⟩, hx⟩ := hi.cache
    obtain ⟨w, hw1, hw2⟩ := PathTree.nearest_is_longest_partial d.fs r.cache hh (absolute (s.sourceDir ++ p)) hb hd
      (by rw [canon_absolute]; exact absolute_ne _)
    rw [canon_absolute] at hw2
    have hab : Above (absolute s.sourceDir) (absolute (s.sourceDir ++ p)) :=
      ⟨absolute_ne _, p.map Comp.normal, by simpa using hpne, absolute_append _ _⟩
    have hdir : IsDir hh (absolute s.sourceDir) := ⟨⟨x0, hx0, hx1⟩, .inl ⟨x0, hx0, hx1, hx2⟩⟩
    rw [hw1] at h1
    cases w with
    | none => exact absurd hdir (hw2 _ hab)
    | some qk =>
      obtain ⟨q, k⟩ := qk
      obtain ⟨_, _, hlast, _⟩ := hw2
      have hk : k = s.key := by
        unfold lastAt at hlast
        obtain ⟨y, hy, hyk⟩ := Option.map_eq_some_iff.1 hlast
        have := List.mem_of_find?_eq_some hy
        rw [List.mem_reverse] at this
        rw [← hyk, hx y this]
      subst hk
      simp only [ofP, Out.bind_eq, Out.bind, getSuite, hi.suite, pure, Out.ok.injEq, Prod.mk.injEq] at h1
      obtain ⟨rfl, rfl⟩ := h1
      dsimp only at h
      rw [strip_append] at h
      simp only [ne_eq, hpne, not_false_eq_true, if_true] at h
      obtain ⟨l0, f1, f2, f3⟩ := hi.filt
      exact loadTests_files hp.tidy hn f1 f2 f3 hf hdone hi.suite hi.alone hi.cache hi.locals h

theorem loadInputs_files {d : Disk} (hp : Plain d) (hn : NoLocal d) (n : Nat) {s : Suite} (ps : List DPath) (hps : ∀ p ∈ ps, p ≠ [])
    (hf : ∀ p ∈ ps, d.isFile (s.sourceDir ++ p) = true) (done : List DPath) (hdone : ∀ q ∈ done, d.isFile (s.sourceDir ++ q) = true)
    {r r' : Reg} (hi : FInv d s done r) (h : loadInputs d n (ps.map fun p => some (s.sourceDir ++ p)) r = .ok r') :
    FInv d s (ps.reverse ++ done) r' := by
  induction ps generalizing r done with
  | nil => simp only [List.map_nil, loadInputs, Out.ok.injEq] at h; subst h; exact hi
  | cons p ps ih =>
    simp only [List.map_cons, loadInputs] at h
    obtain ⟨r1, h1, h⟩ := (Out.bind_ok _ _ _).1 h
    have hi1 := loadFromPath_next hp hn (hps p List.mem_cons_self) (hf p List.mem_cons_self) hdone hi h1
    have := ih (fun q hq => hps q (List.mem_cons_of_mem _ hq)) (fun q hq => hf q (List.mem_cons_of_mem _ hq)) (p :: done)
      (fun q hq => by
        rcases List.mem_cons.1 hq with rfl | hq
        · exact hf q List.mem_cons_self
        · exact hdone q hq) hi1 h
    simpa using this

end Litcheck.Registry
