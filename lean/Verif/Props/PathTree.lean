import Verif.Proofs.PathIter
import Verif.Spec.PathTree
import Mathlib.Data.List.Induction

/-!
# Properties of the path tree (C32, C33, C34)
-/

namespace Litcheck.PathTree

open Litcheck.PSpec

variable {V : Type}

/-- The trees that calls of `try_insert` lead to, with what was accepted on the way. What the file system answers may
change from call to call. -/
inductive Built : PathTree V → Hist V → Prop
  | empty : Built empty []
  | accepted {t t' : PathTree V} {h : Hist V} (fs : FPath → Option (FPath × Ty)) (path : FPath) (v : V) :
      Built t h → tryInsert fs t path v = .ok (.ok (), t') → Built t' (h ++ [((canon fs path).1, (canon fs path).2, v)])
  | rejected {t t' : PathTree V} {h : Hist V} (fs : FPath → Option (FPath × Ty)) (path : FPath) (v : V) (e : InsertErr) :
      Built t h → tryInsert fs t path v = .ok (.error e, t') → Built t' h

/-- The root directory, when inserted, was known to be a directory. -/
def RootIsDir (h : Hist V) : Prop := ∀ e ∈ h, e.1 = [.root] → e.2.1 = .dir

/-- Every path inserted has two components, or was known to be a directory. -/
def Deep (h : Hist V) : Prop := ∀ e ∈ h, 2 ≤ e.1.length ∨ e.2.1 = .dir

theorem lastAt_snoc (h : Hist V) (p q : FPath) (ty : Ty) (v : V) :
    lastAt (h ++ [(p, ty, v)]) q = if q = p then some v else lastAt h q := by
  unfold lastAt
  rw [List.reverse_append, List.reverse_singleton, List.singleton_append, List.find?_cons]
  by_cases hq : p = q
  · simp [hq]
  · rw [if_neg (fun h => hq h.symm)]
    simp [hq]

theorem registered_iff (h : Hist V) (p : FPath) : Registered h p ↔ (lastAt h p).isSome = true := by
  unfold Registered lastAt
  rw [Option.isSome_map, List.find?_isSome]
  simp

/-- What a run of `try_insert` does, spelt out. -/
theorem tryInsert_ok {fs : FPath → Option (FPath × Ty)} {t t' : PathTree V} {path : FPath} {v : V}
    (h : tryInsert fs t path v = .ok (.ok (), t')) :
    insertRoots t.roots (canon fs path).1 (canon fs path).2 t.data.length = .ok (.ok t'.roots) ∧ t'.data = t.data ++ [v] := by
  unfold tryInsert at h
  split at h
  · rename_i r hr
    simp only [Except.ok.injEq, Prod.mk.injEq, true_and] at h
    subst h
    exact ⟨hr, rfl⟩
  · simp at h
  · cases h

theorem tryInsert_error {fs : FPath → Option (FPath × Ty)} {t t' : PathTree V} {path : FPath} {v : V} {e : InsertErr}
    (h : tryInsert fs t path v = .ok (.error e, t')) : t'.roots = t.roots ∧ t'.data = t.data ++ [v] := by
  unfold tryInsert at h
  split at h
  · simp at h
  · simp only [Except.ok.injEq, Prod.mk.injEq] at h
    obtain ⟨_, h⟩ := h
    subst h
    exact ⟨rfl, rfl⟩
  · cases h

theorem insertRoots_ne {rs rs' : List Node} {p : FPath} {ty : Ty} {k : Nat} (h : insertRoots rs p ty k = .ok (.ok rs')) :
    p ≠ [] := by
  rintro rfl
  simp [insertRoots] at h

/-- The invariant behind C32. -/
theorem Built.inv {t : PathTree V} {h : Hist V} (hb : Built t h) (hr : RootIsDir h) :
    Roots t.roots ∧ (∀ q k, q ≠ [] → getRoots t.roots q = some k → k < t.data.length) ∧
      ∀ q, q ≠ [] → (getRoots t.roots q).bind (t.data[·]?) = lastAt h q := by
  induction hb with
  | empty =>
    refine ⟨.inl ⟨by simp [PathTree.empty], by simp [PathTree.empty], by simp [Heads, PathTree.empty]⟩, ?_, ?_⟩
    · intro q k _ h
      simp [PathTree.empty, getRoots] at h
    · intro q _
      rfl
  | @accepted t t' h fs path v hb hi ih =>
    obtain ⟨i1, i2, i3⟩ := ih (fun e he => hr e (by simp [he]))
    obtain ⟨h1, h2⟩ := tryInsert_ok hi
    have hroot : (canon fs path).1 = [.root] → (canon fs path).2 = .dir := hr (_, _, v) (by simp)
    obtain ⟨s1, s2⟩ := insertRoots_spec _ _ _ _ _ i1 hroot h1
    refine ⟨s1, ?_, ?_⟩
    · intro q k hq hk
      rw [s2 q hq] at hk
      rw [h2, List.length_append, List.length_singleton]
      split at hk
      · cases hk; omega
      · have := i2 q k hq hk; omega
    · intro q hq
      rw [s2 q hq, lastAt_snoc, h2]
      by_cases hp : q = (canon fs path).1
      · simp [hp]
      · rw [if_neg hp, if_neg hp, ← i3 q hq]
        cases hg : getRoots t.roots q with
        | none => rfl
        | some k =>
          simp only [Option.bind_some]
          rw [List.getElem?_append_left (i2 q k hq hg)]
  | @rejected t t' h fs path v e hb hi ih =>
    obtain ⟨i1, i2, i3⟩ := ih hr
    obtain ⟨h1, h2⟩ := tryInsert_error hi
    rw [h1, h2]
    refine ⟨i1, ?_, ?_⟩
    · intro q k hq hk
      have := i2 q k hq hk
      rw [List.length_append, List.length_singleton]; omega
    · intro q hq
      rw [← i3 q hq]
      cases hg : getRoots t.roots q with
      | none => rfl
      | some k =>
        simp only [Option.bind_some]
        rw [List.getElem?_append_left (i2 q k hq hg)]

/-- C32: whatever was inserted, accepted or refused on the way, looking up a path gives the value accepted last for its
canonical form, and `contains` says whether there is one. Missing from the full property: the root directory may only
be inserted as a known directory, and the path asked about must not canonicalise to nothing. -/
theorem get_is_last_partial (fs : FPath → Option (FPath × Ty)) (t : PathTree V) (h : Hist V) (q : FPath)
    (hb : Built t h) (hr : RootIsDir h) (hq : (canon fs q).1 ≠ []) :
    get fs t q = .ok (lastAt h (canon fs q).1) ∧ contains fs t q = (lastAt h (canon fs q).1).isSome := by
  obtain ⟨_, i2, i3⟩ := hb.inv hr
  have e := i3 _ hq
  constructor
  · unfold get
    rw [if_neg (fun h => hq h.1), ← e]
    cases hg : getRoots t.roots (canon fs q).1 with
    | none => rfl
    | some k =>
      have := i2 _ k hq hg
      simp only [Option.bind_some, List.getElem?_eq_getElem this]
  · unfold contains
    rw [containsRoots_eq _ _ hq, ← e]
    cases hg : getRoots t.roots (canon fs q).1 with
    | none => rfl
    | some k =>
      have := i2 _ k hq hg
      simp only [Option.bind_some, List.getElem?_eq_getElem this]
      rfl

/-- Later insertions never lose an entry, nor change it, unless they are for the same canonical path. -/
theorem insert_keeps_others_partial (fs : FPath → Option (FPath × Ty)) (t t' : PathTree V) (h : Hist V) (p q : FPath)
    (v : V) (r : Except InsertErr Unit) (hb : Built t h) (hr : RootIsDir h)
    (hroot : (canon fs p).1 = [.root] → (canon fs p).2 = .dir) (hq : (canon fs q).1 ≠ [])
    (hi : tryInsert fs t p v = .ok (r, t')) :
    get fs t' q = (if r = .ok () ∧ (canon fs q).1 = (canon fs p).1 then .ok (some v) else get fs t q) := by
  rw [(get_is_last_partial fs t h q hb hr hq).1]
  cases r with
  | ok u =>
    have hb' := Built.accepted fs p v hb hi
    have hr' : RootIsDir (h ++ [((canon fs p).1, (canon fs p).2, v)]) := by
      intro e he
      rcases List.mem_append.1 he with he | he
      · exact hr e he
      · rw [List.mem_singleton] at he
        subst he
        exact hroot
    rw [(get_is_last_partial fs t' _ q hb' hr' hq).1, lastAt_snoc]
    by_cases hp : (canon fs q).1 = (canon fs p).1
    · simp [hp]
    · simp [hp]
  | error e =>
    rw [(get_is_last_partial fs t' h q (hb.rejected fs p v e hi) hr hq).1]
    simp

/-! Witnesses and refutations -/

/-- A file system with nothing in it. -/
def noFs : FPath → Option (FPath × Ty) := fun _ => none

/-- A file system where every path exists and is a directory. -/
def dirFs : FPath → Option (FPath × Ty) := fun p => some (p, .dir)

def n (s : String) : Comp := .normal s.toList

/-- The tree after some insertions, none of which may fail. -/
def inserts (fs : FPath → Option (FPath × Ty)) : PathTree V → List (FPath × V) → Option (PathTree V)
  | t, [] => some t
  | t, (p, v) :: l =>
    match tryInsert fs t p v with
    | .ok (.ok (), t') => inserts fs t' l
    | _ => none

theorem inserts_built (fs : FPath → Option (FPath × Ty)) (l : List (FPath × V)) (t t' : PathTree V) (h : Hist V)
    (hb : Built t h) (hi : inserts fs t l = some t') :
    Built t' (h ++ l.map fun e => ((canon fs e.1).1, (canon fs e.1).2, e.2)) := by
  induction l generalizing t h with
  | nil =>
    simp only [inserts, Option.some.injEq] at hi
    subst hi
    simpa using hb
  | cons a l ih =>
    obtain ⟨p, v⟩ := a
    rw [inserts] at hi
    split at hi
    · rename_i t1 h1
      have := ih t1 _ (hb.accepted fs p v h1) hi
      simpa using this
    · cases hi

/-- Inserting from scratch is a history, and what can be observed of it can be computed. -/
theorem inserts_obs {fs : FPath → Option (FPath × Ty)} (l : List (FPath × V)) {β : Type} (f : PathTree V → β) {b : β}
    (h : (inserts fs (empty : PathTree V) l).map f = some b) :
    ∃ t : PathTree V, Built t (l.map fun e => ((canon fs e.1).1, (canon fs e.1).2, e.2)) ∧ f t = b := by
  rw [Option.map_eq_some_iff] at h
  obtain ⟨t, ht, h⟩ := h
  have := inserts_built fs l _ t [] .empty ht
  exact ⟨t, by simpa using this, h⟩

/-- A file system where `/a` is a directory and nothing else exists. -/
def oneFs : FPath → Option (FPath × Ty) := fun p => if p = [.root, n "a"] then some (p, .dir) else none

/-- The hypotheses of `get_is_last_partial` are met by a tree of four entries that split one another. -/
example : ∃ t : PathTree Nat, ∃ h : Hist Nat, Built t h ∧ RootIsDir h ∧ h.length = 4 ∧
    [[.root, n "a", n "b"], [.root, n "a"], [.root, n "a", n "c", n "d"], [.root, n "a", n "c"]].map (get oneFs t) =
      [.ok (some 4), .ok (some 3), .ok (some 2), .ok none] := by
  obtain ⟨t, ht, h⟩ := inserts_obs (fs := oneFs) [([.root, n "a", n "b"], 1), ([.root, n "a", n "c", n "d"], 2),
      ([.root, n "a"], 3), ([.root, n "a", .cur, n "x", .parent, n "b"], 4)]
      (fun t => [[.root, n "a", n "b"], [.root, n "a"], [.root, n "a", n "c", n "d"], [.root, n "a", n "c"]].map (get oneFs t))
      rfl
  refine ⟨t, _, ht, ?_, rfl, h⟩
  unfold RootIsDir
  decide +kernel

/-- C32 refuted without its first hypothesis: `/x/..` for an `/x` that does not exist canonicalises to `/` of unknown
kind; the insertion is accepted and the entry is not found. -/
theorem get_is_last_refuted_root : ∃ t : PathTree Nat, ∃ h : Hist Nat, Built t h ∧ lastAt h [.root] = some 7 ∧
    get noFs t [.root] = .ok none := by
  obtain ⟨t, ht, h⟩ := inserts_obs (fs := noFs) [([.root, n "x", .parent], 7)] (fun t => get noFs t [.root])
    (b := .ok none) rfl
  exact ⟨t, _, ht, rfl, h⟩

/-- C32 refuted without its second hypothesis: a path that canonicalises to nothing, such as the working directory's
child's parent, cannot be inserted or, once there is an entry, asked about: both panic. -/
theorem get_is_last_refuted_empty : tryInsert noFs (empty : PathTree Nat) [n "x", .parent] 7 = .error .assertFailed ∧
    ∃ t : PathTree Nat, ∃ h : Hist Nat, Built t h ∧ RootIsDir h ∧ get noFs t [n "x", .parent] = .error .assertFailed := by
  refine ⟨rfl, ?_⟩
  obtain ⟨t, ht, h⟩ := inserts_obs (fs := noFs) [([n "y"], 7)] (fun t => get noFs t [n "x", .parent])
    (b := .error .assertFailed) rfl
  refine ⟨t, _, ht, ?_, h⟩
  unfold RootIsDir
  decide +kernel

/-- An insertion refused although nothing is in its way: a path of unknown kind that has become a branch cannot be
inserted again to replace its value, contrary to the documentation of `try_insert`; `insert` panics. -/
theorem reinsert_refused : ∃ t : PathTree Nat, ∃ h : Hist Nat, Built t h ∧ RootIsDir h ∧
    get noFs t [.root, n "a"] = .ok (some 1) ∧
    (tryInsert noFs t [.root, n "a"] 3).map (·.1) = .ok (.error .pathTypeConflict) := by
  obtain ⟨t, ht, h⟩ := inserts_obs (fs := noFs) [([.root, n "a"], 1), ([.root, n "a", n "b"], 2)]
    (fun t => (get noFs t [.root, n "a"], (tryInsert noFs t [.root, n "a"] 3).map (·.1)))
    (b := (.ok (some 1), .ok (.error .pathTypeConflict))) rfl
  rw [Prod.mk.injEq] at h
  refine ⟨t, _, ht, ?_, h⟩
  unfold RootIsDir
  decide +kernel

/-! ## C33: nearest ancestors -/

theorem registered_snoc (h : Hist V) (p q : FPath) (ty : Ty) (v : V) :
    Registered (h ++ [(p, ty, v)]) q ↔ q = p ∨ Registered h q := by
  unfold Registered
  constructor
  · rintro ⟨e, he, rfl⟩
    rcases List.mem_append.1 he with he | he
    · exact .inr ⟨e, he, rfl⟩
    · rw [List.mem_singleton] at he
      subst he
      exact .inl rfl
  · rintro (rfl | ⟨e, he, rfl⟩)
    · exact ⟨(q, ty, v), by simp, rfl⟩
    · exact ⟨e, by simp [he], rfl⟩

theorem isDir_snoc (h : Hist V) (p q : FPath) (ty : Ty) (v : V) (hq : q ≠ []) :
    IsDir (h ++ [(p, ty, v)]) q ↔
      (q = p ∧ (ty = .dir ∨ (∃ e ∈ h, e.1 = p ∧ e.2.1 = .dir) ∨ ∃ r, Above p r ∧ Registered h r)) ∨
      (q ≠ p ∧ (IsDir h q ∨ (Registered h q ∧ Above q p))) := by
  have hself : ∀ s : FPath, ¬ Above s s := by
    rintro s ⟨_, r, hr, e⟩
    exact hr (by simpa using e)
  by_cases hp : q = p
  · subst hp
    unfold IsDir
    simp only [registered_snoc, true_or, true_and, ne_eq, not_true_eq_false, false_and, or_false]
    constructor
    · rintro (⟨e, he, h1, h2⟩ | ⟨r, h1, h2⟩)
      · rcases List.mem_append.1 he with he | he
        · exact .inr (.inl ⟨e, he, h1, h2⟩)
        · rw [List.mem_singleton] at he
          subst he
          exact .inl h2
      · rcases h2 with rfl | h2
        · exact absurd h1 (hself _)
        · exact .inr (.inr ⟨r, h1, h2⟩)
    · rintro (h1 | ⟨e, he, h1⟩ | ⟨r, h1, h2⟩)
      · exact .inl ⟨(q, ty, v), by simp, rfl, h1⟩
      · exact .inl ⟨e, by simp [he], h1⟩
      · exact .inr ⟨r, h1, .inr h2⟩
  · unfold IsDir
    simp only [registered_snoc, hp, false_or, false_and, ne_eq, not_false_eq_true, true_and]
    constructor
    · rintro ⟨h0, ⟨e, he, h1, h2⟩ | ⟨r, h1, h2⟩⟩
      · rcases List.mem_append.1 he with he | he
        · exact .inl ⟨h0, .inl ⟨e, he, h1, h2⟩⟩
        · rw [List.mem_singleton] at he
          subst he
          exact absurd h1.symm hp
      · rcases h2 with rfl | h2
        · exact .inr ⟨h0, h1⟩
        · exact .inl ⟨h0, .inr ⟨r, h1, h2⟩⟩
    · rintro (⟨h0, ⟨e, he, h1⟩ | ⟨r, h1, h2⟩⟩ | ⟨h0, h1⟩)
      · exact ⟨h0, .inl ⟨e, by simp [he], h1⟩⟩
      · exact ⟨h0, .inr ⟨r, h1, .inr h2⟩⟩
      · exact ⟨h0, .inr ⟨p, h1, .inl rfl⟩⟩

theorem newRoot_ne {p : FPath} {ty : Ty} {k : Nat} (hp : p ≠ []) (h : 2 ≤ p.length ∨ ty = .dir) : (newRoot p ty k).comp ≠ [] := by
  unfold newRoot
  cases ty with
  | dir => exact hp
  | unknown =>
    simp only [reduceCtorEq, or_false] at h
    simp only [Node.comp]
    split
    · exact hp
    · intro h'
      have := congrArg List.length h'
      simp at this; omega
  | file =>
    simp only [reduceCtorEq, or_false] at h
    simp only [Node.comp]
    split
    · exact hp
    · intro h'
      have := congrArg List.length h'
      simp at this; omega

theorem insertRoots_wfl {rs rs' : List Node} {p : FPath} {ty : Ty} {k : Nat} (hr : WFL rs)
    (hd : 2 ≤ p.length ∨ ty = .dir) (h : insertRoots rs p ty k = .ok (.ok rs')) : WFL rs' := by
  have hp := insertRoots_ne h
  unfold insertRoots at h
  rw [if_neg hp] at h
  cases hf : insertFirst rs p ty k with
  | none =>
    rw [hf] at h
    simp only [Except.ok.injEq] at h
    have hno := insertFirst_none rs p ty k hf
    have hroot : p = [.root] → ty = .dir := by
      rintro rfl
      simpa using hd
    obtain ⟨hw, _, hc⟩ := newRoot_spec p ty k hp hroot
    have hc0 : (newRoot p ty k).comp ≠ [] := newRoot_ne hp hd
    have hhd := hc.resolve_left hc0
    have hwl0 : WFL (newRoot p ty k :: rs) := by
      refine ⟨?_, ?_, ?_⟩
      · intro n hm
        rcases List.mem_cons.1 hm with rfl | hm
        · exact hw
        · exact hr.wf n hm
      · intro n hm
        rcases List.mem_cons.1 hm with rfl | hm
        · exact hc0
        · exact hr.ne n hm
      · unfold Heads
        simp only [List.map_cons, List.nodup_cons]
        refine ⟨?_, hr.heads⟩
        intro hm
        obtain ⟨n, hm, he⟩ := List.mem_map.1 hm
        have := hno n hm
        rw [(hasCommonPrefix_iff _ _ hp).2 (.inr (he.trans hhd))] at this
        cases this
    refine hwl0.perm ?_
    rw [← h]
    exact (List.perm_append_singleton _ _).symm.trans (sortNodes_perm _).symm
  | some x =>
    rw [hf] at h
    cases x with
    | error e => simp only [Except.ok.injEq, reduceCtorEq] at h
    | ok ns' =>
      simp only [Except.ok.injEq] at h
      obtain ⟨w1, _, _⟩ := insertFirst_spec rs p ty k ns' hr hp hf
      refine w1.perm ?_
      rw [← h]
      split
      · exact (sortNodes_perm _).symm
      · exact .refl _

theorem Deep.root {h : Hist V} (hd : Deep h) : RootIsDir h := by
  intro e he h1
  rcases hd e he with h2 | h2
  · rw [h1] at h2; simp at h2
  · exact h2

/-- The invariant behind C33. -/
theorem Built.dirs {t : PathTree V} {h : Hist V} (hb : Built t h) (hd : Deep h) :
    WFL t.roots ∧ ∀ q, q ≠ [] → ((∃ k, lookL t.roots q = some (true, some k)) ↔ IsDir h q) := by
  induction hb with
  | empty =>
    refine ⟨⟨by simp [PathTree.empty], by simp [PathTree.empty], by simp [Heads, PathTree.empty]⟩, ?_⟩
    intro q _
    constructor
    · rintro ⟨k, hk⟩
      simp [PathTree.empty, lookL, getFirst] at hk
    · rintro ⟨⟨e, he, _⟩, _⟩
      cases he
  | @rejected t t' h fs path v e hb hi ih =>
    rw [(tryInsert_error hi).1]
    exact ih hd
  | @accepted t t' h fs path v hb hi ih =>
    have hd0 : Deep h := fun e he => hd e (by simp [he])
    obtain ⟨iw, i⟩ := ih hd0
    obtain ⟨h1, _⟩ := tryInsert_ok hi
    have hp := insertRoots_ne h1
    have hdp : 2 ≤ (canon fs path).1.length ∨ (canon fs path).2 = .dir := hd (_, _, v) (by simp)
    have hroot : (canon fs path).1 = [.root] → (canon fs path).2 = .dir := hd.root (_, _, v) (by simp)
    have w' := insertRoots_wfl iw hdp h1
    have hins := insertRoots_ins _ _ _ _ _ iw hroot h1 w'
    -- what is registered has data
    have reg : ∀ q, q ≠ [] → (Registered h q ↔ ∃ b k, lookL t.roots q = some (b, some k)) := by
      intro q hq
      obtain ⟨_, j2, j3⟩ := hb.inv hd0.root
      rw [registered_iff, ← j3 q hq]
      have e : getRoots t.roots q = (lookL t.roots q).bind (·.2) := by
        rw [getRoots_eq _ _ hq, findSome_wfl iw hq]
      constructor
      · intro hs
        cases hx : lookL t.roots q with
        | none => rw [e, hx] at hs; cases hs
        | some x =>
          obtain ⟨b, d⟩ := x
          cases d with
          | none => rw [e, hx] at hs; cases hs
          | some k => exact ⟨b, k, rfl⟩
      · rintro ⟨b, k, hx⟩
        have ek : getRoots t.roots q = some k := by rw [e, hx]; rfl
        rw [ek]
        simp only [Option.bind_some, List.getElem?_eq_getElem (j2 q k hq ek)]
        rfl
    refine ⟨w', ?_⟩
    intro q hq
    rw [isDir_snoc _ _ _ _ _ hq]
    by_cases hqp : q = (canon fs path).1
    · simp only [hqp, true_and, ne_eq, not_true_eq_false, false_and, or_false]
      obtain ⟨b, e1, e2, e3, e4⟩ := hins.entry
      constructor
      · rintro ⟨k, hk⟩
        rw [e1] at hk
        have hb1 : b = true := by
          have := congrArg (·.map Prod.fst) hk
          simpa using this
        rcases e4 hb1 with h5 | ⟨r, b', k', hr, h5⟩
        · exact .inl h5
        · exact .inr (.inr ⟨_, ⟨hp, r, hr, rfl⟩, (reg _ (by simp [hp])).2 ⟨b', k', h5⟩⟩)
      · intro hh
        refine ⟨t.data.length, ?_⟩
        rw [e1]
        cases hbb : b with
        | true => rfl
        | false =>
          exfalso
          subst hbb
          rcases hh with h5 | ⟨e, he, h5, h6⟩ | ⟨r, ⟨_, s, hs, rfl⟩, h5⟩
          · cases e2 h5
          · obtain ⟨k, hk⟩ := (i _ hp).2 ⟨⟨e, he, h5⟩, .inl ⟨e, he, h5, h6⟩⟩
            cases e3 _ hk
          · obtain ⟨b', k', hk⟩ := (reg _ (by simp [hp])).1 h5
            have h7 := leafL_below _ w' _ s _ hp hs e1
            rw [hins.other _ (by simp [hp]) (by simpa using hs) ?_, hk] at h7
            · cases h7
            · intro r hr
              have := congrArg List.length hr
              simp only [List.length_append] at this
              have := List.length_pos_of_ne_nil hs
              omega
    · simp only [hqp, false_and, ne_eq, not_false_eq_true, true_and, false_or]
      by_cases hpre : ∃ r, (canon fs path).1 = q ++ r
      · obtain ⟨r, hr⟩ := hpre
        have hrn : r ≠ [] := by
          rintro rfl
          exact hqp (by simpa using hr.symm)
        have hab : Above q (canon fs path).1 := ⟨hq, r, hrn, hr⟩
        constructor
        · rintro ⟨k, hk⟩
          right
          refine ⟨?_, hab⟩
          rw [reg q hq]
          rcases hins.above q r hq hrn hr with h5 | ⟨_, h5⟩
          · rw [h5] at hk
            rw [Option.map_eq_some_iff] at hk
            obtain ⟨⟨b, d⟩, hx, hx2⟩ := hk
            simp only [Prod.mk.injEq, true_and] at hx2
            exact ⟨b, k, by rw [hx, hx2]⟩
          · rw [h5] at hk
            simp at hk
        · intro hh
          have hreg : Registered h q := by
            rcases hh with hh | hh
            · exact hh.1
            · exact hh.1
          obtain ⟨b, k, hx⟩ := (reg q hq).1 hreg
          refine ⟨k, ?_⟩
          rcases hins.above q r hq hrn hr with h5 | ⟨h5, _⟩
          · rw [h5, hx]; rfl
          · rw [h5] at hx; cases hx
      · have hpre : ∀ r, (canon fs path).1 ≠ q ++ r := fun r hr => hpre ⟨r, hr⟩
        rw [hins.other q hq hqp hpre, i q hq]
        constructor
        · exact .inl
        · rintro (hh | ⟨_, _, r, _, hr⟩)
          · exact hh
          · exact absurd hr (hpre r)

/-- C33: the nearest ancestor is the longest registered directory strictly above the path, with its latest value; and
when there is none, nothing is returned. Missing from the full property: histories that insert a path of one component
(`x`, relative, or `/`) not known to be a directory. -/
theorem nearest_is_longest_partial (fs : FPath → Option (FPath × Ty)) (t : PathTree V) (h : Hist V) (q : FPath)
    (hb : Built t h) (hd : Deep h) (hq : (canon fs q).1 ≠ []) :
    ∃ r, nearestAncestor fs t q = .ok r ∧ IsNearest h (canon fs q).1 r := by
  obtain ⟨hw, hdir⟩ := hb.dirs hd
  obtain ⟨_, j2, j3⟩ := hb.inv hd.root
  unfold nearestAncestor
  rw [if_neg (fun h => hq h.1), nearestRoots_eq _ _ hw hq]
  generalize (canon fs q).1 = p at hq
  rcases nearestFirst_spec t.roots p [] none hw hq with ⟨s, k, h1, h2, h3, h4⟩ | ⟨h1, h2⟩
  · rw [h4]
    have ek : getRoots t.roots s = some k := by
      rw [getRoots_eq _ _ h1.1, findSome_wfl hw h1.1, h2]; rfl
    have hlt := j2 s k h1.1 ek
    simp only [List.nil_append, List.getElem?_eq_getElem hlt]
    refine ⟨_, rfl, h1, (hdir s h1.1).1 ⟨k, h2⟩, ?_, ?_⟩
    · rw [← j3 s h1.1, ek]
      simp only [Option.bind_some, List.getElem?_eq_getElem hlt]
    · intro p' ha hd'
      obtain ⟨k', hk'⟩ := (hdir p' ha.1).2 hd'
      exact h3 p' k' ha hk'
  · rw [h2]
    refine ⟨none, rfl, ?_⟩
    intro p' ha hd'
    obtain ⟨k', hk'⟩ := (hdir p' ha.1).2 hd'
    exact h1 p' k' ha hk'

/-- The hypotheses are met by a tree with two nested directories. -/
example : ∃ t : PathTree Nat, ∃ h : Hist Nat, Built t h ∧ Deep h ∧
    [[.root, n "a", n "b", n "c", n "d"], [.root, n "a", n "x"], [.root, n "a"]].map (nearestAncestor dirFs t) =
      [.ok (some ([.root, n "a", n "b"], 2)), .ok (some ([.root, n "a"], 1)), .ok none] := by
  obtain ⟨t, ht, h⟩ := inserts_obs (fs := dirFs) [([.root, n "a"], 1), ([.root, n "a", n "b"], 2), ([.root, n "c"], 3)]
    (fun t => [[.root, n "a", n "b", n "c", n "d"], [.root, n "a", n "x"], [.root, n "a"]].map (nearestAncestor dirFs t))
    rfl
  refine ⟨t, _, ht, ?_, h⟩
  unfold Deep
  decide +kernel

/-- A file system where absolute paths exist and are directories, and relative ones do not exist. -/
def absFs : FPath → Option (FPath × Ty) := fun p => if p.head? = some .root then some (p, .dir) else none

/-- C33 refuted in general: once a relative path `x` has been inserted, new absolute paths go into the tree it made, and
`/` in that tree hides the nearer `/a` outside. -/
theorem nearest_is_longest_refuted : ∃ t : PathTree Nat, ∃ h : Hist Nat, Built t h ∧ RootIsDir h ∧
    IsDir h [.root, n "a"] ∧ nearestAncestor absFs t [.root, n "a", n "b"] = .ok (some ([.root], 4)) := by
  obtain ⟨t, ht, h⟩ := inserts_obs (fs := absFs) [([.root, n "a"], 1), ([n "x"], 2), ([.root, n "b"], 3), ([.root], 4)]
    (fun t => nearestAncestor absFs t [.root, n "a", n "b"]) (b := .ok (some ([.root], 4))) rfl
  refine ⟨t, _, ht, ?_, ?_, h⟩
  · unfold RootIsDir
    decide +kernel
  · exact ⟨⟨([.root, n "a"], .dir, 1), by simp [canon, absFs], rfl⟩, .inl ⟨([.root, n "a"], .dir, 1), by simp [canon, absFs], rfl, rfl⟩⟩

/-- The documentation of `nearest_ancestor` promises the nearest *entry* above the path. An entry not known to be a
directory is never returned. -/
theorem nearest_entry_refuted : ∃ t : PathTree Nat, ∃ h : Hist Nat, Built t h ∧ Deep h ∧
    get noFs t [.root, n "a"] = .ok (some 1) ∧ nearestAncestor noFs t [.root, n "a", n "b"] = .ok none := by
  obtain ⟨t, ht, h⟩ := inserts_obs (fs := noFs) [([.root, n "a"], 1)]
    (fun t => (get noFs t [.root, n "a"], nearestAncestor noFs t [.root, n "a", n "b"])) (b := (.ok (some 1), .ok none)) rfl
  rw [Prod.mk.injEq] at h
  refine ⟨t, _, ht, ?_, h⟩
  unfold Deep
  decide +kernel

/-! ## C57: iteration -/

theorem Built.look_iff {t : PathTree V} {h : Hist V} (hb : Built t h) (hd : Deep h) (q : FPath) (hq : q ≠ []) (v : V) :
    lastAt h q = some v ↔ ∃ b k, lookL t.roots q = some (b, some k) ∧ t.data[k]? = some v := by
  obtain ⟨iw, _⟩ := hb.dirs hd
  obtain ⟨_, j2, j3⟩ := hb.inv hd.root
  rw [← j3 q hq, getRoots_eq _ _ hq, findSome_wfl iw hq]
  constructor
  · intro h1
    cases hx : lookL t.roots q with
    | none => rw [hx] at h1; cases h1
    | some x =>
      obtain ⟨b, d⟩ := x
      rw [hx] at h1
      cases d with
      | none => cases h1
      | some k => exact ⟨b, k, rfl, h1⟩
  · rintro ⟨b, k, h1, h2⟩
    rw [h1]
    exact h2

theorem Built.ne {t : PathTree V} {h : Hist V} (hb : Built t h) : ∀ e ∈ h, e.1 ≠ [] := by
  induction hb with
  | empty => simp
  | rejected fs path v e hb hi ih => exact ih
  | accepted fs path v hb hi ih =>
    intro e he
    rcases List.mem_append.1 he with he | he
    · exact ih e he
    · rw [List.mem_singleton] at he
      subst he
      exact insertRoots_ne (tryInsert_ok hi).1

/-- C57: iterating yields exactly the entries, each path once and with its latest value, except that an entry for a
directory with nothing registered below it is passed over. Missing from the full property: those directories, and the
histories excluded in C33. -/
theorem iter_entries_partial (t : PathTree V) (h : Hist V) (hb : Built t h) (hd : Deep h) :
    ((iter t).map Prod.fst).Nodup ∧ ∀ p v, (p, v) ∈ iter t ↔
      lastAt h p = some v ∧ (IsDir h p → ∃ q, Above p q ∧ Registered h q) := by
  obtain ⟨iw, idir⟩ := hb.dirs hd
  obtain ⟨_, j2, _⟩ := hb.inv hd.root
  have hmem : ∀ p v, (p, v) ∈ iter t ↔ ∃ k, (p, k) ∈ dfsList [] t.roots ∧ t.data[k]? = some v := by
    intro p v
    unfold iter
    rw [List.mem_filterMap]
    constructor
    · rintro ⟨⟨p', k⟩, h1, h2⟩
      simp only [Option.map_eq_some_iff, Prod.mk.injEq] at h2
      obtain ⟨a, h3, rfl, rfl⟩ := h2
      exact ⟨k, h1, h3⟩
    · rintro ⟨k, h1, h2⟩
      exact ⟨(p, k), h1, by simp [h2]⟩
  constructor
  · have hsub : ((iter t).map Prod.fst).Sublist ((dfsList [] t.roots).map Prod.fst) := by
      unfold iter
      generalize dfsList [] t.roots = l
      induction l with
      | nil => simp
      | cons x l ih =>
        obtain ⟨p, k⟩ := x
        rw [List.filterMap_cons]
        cases hk : t.data[k]? with
        | none =>
          simp only [hk, Option.map_none, List.map_cons]
          exact ih.trans (List.sublist_cons_self _ _)
        | some v =>
          simp only [hk, Option.map_some, List.map_cons]
          exact ih.cons_cons p
    exact (dfsList_nodup _ iw []).sublist hsub
  · intro p v
    rw [hmem]
    constructor
    · rintro ⟨k, h1, h2⟩
      obtain ⟨r, hr, e, b, h3, h4⟩ := (dfsList_mem _ iw [] p k).1 h1
      rw [List.nil_append] at e
      subst e
      refine ⟨(hb.look_iff hd p hr v).2 ⟨b, k, h3, h2⟩, fun hdir => ?_⟩
      obtain ⟨k', h5⟩ := (idir p hr).2 hdir
      rw [h3] at h5
      simp only [Option.some.injEq, Prod.mk.injEq] at h5
      obtain ⟨s, b', k'', hs, h6⟩ := h4 h5.1
      refine ⟨p ++ s, ⟨hr, s, hs, rfl⟩, ?_⟩
      have hne : p ++ s ≠ [] := by simp [hr]
      obtain ⟨_, j2, j3⟩ := hb.inv hd.root
      have hlt : k'' < t.data.length := by
        refine j2 (p ++ s) k'' hne ?_
        rw [getRoots_eq _ _ hne, findSome_wfl iw hne, h6]; rfl
      rw [registered_iff, (hb.look_iff hd _ hne (t.data[k''])).2 ⟨b', k'', h6, List.getElem?_eq_getElem hlt⟩]
      rfl
    · rintro ⟨h1, h2⟩
      have hr : p ≠ [] := by
        have : Registered h p := by rw [registered_iff, h1]; rfl
        obtain ⟨e, he, rfl⟩ := this
        exact hb.ne e he
      obtain ⟨b, k, h3, h4⟩ := (hb.look_iff hd p hr v).1 h1
      refine ⟨k, (dfsList_mem _ iw [] p k).2 ⟨p, hr, rfl, b, h3, fun hbt => ?_⟩, h4⟩
      subst hbt
      obtain ⟨q, ⟨_, s, hs, rfl⟩, h5⟩ := h2 ((idir p hr).1 ⟨k, h3⟩)
      rw [registered_iff] at h5
      obtain ⟨v', hv'⟩ := Option.isSome_iff_exists.1 h5
      obtain ⟨b', k', h6, _⟩ := (hb.look_iff hd _ (by simp [hr]) v').1 hv'
      exact ⟨s, b', k', hs, h6⟩

/-- Four entries, of which one is an empty directory. -/
example : ∃ t : PathTree Nat, ∃ h : Hist Nat, Built t h ∧ Deep h ∧
    iter t = [([.root, n "a"], 1), ([.root, n "a", n "b"], 2)] := by
  obtain ⟨t, ht, h⟩ := inserts_obs (fs := oneFs) [([.root, n "a"], 1), ([.root, n "a", n "b"], 2)] (fun t => iter t) rfl
  refine ⟨t, _, ht, ?_, h⟩
  unfold Deep
  decide +kernel

/-- C57 refuted in general: the entry of a directory with nothing below it is not found by iteration. -/
theorem iter_entries_refuted : ∃ t : PathTree Nat, ∃ h : Hist Nat, Built t h ∧ Deep h ∧
    get dirFs t [.root, n "a"] = .ok (some 1) ∧ iter t = [] := by
  obtain ⟨t, ht, h⟩ := inserts_obs (fs := dirFs) [([.root, n "a"], 1)] (fun t => (get dirFs t [.root, n "a"], iter t))
    (b := (.ok (some 1), [])) rfl
  rw [Prod.mk.injEq] at h
  refine ⟨t, _, ht, ?_, h⟩
  unfold Deep
  decide +kernel

/-! ## C34: canonicalisation -/

/-- A stack of components, newest first, with nothing left to simplify. -/
def Norm : FPath → Prop
  | [] => True
  | .cur :: _ => False
  | .parent :: acc => (∀ c ∈ acc, c = .parent)
  | _ :: acc => Norm acc

theorem norm_parents (acc : FPath) (h : ∀ c ∈ acc, c = .parent) : Norm acc := by
  cases acc with
  | nil => trivial
  | cons a as =>
    have := h a (by simp)
    subst this
    exact fun c hc => h c (by simp [hc])

theorem norm_step (acc : FPath) (c : Comp) (h : Norm acc) : Norm (canonStep acc c) := by
  cases c with
  | cur => exact h
  | root => exact h
  | normal s => exact h
  | parent =>
    cases acc with
    | nil => exact fun c hc => by cases hc
    | cons a as =>
      cases a with
      | parent =>
        intro c hc
        rcases List.mem_cons.1 hc with rfl | hc
        · rfl
        · exact h c hc
      | cur => exact absurd h id
      | root => exact h
      | normal s => exact h

theorem norm_foldl (p acc : FPath) (h : Norm acc) : Norm (p.foldl canonStep acc) := by
  induction p generalizing acc with
  | nil => exact h
  | cons c p ih => exact ih _ (norm_step acc c h)

theorem norm_simple (acc : FPath) (h : Norm acc) : Simple acc.reverse := by
  induction acc with
  | nil => exact ⟨0, [], rfl, by simp, by simp⟩
  | cons a as ih =>
    have push : ∀ c, c ≠ .parent → c ≠ .cur → Simple as.reverse → Simple (c :: as).reverse := by
      rintro c h1 h2 ⟨n, rest, e, h3, h4⟩
      refine ⟨n, rest ++ [c], by rw [List.reverse_cons, e]; simp, ?_, ?_⟩
      · simp [h3, Ne.symm h1]
      · simp [h4, Ne.symm h2]
    cases a with
    | cur => exact absurd h id
    | parent =>
      refine ⟨as.length + 1, [], ?_, by simp, by simp⟩
      have : as = List.replicate as.length .parent := List.eq_replicate_iff.2 ⟨rfl, h⟩
      rw [List.append_nil, ← List.reverse_replicate, List.replicate_succ, ← this]
    | root => exact push _ (by simp) (by simp) (ih h)
    | normal s => exact push _ (by simp) (by simp) (ih h)

theorem foldl_norm (acc : FPath) (h : Norm acc) : acc.reverse.foldl canonStep [] = acc := by
  induction acc with
  | nil => rfl
  | cons a as ih =>
    rw [List.reverse_cons, List.foldl_append]
    cases a with
    | cur => exact absurd h id
    | parent =>
      rw [ih (norm_parents as h)]
      cases as with
      | nil => rfl
      | cons b bs =>
        have := h b (by simp)
        subst this
        rfl
    | root => rw [ih h]; rfl
    | normal s => rw [ih h]; rfl

/-- C34: when the path does not exist, what it is simplified to has no `.`, and `..` only at the start. -/
theorem canonicalised_simple (p : FPath) : Simple (canonFallback p) := norm_simple _ (norm_foldl p [] trivial)

/-- C34: simplifying twice is simplifying once. -/
theorem canonicalise_idempotent (p : FPath) : canonFallback (canonFallback p) = canonFallback p := by
  unfold canonFallback
  rw [foldl_norm _ (norm_foldl p [] trivial)]

theorem locate_snoc (cwd : List Str) (p : FPath) (c : Comp) : locate cwd (p ++ [c]) = walk (locate cwd p) c := by
  unfold locate
  rw [List.foldl_append]; rfl

theorem locate_step (cwd : List Str) (acc : FPath) (c : Comp) (h : Norm acc) (hr : c = .parent → acc.head? ≠ some .root) :
    locate cwd (canonStep acc c).reverse = walk (locate cwd acc.reverse) c := by
  cases c with
  | cur => rfl
  | root => exact (by rw [← locate_snoc, ← List.reverse_cons]; rfl)
  | normal s => exact (by rw [← locate_snoc, ← List.reverse_cons]; rfl)
  | parent =>
    cases acc with
    | nil => rfl
    | cons a as =>
      cases a with
      | cur => exact absurd h id
      | root => exact absurd rfl (hr rfl)
      | parent => exact (by rw [← locate_snoc, ← List.reverse_cons]; rfl)
      | normal s =>
        show locate cwd as.reverse = _
        rw [List.reverse_cons, locate_snoc]
        show _ = (locate cwd as.reverse ++ [s]).dropLast
        rw [List.dropLast_concat]

/-- Number of `..` and of names. -/
def ups (p : FPath) : Nat := p.countP (· = .parent)
def downs (p : FPath) : Nat := p.countP isName

theorem stays_take {p : FPath} {c : Comp} (h : StaysBelowRoot (p ++ [c])) : StaysBelowRoot p := by
  intro hh k
  have hh' : (p ++ [c]).head? = some .root := by
    cases p with
    | nil => cases hh
    | cons a as => exact hh
  have := h hh' (min k p.length)
  rw [List.take_append_of_le_length (Nat.min_le_right _ _)] at this
  rwa [show p.take (min k p.length) = p.take k by rw [List.take_eq_take_iff]; omega] at this

theorem canon_inv (p : FPath) (hf : RootFirst p) (hs : StaysBelowRoot p) :
    (p.head? = some .root → ∃ ns : List Str, p.foldl canonStep [] = ns.map .normal ++ [.root] ∧
      ns.length + ups p = downs p) ∧
    (p.head? ≠ some .root → Comp.root ∉ p.foldl canonStep []) ∧
    ∀ cwd, locate cwd (canonFallback p) = locate cwd p := by
  induction p using List.reverseRecOn with
  | nil => exact ⟨fun h => by simp at h, fun _ => by simp, fun _ => rfl⟩
  | append_singleton p c ih =>
    have hfold : (p ++ [c]).foldl canonStep [] = canonStep (p.foldl canonStep []) c := by
      rw [List.foldl_append]; rfl
    by_cases hp : p = []
    · subst hp
      refine ⟨?_, ?_, ?_⟩
      · intro h
        have : c = .root := by simpa using h
        subst this
        exact ⟨[], rfl, rfl⟩
      · intro h
        cases c with
        | root => exact absurd rfl h
        | cur => simp [canonStep]
        | parent => simp [canonStep]
        | normal s => simp [canonStep]
      · intro cwd
        cases c <;> rfl
    · have hhead : (p ++ [c]).head? = p.head? := by
        obtain ⟨a, as, rfl⟩ := List.exists_cons_of_ne_nil hp
        rfl
      have htail : (p ++ [c]).tail = p.tail ++ [c] := by
        obtain ⟨a, as, rfl⟩ := List.exists_cons_of_ne_nil hp
        rfl
      unfold RootFirst at hf
      rw [htail, List.mem_append, not_or] at hf
      have hcr : c ≠ .root := fun h => hf.2 (by simp [h])
      obtain ⟨i1, i2, i3⟩ := ih hf.1 (stays_take hs)
      have hnorm := norm_foldl p [] trivial
      have hups : ups (p ++ [c]) = ups p + (if c = .parent then 1 else 0) := by
        unfold ups
        rw [List.countP_append, List.countP_singleton]
        simp
      have hdowns : downs (p ++ [c]) = downs p + (if isName c then 1 else 0) := by
        unfold downs
        rw [List.countP_append, List.countP_singleton]
      -- `..` never meets the root
      have hmeet : c = .parent → (p.foldl canonStep []).head? ≠ some .root := by
        intro hc hh
        by_cases hr : p.head? = some .root
        · obtain ⟨ns, e, hl⟩ := i1 hr
          rw [e] at hh
          cases ns with
          | cons x xs => simp at hh
          | nil =>
            have := hs (hhead.trans hr) (p ++ [c]).length
            rw [List.take_length] at this
            change ups (p ++ [c]) ≤ downs (p ++ [c]) at this
            rw [hups, hdowns, hc] at this
            simp [isName] at this hl
            omega
        · have := i2 hr
          exact this (List.mem_of_mem_head? hh)
      refine ⟨?_, ?_, ?_⟩
      · intro hr
        rw [hhead] at hr
        obtain ⟨ns, e, hl⟩ := i1 hr
        rw [hfold, e, hups, hdowns]
        cases c with
        | root => exact absurd rfl hcr
        | cur => exact ⟨ns, rfl, by simpa [isName] using hl⟩
        | normal s => exact ⟨s :: ns, rfl, by simp [isName]; omega⟩
        | parent =>
          cases ns with
          | nil => exact absurd (by rw [e]; rfl) (hmeet rfl)
          | cons x xs =>
            refine ⟨xs, rfl, ?_⟩
            simp only [List.length_cons] at hl
            simp [isName]
            omega
      · intro hr
        rw [hhead] at hr
        have := i2 hr
        rw [hfold]
        cases c with
        | root => exact absurd rfl hcr
        | cur => exact this
        | normal s => simpa [canonStep] using this
        | parent =>
          generalize p.foldl canonStep [] = acc at this
          cases acc with
          | nil => simp [canonStep]
          | cons a as =>
            cases a <;> simp_all [canonStep]
      · intro cwd
        have h1 := i3 cwd
        unfold canonFallback at h1 ⊢
        rw [hfold, locate_step cwd _ c hnorm hmeet, h1, locate_snoc]

/-- C34: the simplified path leads to the same place, from any working directory and when no component is a symbolic
link. Missing from the full property: absolute paths with so many `..` that they would leave the root. -/
theorem canonicalise_same_place_partial (p : FPath) (hf : RootFirst p) (hs : StaysBelowRoot p) (cwd : List Str) :
    locate cwd (canonFallback p) = locate cwd p := (canon_inv p hf hs).2.2 cwd

/-- A path below `/home` with `.`, `..` and names. -/
example : RootFirst [.root, n "a", .parent, n "b", n "c", .parent] ∧ StaysBelowRoot [.root, n "a", .parent, n "b", n "c", .parent] ∧
    canonFallback [.root, n "a", .parent, n "b", n "c", .parent] = [.root, n "b"] := by
  refine ⟨by unfold RootFirst; decide +kernel, ?_, rfl⟩
  intro _ k
  match k with
  | 0 | 1 | 2 | 3 | 4 | 5 => decide +kernel
  | k + 6 => simp [n]; decide

/-- C34 refuted without the last hypothesis: `/x/../../y` is `/y`, and becomes the relative path `y`. -/
theorem canonicalise_same_place_refuted : canonFallback [.root, n "x", .parent, .parent, n "y"] = [n "y"] ∧
    ∃ cwd, locate cwd [n "y"] ≠ locate cwd [.root, n "x", .parent, .parent, n "y"] :=
  ⟨rfl, ["home".toList], by decide +kernel⟩

/-- What the operating system promises when it resolves a path: the result has no `.` and `..`, and resolves to itself. -/
structure Resolver (fs : FPath → Option (FPath × Ty)) : Prop where
  simple : ∀ p r, fs p = some r → Simple r.1
  stable : ∀ p r, fs p = some r → fs r.1 = some r

/-- C34, with a file system: a path which can be resolved is what it resolves to, and any other path what it is simplified
to. -/
theorem C34_resolved (fs : FPath → Option (FPath × Ty)) (p : FPath) :
    (∀ r, fs p = some r → canon fs p = r) ∧ (fs p = none → canon fs p = (canonFallback p, .unknown)) := by
  unfold canon
  constructor
  · intro r h; rw [h]
  · intro h; rw [h]

/-- C34, with a file system: the result has no `.`, and `..` only at the start. -/
theorem C34_simple {fs : FPath → Option (FPath × Ty)} (hfs : Resolver fs) (p : FPath) : Simple (canon fs p).1 := by
  cases h : fs p with
  | some r => rw [(C34_resolved fs p).1 r h]; exact hfs.simple p r h
  | none => rw [(C34_resolved fs p).2 h]; exact canonicalised_simple p

/-- C34, with a file system: doing it twice is doing it once, if the path can be resolved, or what it is simplified to cannot,
either. -/
theorem C34_idempotent_partial {fs : FPath → Option (FPath × Ty)} (hfs : Resolver fs) (p : FPath)
    (h : fs p = none → fs (canonFallback p) = none) : canon fs (canon fs p).1 = canon fs p := by
  cases hp : fs p with
  | some r =>
    rw [(C34_resolved fs p).1 r hp]
    exact (C34_resolved fs r.1).1 r (hfs.stable p r hp)
  | none =>
    rw [(C34_resolved fs p).2 hp]
    dsimp only
    rw [(C34_resolved fs _).2 (h hp), canonicalise_idempotent]

/-- A file system where `/l` is a link to the directory `/t`, and nothing else exists. -/
def linkFs : FPath → Option (FPath × Ty) := fun p =>
  if p = [.root, n "l"] ∨ p = [.root, n "t"] then some ([.root, n "t"], .dir) else none

theorem linkFs_resolver : Resolver linkFs := by
  have key : ∀ p r, linkFs p = some r → r = ([.root, n "t"], .dir) := by
    intro p r h
    unfold linkFs at h
    split at h
    · simp only [Option.some.injEq] at h; exact h.symm
    · cases h
  refine ⟨?_, ?_⟩
  · intro p r h
    rw [key p r h]
    exact ⟨0, [.root, n "t"], rfl, by simp [n], by simp [n]⟩
  · intro p r h
    rw [key p r h]
    rfl

/-- The link. -/
example : canon linkFs [.root, n "l"] = ([.root, n "t"], .dir) ∧ canon linkFs [.root, n "t"] = ([.root, n "t"], .dir) := ⟨rfl, rfl⟩

/-- C34 refuted without the hypothesis: `/x/../l` cannot be resolved, as `/x` does not exist, and is simplified to `/l`, which
is not canonical, as it is a link. -/
theorem C34_idempotent_refuted : ∃ fs, Resolver fs ∧ canon fs [.root, n "x", .parent, n "l"] = ([.root, n "l"], .unknown) ∧
    canon fs [.root, n "l"] = ([.root, n "t"], .dir) :=
  ⟨linkFs, linkFs_resolver, rfl, rfl⟩

end Litcheck.PathTree
