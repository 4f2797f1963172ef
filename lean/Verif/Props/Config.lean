import Verif.Model.Config
import Verif.Props.Substitutions

/-!
# C42, C43: configuration inheritance and selection
-/

namespace Litcheck

open SubSpec

/-! ## Sets of entries -/

namespace SubSet

theorem lastOf_wf {kvs : SubSet} (h : kvs.WF) (k : Str) : lastOf k kvs = kvs.get k := by
  cases hg : kvs.get k with
  | some v =>
    rw [← mem_iff h] at hg
    unfold lastOf
    cases hf : kvs.reverse.find? (fun kv => kv.1 == k) with
    | none =>
      exfalso
      have := List.find?_eq_none.1 hf (k, v) (by simpa using hg)
      simp at this
    | some e =>
      have hm : e ∈ kvs := by simpa using List.mem_of_find?_eq_some hf
      have hk : e.1 = k := by simpa using List.find?_some hf
      have h1 : kvs.get k = some e.2 := by rw [← mem_iff h, ← hk]; exact hm
      have h2 := (mem_iff h k v).1 hg
      simp [← h1, h2]
  | none =>
    unfold lastOf
    cases hf : kvs.reverse.find? (fun kv => kv.1 == k) with
    | none => rfl
    | some e =>
      exfalso
      have hm : e ∈ kvs := by simpa using List.mem_of_find?_eq_some hf
      have hk : e.1 = k := by simpa using List.find?_some hf
      have h1 : kvs.get k = some e.2 := by rw [← mem_iff h, ← hk]; exact hm
      rw [hg] at h1
      cases h1

theorem insert_absent (s : SubSet) (k v : Str) (h : k ∉ s.map (·.1)) : s.insert k v = s ++ [(k, v)] := by
  induction s with
  | nil => rfl
  | cons e s ih =>
    obtain ⟨a, b⟩ := e
    simp only [List.map_cons, List.mem_cons, not_or] at h
    rw [insert, if_neg (by simpa using Ne.symm h.1), ih h.2]
    rfl

theorem extend_append (s : SubSet) (a b : List (Str × Str)) : s.extend (a ++ b) = (s.extend a).extend b := by
  simp [extend, List.foldl_append]

theorem extend_fresh (t s : SubSet) (h : (t ++ s).WF) : t.extend s = t ++ s := by
  induction s generalizing t with
  | nil => simp [extend]
  | cons e s ih =>
    have h1 : t.extend (e :: s) = (t.insert e.1 e.2).extend s := rfl
    have hn : e.1 ∉ t.map (·.1) := by
      unfold WF at h
      rw [List.map_append, List.map_cons, List.nodup_append] at h
      intro hm
      exact h.2.2 e.1 hm e.1 (by simp) rfl
    rw [h1, insert_absent t _ _ hn, ih]
    · simp
    · simpa using h

theorem extend_nil_left (s : SubSet) (h : s.WF) : SubSet.extend [] s = s := by
  simpa using extend_fresh [] s (by simpa using h)

theorem insert_insert_same (s : SubSet) (k v v' : Str) : (s.insert k v).insert k v' = s.insert k v' := by
  induction s with
  | nil => simp [insert]
  | cons e s ih =>
    obtain ⟨a, b⟩ := e
    by_cases h : a = k
    · simp [insert, h]
    · simp [insert, h, ih]

theorem insert_comm (s : SubSet) (k v k' v' : Str) (hne : k ≠ k') (hk : k ∈ s.map (·.1)) :
    (s.insert k' v').insert k v = (s.insert k v).insert k' v' := by
  induction s with
  | nil => simp at hk
  | cons e s ih =>
    obtain ⟨a, b⟩ := e
    by_cases h : a = k
    · subst h
      simp [insert, hne]
    · by_cases h' : a = k'
      · subst h'
        simp [insert, h]
      · have hk' : k ∈ s.map (·.1) := by
          simp only [List.map_cons, List.mem_cons] at hk
          exact hk.resolve_left (Ne.symm h)
        simp [insert, h, h', ih hk']

theorem mem_keys_insert (s : SubSet) (k v k' : Str) : k' ∈ (s.insert k v).map (·.1) ↔ k' = k ∨ k' ∈ s.map (·.1) := by
  rw [keys_insert]
  split
  · rename_i h
    constructor
    · exact Or.inr
    · rintro (rfl | h')
      · exact h
      · exact h'
  · simp [or_comm]

theorem extend_insert_comm (q s : SubSet) (k v : Str) (hq : k ∉ q.map (·.1)) (hk : k ∈ s.map (·.1)) :
    (s.extend q).insert k v = (s.insert k v).extend q := by
  induction q generalizing s with
  | nil => rfl
  | cons e q ih =>
    have h1 : ∀ t : SubSet, t.extend (e :: q) = (t.insert e.1 e.2).extend q := fun _ => rfl
    simp only [List.map_cons, List.mem_cons, not_or] at hq
    rw [h1, h1, ih _ hq.2 ((mem_keys_insert _ _ _ _).2 (Or.inr hk)), insert_comm _ _ _ _ _ hq.1 hk]

theorem insert_split (q : SubSet) (k v : Str) (hk : k ∈ q.map (·.1)) : ∃ q1 v0 q2, q = q1 ++ (k, v0) :: q2 ∧
    k ∉ q1.map (·.1) ∧ q.insert k v = q1 ++ (k, v) :: q2 := by
  induction q with
  | nil => simp at hk
  | cons e q ih =>
    obtain ⟨a, b⟩ := e
    by_cases h : a = k
    · subst h
      exact ⟨[], b, q, rfl, by simp, by simp [insert]⟩
    · have hk' : k ∈ q.map (·.1) := by
        simp only [List.map_cons, List.mem_cons] at hk
        exact hk.resolve_left (Ne.symm h)
      obtain ⟨q1, v0, q2, e1, e2, e3⟩ := ih hk'
      refine ⟨(a, b) :: q1, v0, q2, by rw [e1]; rfl, ?_, ?_⟩
      · simp only [List.map_cons, List.mem_cons, not_or]
        exact ⟨Ne.symm h, e2⟩
      · rw [insert, if_neg (by simpa using h), e3]
        rfl

theorem extend_insert (g q : SubSet) (hq : q.WF) (k v : Str) : g.extend (q.insert k v) = (g.extend q).insert k v := by
  by_cases hk : k ∈ q.map (·.1)
  · obtain ⟨q1, v0, q2, e1, e2, e3⟩ := insert_split q k v hk
    rw [e3, e1, extend_append, extend_append]
    have h1 : ∀ (t : SubSet) (v : Str), t.extend ((k, v) :: q2) = (t.insert k v).extend q2 := fun _ _ => rfl
    have h2 : k ∉ q2.map (·.1) := by
      unfold WF at hq
      rw [e1, List.map_append, List.map_cons, List.nodup_append, List.nodup_cons] at hq
      exact hq.2.1.1
    rw [h1, h1, extend_insert_comm q2 _ k v h2 ((mem_keys_insert _ _ _ _).2 (Or.inl rfl)), insert_insert_same]
  · rw [insert_absent q k v hk, extend_append]
    rfl

theorem extend_extend (g p : SubSet) (hp : p.WF) (c : List (Str × Str)) :
    g.extend (p.extend c) = (g.extend p).extend c := by
  induction c generalizing p with
  | nil => rfl
  | cons e c ih =>
    have h1 : ∀ t : SubSet, t.extend (e :: c) = (t.insert e.1 e.2).extend c := fun _ => rfl
    rw [h1, h1, ih _ (wf_insert hp _ _), extend_insert g p hp]

end SubSet

/-! ## Features -/

namespace Features

theorem mem_insert (s : Features) (f x : Str) : x ∈ Features.insert s f ↔ x ∈ s ∨ x = f := by
  unfold insert
  split
  · rename_i h
    have : f ∈ s := by simpa using h
    constructor
    · exact Or.inl
    · rintro (h | rfl)
      · exact h
      · exact this
  · simp

theorem mem_extend (fs : List Str) (s : Features) (x : Str) : x ∈ Features.extend s fs ↔ x ∈ s ∨ x ∈ fs := by
  induction fs generalizing s with
  | nil => simp [extend]
  | cons f fs ih =>
    have : extend s (f :: fs) = extend (insert s f) fs := rfl
    rw [this, ih, mem_insert, List.mem_cons, or_assoc]

theorem nodup_insert {s : Features} (h : s.Nodup) (f : Str) : (Features.insert s f).Nodup := by
  unfold insert
  split
  · exact h
  · rename_i hf
    have : f ∉ s := by simpa using hf
    rw [List.nodup_append]
    exact ⟨h, by simp, fun a ha b hb => by rw [List.mem_singleton.1 hb]; rintro rfl; exact this ha⟩

theorem nodup_extend (fs : List Str) {s : Features} (h : s.Nodup) : (Features.extend s fs).Nodup := by
  induction fs generalizing s with
  | nil => exact h
  | cons f fs ih => exact ih (nodup_insert h f)

end Features

/-! ## C42 -/

/-- Keys and features occur once, as in every map and set. -/
structure TestConfig.WF (c : TestConfig) : Prop where
  env : c.env.WF
  substitutions : c.substitutions.WF
  features : c.features.Nodup

/-- What `extend` on condition that there is something to extend amounts to. -/
theorem inherit_set (c p : SubSet) (hc : c.WF) : (if !p.isEmpty then p.extend c else c) = p.extend c := by
  cases p with
  | nil => exact (SubSet.extend_nil_left c hc).symm
  | cons e p => rfl

theorem inherit_wf {c p : TestConfig} (hc : c.WF) (hp : p.WF) : (c.inherit p).WF := by
  constructor
  · unfold TestConfig.inherit
    rw [inherit_set _ _ hc.env]
    exact SubSet.wf_extend _ hp.env
  · unfold TestConfig.inherit
    rw [inherit_set _ _ hc.substitutions]
    exact SubSet.wf_extend _ hp.substitutions
  · unfold TestConfig.inherit
    dsimp only
    split
    · exact Features.nodup_extend _ hp.features
    · exact hc.features

/-- C42, one step: own environment and substitutions over the parent's, own features with the parent's, and format,
patterns and excludes of the parent only if there are none. -/
theorem C42_inherit (c p : TestConfig) (hc : c.WF) :
    (∀ k, (c.inherit p).env.get k = (c.env.get k).or (p.env.get k)) ∧
    (∀ k, (c.inherit p).substitutions.get k = (c.substitutions.get k).or (p.substitutions.get k)) ∧
    (∀ f, f ∈ (c.inherit p).features ↔ f ∈ c.features ∨ f ∈ p.features) ∧
    ((c.inherit p).format = if c.format = .default then p.format else c.format) ∧
    ((c.inherit p).patterns = if c.patterns = [] then p.patterns else c.patterns) ∧
    ((c.inherit p).exclude = if c.exclude = [] then p.exclude else c.exclude) := by
  refine ⟨fun k => ?_, fun k => ?_, fun f => ?_, rfl, ?_, ?_⟩
  · unfold TestConfig.inherit
    rw [inherit_set _ _ hc.env, SubSet.get_extend, SubSet.lastOf_wf hc.env]
  · unfold TestConfig.inherit
    rw [inherit_set _ _ hc.substitutions, SubSet.get_extend, SubSet.lastOf_wf hc.substitutions]
  · unfold TestConfig.inherit
    cases hp : p.features with
    | nil => simp
    | cons x l =>
      simp only [List.isEmpty_cons, Bool.not_false, if_true, Features.mem_extend]
      rw [or_comm]
  · simp [TestConfig.inherit]
  · simp [TestConfig.inherit]

/-- C42, associativity: it does not matter whether a configuration inherits from a parent that has inherited from its
parent, or inherits from both one after the other. Not only the lookups agree: the substitutions come in the same
order. The features are the same set. -/
theorem C42_assoc (c p g : TestConfig) (hc : c.WF) (hp : p.WF) :
    let a := (c.inherit p).inherit g
    let b := c.inherit (p.inherit g)
    a.format = b.format ∧ a.patterns = b.patterns ∧ a.exclude = b.exclude ∧ a.env = b.env ∧
      a.substitutions = b.substitutions ∧ ∀ f, f ∈ a.features ↔ f ∈ b.features := by
  have hcp := inherit_wf hc hp
  refine ⟨?_, ?_, ?_, ?_, ?_, fun f => ?_⟩
  · simp only [TestConfig.inherit]
    by_cases h : c.format = .default <;> simp [h]
  · simp only [TestConfig.inherit]
    by_cases h : c.patterns.isEmpty = true <;> simp [h]
  · simp only [TestConfig.inherit]
    by_cases h : c.exclude.isEmpty = true <;> simp [h]
  · rw [show ((c.inherit p).inherit g).env = g.env.extend (c.inherit p).env from inherit_set _ _ hcp.env,
      show (c.inherit p).env = p.env.extend c.env from inherit_set _ _ hc.env,
      show (c.inherit (p.inherit g)).env = (p.inherit g).env.extend c.env from inherit_set _ _ hc.env,
      show (p.inherit g).env = g.env.extend p.env from inherit_set _ _ hp.env, SubSet.extend_extend _ _ hp.env]
  · rw [show ((c.inherit p).inherit g).substitutions = g.substitutions.extend (c.inherit p).substitutions from
        inherit_set _ _ hcp.substitutions,
      show (c.inherit p).substitutions = p.substitutions.extend c.substitutions from inherit_set _ _ hc.substitutions,
      show (c.inherit (p.inherit g)).substitutions = (p.inherit g).substitutions.extend c.substitutions from
        inherit_set _ _ hc.substitutions,
      show (p.inherit g).substitutions = g.substitutions.extend p.substitutions from inherit_set _ _ hp.substitutions,
      SubSet.extend_extend _ _ hp.substitutions]
  · rw [(C42_inherit _ g hcp).2.2.1, (C42_inherit c p hc).2.2.1, (C42_inherit c _ hc).2.2.1, (C42_inherit p g hp).2.2.1,
      or_assoc]

/-- A chain of configurations, from the innermost outwards, each inheriting from what the next has come to. -/
def resolve : List TestConfig → TestConfig
  | [] => .empty
  | c :: cs => c.inherit (resolve cs)

theorem resolve_wf (cs : List TestConfig) (h : ∀ c ∈ cs, c.WF) : (resolve cs).WF := by
  induction cs with
  | nil => exact ⟨SubSet.wf_nil, SubSet.wf_nil, List.nodup_nil⟩
  | cons c cs ih => exact inherit_wf (h c (by simp)) (ih fun c hc => h c (by simp [hc]))

/-- C42, for a chain of any length: a variable or substitution has the value of the innermost configuration that sets
it, the features are those of all of them, and format, patterns and excludes are those of the innermost that has any. -/
theorem C42_chain (cs : List TestConfig) (h : ∀ c ∈ cs, c.WF) :
    (∀ k, (resolve cs).env.get k = cs.findSome? fun c => c.env.get k) ∧
    (∀ k, (resolve cs).substitutions.get k = cs.findSome? fun c => c.substitutions.get k) ∧
    (∀ f, f ∈ (resolve cs).features ↔ ∃ c ∈ cs, f ∈ c.features) ∧
    (resolve cs).format = ((cs.find? fun c => c.format != .default).map (·.format)).getD .default ∧
    (resolve cs).patterns = ((cs.find? fun c => !c.patterns.isEmpty).map (·.patterns)).getD [] ∧
    (resolve cs).exclude = ((cs.find? fun c => !c.exclude.isEmpty).map (·.exclude)).getD [] := by
  induction cs with
  | nil => refine ⟨fun k => rfl, fun k => rfl, fun f => ?_, rfl, rfl, rfl⟩; simp [resolve, TestConfig.empty]
  | cons c cs ih =>
    obtain ⟨i1, i2, i3, i4, i5, i6⟩ := ih fun c hc => h c (by simp [hc])
    obtain ⟨j1, j2, j3, j4, j5, j6⟩ := C42_inherit c (resolve cs) (h c (by simp))
    refine ⟨fun k => ?_, fun k => ?_, fun f => ?_, ?_, ?_, ?_⟩
    · rw [resolve, j1, i1, List.findSome?_cons]
      cases c.env.get k <;> rfl
    · rw [resolve, j2, i2, List.findSome?_cons]
      cases c.substitutions.get k <;> rfl
    · rw [resolve, j3, i3]
      simp
    · rw [resolve, j4, i4, List.find?_cons]
      by_cases hf : c.format = .default
      · simp [hf]
      · have : (c.format != .default) = true := by simpa using hf
        simp [this, hf]
    · rw [resolve, j5, i5, List.find?_cons]
      cases hf : c.patterns <;> simp [hf]
    · rw [resolve, j6, i6, List.find?_cons]
      cases hf : c.exclude <;> simp [hf]

/-- A chain where every kind of value is overridden and inherited. -/
example : resolve [⟨.default, [], ["x".toList], [("A".toList, "1".toList)], [("%a".toList, "in".toList)], ["f".toList]⟩,
      ⟨.shtest [], ["*.rs".toList], [], [("A".toList, "2".toList), ("B".toList, "3".toList)],
        [("%b".toList, "q".toList), ("%a".toList, "out".toList)], ["g".toList]⟩] =
    ⟨.shtest [], ["*.rs".toList], ["x".toList], [("A".toList, "1".toList), ("B".toList, "3".toList)],
      [("%b".toList, "q".toList), ("%a".toList, "in".toList)], ["g".toList, "f".toList]⟩ := by
  decide +kernel

/-! ## C43 -/

/-- C43: a test is selected iff its name matches the filter, if one is given, and does not match the other filter, if
that is given. -/
theorem C43_selected (filter filterOut : Option (Str → Bool)) (name : Str) :
    isSelected filter filterOut name = true ↔
      (∀ f, filter = some f → f name = true) ∧ (∀ f, filterOut = some f → f name = false) := by
  unfold isSelected
  cases filter <;> cases filterOut <;> simp

/-- A name that matches both filters is left out. -/
example : isSelected (some fun s => s.head? == some 'a') (some fun s => s.length == 2) "ab".toList = false ∧
    isSelected (some fun s => s.head? == some 'a') (some fun s => s.length == 2) "abc".toList = true := by
  decide +kernel

end Litcheck
