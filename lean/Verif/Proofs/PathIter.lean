import Verif.Proofs.PathForest

/-!
# Proofs about iteration over the path tree
-/

namespace Litcheck.PathTree

/-- A path with data which is not a directory with nothing registered below it. -/
def Emits (f : FPath → Option (Bool × Option Nat)) (q : FPath) (k : Nat) : Prop :=
  ∃ b, f q = some (b, some k) ∧ (b = true → ∃ s b' k', s ≠ [] ∧ f (q ++ s) = some (b', some k'))

theorem emits_list {ns : List Node} (h : WFL ns) {q : FPath} (hq : q ≠ []) (k : Nat) :
    Emits (lookL ns) q k ↔ ∃ n ∈ ns, Emits (look n) q k := by
  constructor
  · rintro ⟨b, h1, h2⟩
    obtain ⟨n, hn, h3⟩ := (lookL_iff h hq _).1 h1
    refine ⟨n, hn, b, h3, fun hb => ?_⟩
    obtain ⟨s, b', k', hs, h4⟩ := h2 hb
    obtain ⟨m, hm, h5⟩ := (lookL_iff h (by simp [hq]) _).1 h4
    refine ⟨s, b', k', hs, ?_⟩
    have hhd : n.comp.head? = m.comp.head? := by
      rw [look_head (h.ne n hn) h3, look_head (h.ne m hm) h5]
      obtain ⟨x, xs, rfl⟩ := List.exists_cons_of_ne_nil hq
      rfl
    have : n = m := List.inj_on_of_nodup_map h.heads hn hm hhd
    rw [this]
    exact h5
  · rintro ⟨n, hn, b, h1, h2⟩
    refine ⟨b, (lookL_iff h hq _).2 ⟨n, hn, h1⟩, fun hb => ?_⟩
    obtain ⟨s, b', k', hs, h4⟩ := h2 hb
    exact ⟨s, b', k', hs, (lookL_iff h (by simp [hq]) _).2 ⟨n, hn, h4⟩⟩

theorem emits_ne {n : Node} {q : FPath} {k : Nat} (hc : n.comp ≠ []) (h : Emits (look n) q k) : q ≠ [] := by
  obtain ⟨b, h1, _⟩ := h
  obtain ⟨r, hr⟩ := look_prefix h1
  rw [hr]
  simp [hc]

mutual

theorem dfsNode_mem (n : Node) (hw : WF n) (pre q : FPath) (k : Nat) :
    (q, k) ∈ dfsNode pre n ↔ ∃ r, q = pre ++ r ∧ Emits (look n) r k := by
  match n, hw with
  | .leaf c ty d, _ =>
    rw [dfsNode]
    simp only [Option.mem_toList, Option.mem_def, Option.map_eq_some_iff, Prod.mk.injEq]
    constructor
    · rintro ⟨a, h1, h2, rfl⟩
      exact ⟨c, h2.symm, false, by rw [look_leaf, if_pos rfl, h1], by simp⟩
    · rintro ⟨r, h1, b, h2, _⟩
      rw [look_leaf] at h2
      split at h2
      · rename_i hr
        simp only [Option.some.injEq, Prod.mk.injEq] at h2
        exact ⟨k, h2.2, by rw [h1, hr], rfl⟩
      · cases h2
  | .branch c ch d, hw =>
    rw [dfsNode]
    by_cases he : ch = []
    · subst he
      simp only [List.isEmpty_nil, if_true, List.not_mem_nil, false_iff, not_exists, not_and]
      rintro r _ ⟨b, h1, h2⟩
      have hlast : ∀ r v, look (.branch c [] d) r = some v → r = c := by
        intro r v hv
        obtain ⟨x, hx⟩ := look_prefix hv
        simp only [Node.comp] at hx
        by_cases hxn : x = []
        · rw [hx, hxn, List.append_nil]
        · rw [hx, look_branch_below _ _ _ _ hxn] at hv
          simp [lookL, getFirst] at hv
      have hr := hlast r _ h1
      rw [hr, look_branch_self] at h1
      simp only [Option.some.injEq, Prod.mk.injEq] at h1
      obtain ⟨s, b', k', hs, h3⟩ := h2 h1.1.symm
      have := hlast _ _ h3
      rw [hr] at this
      exact hs (by simpa using this)
    · have hemp : ch.isEmpty = false := by simpa using he
      rw [hemp]
      simp only [Bool.false_eq_true, if_false, List.mem_append]
      have hwl := hw.children
      rw [dfsList_mem ch hwl]
      simp only [Option.mem_toList, Option.mem_def, Option.map_eq_some_iff, Prod.mk.injEq]
      constructor
      · rintro (⟨a, h1, h2, rfl⟩ | ⟨r, hr, h1, b, h2, h3⟩)
        · refine ⟨c, h2.symm, true, by rw [look_branch_self, h1], fun _ => ?_⟩
          obtain ⟨m, ms, hm⟩ := List.exists_cons_of_ne_nil he
          obtain ⟨r, b, k, h4⟩ := (hwl.wf m (by simp [hm])).has_data
          have hne : m.comp ++ r ≠ [] := by simp [hwl.ne m (by simp [hm])]
          refine ⟨_, b, k, hne, ?_⟩
          rw [look_branch_below _ _ _ _ hne, lookL_iff hwl hne]
          exact ⟨m, by simp [hm], h4⟩
        · refine ⟨c ++ r, by rw [h1]; simp, b, by rw [look_branch_below _ _ _ _ hr, h2], fun hb => ?_⟩
          obtain ⟨s, b', k', hs, h4⟩ := h3 hb
          exact ⟨s, b', k', hs, by rw [List.append_assoc, look_branch_below _ _ _ _ (by simp [hr]), h4]⟩
      · rintro ⟨r, h1, b, h2, h3⟩
        obtain ⟨x, hx⟩ := look_prefix h2
        simp only [Node.comp] at hx
        by_cases hxn : x = []
        · left
          rw [hxn, List.append_nil] at hx
          rw [hx, look_branch_self] at h2
          simp only [Option.some.injEq, Prod.mk.injEq] at h2
          exact ⟨k, h2.2, by rw [h1, hx], rfl⟩
        · right
          refine ⟨x, hxn, by rw [h1, hx]; simp, b, ?_, fun hb => ?_⟩
          · rw [hx, look_branch_below _ _ _ _ hxn] at h2
            exact h2
          · obtain ⟨s, b', k', hs, h4⟩ := h3 hb
            rw [hx, List.append_assoc, look_branch_below _ _ _ _ (by simp [hxn])] at h4
            exact ⟨s, b', k', hs, h4⟩

theorem dfsList_mem (ns : List Node) (hw : WFL ns) (pre q : FPath) (k : Nat) :
    (q, k) ∈ dfsList pre ns ↔ ∃ r, r ≠ [] ∧ q = pre ++ r ∧ Emits (lookL ns) r k := by
  have key : (q, k) ∈ dfsList pre ns ↔ ∃ n ∈ ns, ∃ r, q = pre ++ r ∧ Emits (look n) r k := by
    match ns, hw with
    | [], _ => simp [dfsList]
    | n :: ns, hw =>
      have hn := dfsNode_mem n (hw.wf n (by simp)) pre q k
      have ht := dfsList_mem ns hw.tail pre q k
      rw [dfsList, List.mem_append, hn, ht]
      constructor
      · rintro (h | ⟨r, hr, h1, h2⟩)
        · exact ⟨n, by simp, h⟩
        · obtain ⟨m, hm, h3⟩ := (emits_list hw.tail hr k).1 h2
          exact ⟨m, by simp [hm], r, h1, h3⟩
      · rintro ⟨m, hm, r, h1, h2⟩
        rcases List.mem_cons.1 hm with rfl | hm
        · exact .inl ⟨r, h1, h2⟩
        · have hr := emits_ne (hw.tail.ne m hm) h2
          exact .inr ⟨r, hr, h1, (emits_list hw.tail hr k).2 ⟨m, hm, h2⟩⟩
  rw [key]
  constructor
  · rintro ⟨n, hn, r, h1, h2⟩
    have hr := emits_ne (hw.ne n hn) h2
    exact ⟨r, hr, h1, (emits_list hw hr k).2 ⟨n, hn, h2⟩⟩
  · rintro ⟨r, hr, h1, h2⟩
    obtain ⟨n, hn, h3⟩ := (emits_list hw hr k).1 h2
    exact ⟨n, hn, r, h1, h3⟩

end

mutual

theorem dfsNode_nodup (n : Node) (hw : WF n) (pre : FPath) : ((dfsNode pre n).map Prod.fst).Nodup := by
  match n, hw with
  | .leaf c ty d, _ =>
    rw [dfsNode]
    cases d <;> simp
  | .branch c ch d, hw =>
    rw [dfsNode]
    split
    · simp
    · rw [List.map_append, List.nodup_append]
      refine ⟨by cases d <;> simp, dfsList_nodup ch hw.children (pre ++ c), ?_⟩
      intro a ha b hb
      have h1 : a = pre ++ c := by
        cases d with
        | none => simp at ha
        | some k => simpa using ha
      rw [List.mem_map] at hb
      obtain ⟨⟨q, k⟩, hq, rfl⟩ := hb
      obtain ⟨r, hr, h2, _⟩ := (dfsList_mem ch hw.children (pre ++ c) q k).1 hq
      rw [h1]
      intro h3
      simp only at h3
      rw [h2] at h3
      exact hr (by simpa using h3)

theorem dfsList_nodup (ns : List Node) (hw : WFL ns) (pre : FPath) : ((dfsList pre ns).map Prod.fst).Nodup := by
  match ns, hw with
  | [], _ => simp [dfsList]
  | n :: ns, hw =>
    rw [dfsList, List.map_append, List.nodup_append]
    refine ⟨dfsNode_nodup n (hw.wf n (by simp)) pre, dfsList_nodup ns hw.tail pre, ?_⟩
    intro a ha b hb
    rw [List.mem_map] at ha hb
    obtain ⟨⟨p, k⟩, hp, rfl⟩ := ha
    obtain ⟨⟨q, j⟩, hq, rfl⟩ := hb
    obtain ⟨r, h1, b1, h2, _⟩ := (dfsNode_mem n (hw.wf n (by simp)) pre p k).1 hp
    obtain ⟨s, hs, h3, b2, h4, _⟩ := (dfsList_mem ns hw.tail pre q j).1 hq
    intro h5
    simp only at h5
    rw [h1, h3] at h5
    have h6 : r = s := List.append_cancel_left h5
    subst h6
    obtain ⟨m, hm, h7⟩ := (lookL_iff hw.tail hs _).1 h4
    have hhd : n.comp.head? = m.comp.head? := by
      rw [look_head (hw.ne n (by simp)) h2, look_head (hw.tail.ne m hm) h7]
    have := hw.heads
    unfold Heads at this
    simp only [List.map_cons, List.nodup_cons, List.mem_map, not_exists, not_and] at this
    exact this.1 m hm hhd.symm

end

end Litcheck.PathTree
