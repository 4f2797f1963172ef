import Verif.Proofs.PathChildren
import Verif.Props.PathTree

/-!
# Property C94: the entries below a path

`Hist`, `lastAt`, `IsDir`, `Above` and `Registered` are those of `Verif/Spec/PathTree.lean`; `p <+: q` says that `p` is `q` or an ancestor of it.
-/

namespace Litcheck.PathTree
open Litcheck.PSpec

variable {V : Type}

theorem filterMap_filter (data : List V) (c : FPath → Bool) (l : List (FPath × Nat)) :
    ((l.filter fun e => c e.1).filterMap fun (p, k) => data[k]?.map fun v => (p, v)) =
      (l.filterMap fun (p, k) => data[k]?.map fun v => (p, v)).filter fun e => c e.1 := by
  induction l with
  | nil => rfl
  | cons e l ih =>
    obtain ⟨p, k⟩ := e
    by_cases hc : c p = true
    · rw [List.filter_cons_of_pos (by exact hc), List.filterMap_cons, List.filterMap_cons, ih]
      cases hk : data[k]? with
      | none => simp only [hk, Option.map_none]
      | some v =>
        simp only [hk, Option.map_some]
        rw [List.filter_cons_of_pos (by exact hc)]
    · rw [List.filter_cons_of_neg (by exact hc), List.filterMap_cons, ih]
      cases hk : data[k]? with
      | none => simp only [hk, Option.map_none]
      | some v =>
        simp only [hk, Option.map_some]
        rw [List.filter_cons_of_neg (by exact hc)]

theorem children_spec {t : PathTree V} {h : Hist V} (hb : Built t h) (hd : Deep h) {path : FPath} (hp : path ≠ []) :
    ∃ δ, δ ≤ path.length ∧ ∀ limit, children t path limit =
      .ok ((iter t).filter fun e => path.isPrefixOf e.1 && !tooDeep limit (e.1.length - (path.length - δ))) := by
  obtain ⟨iw, _⟩ := hb.dirs hd
  obtain ⟨δ, h1, h2⟩ := atFirst_gives [] t.roots iw path hp
  refine ⟨δ, h1, fun limit => ?_⟩
  unfold children
  rw [if_neg (fun x => hp x.1)]
  have h3 := h2 limit
  dsimp only [List.nil_append] at h3
  rw [h3]
  unfold iter within
  rw [filterMap_filter t.data (fun p => path.isPrefixOf p && !tooDeep limit (p.length - (path.length - δ)))]

/-- **C94**: without a depth limit, `children` gives, each once, the entries at the path and below it: those of `iter`, in the same
order, and so (C34) with the value inserted last.
Missing (hence partial): a directory below which nothing is registered is left out, as by `iter` (`iter_entries_refuted`); trees
into which paths of one component were inserted; paths which are not canonical (`C94_path_refuted`). -/
theorem C94_descendants_partial {t : PathTree V} {h : Hist V} (hb : Built t h) (hd : Deep h) {path : FPath} (hp : path ≠ []) :
    ∃ l, children t path none = .ok l ∧ l.Sublist (iter t) ∧ (l.map Prod.fst).Nodup ∧
      ∀ p v, (p, v) ∈ l ↔ path <+: p ∧ lastAt h p = some v ∧ (IsDir h p → ∃ q, Above p q ∧ Registered h q) := by
  obtain ⟨δ, _, h2⟩ := children_spec hb hd hp
  obtain ⟨h3, h4⟩ := iter_entries_partial t h hb hd
  refine ⟨_, h2 none, List.filter_sublist, (List.filter_sublist.map _).nodup h3, ?_⟩
  intro p v
  rw [List.mem_filter, h4]
  simp only [tooDeep, Bool.not_false, Bool.and_true, List.isPrefixOf_iff_prefix]
  tauto

/-- **C94**, with a depth limit: the entries are those at most so many components deeper than some ancestor of the path, or the path itself; so
there is none which is deeper than the limit says. Which ancestor it is depends on the tree, not on the limit.
Missing (hence partial): that the limit is counted from the path itself (`C94_depth_refuted`). -/
theorem C94_depth_partial {t : PathTree V} {h : Hist V} (hb : Built t h) (hd : Deep h) {path : FPath} (hp : path ≠ []) :
    ∃ a, a <+: path ∧ ∀ m, ∃ l, children t path (some m) = .ok l ∧ l.Sublist (iter t) ∧ (l.map Prod.fst).Nodup ∧
      ∀ p v, (p, v) ∈ l ↔ path <+: p ∧ p.length ≤ a.length + m ∧ lastAt h p = some v ∧ (IsDir h p → ∃ q, Above p q ∧ Registered h q) := by
  obtain ⟨δ, h1, h2⟩ := children_spec hb hd hp
  obtain ⟨h3, h4⟩ := iter_entries_partial t h hb hd
  refine ⟨path.take (path.length - δ), List.take_prefix _ _, fun m => ⟨_, h2 (some m), List.filter_sublist, (List.filter_sublist.map _).nodup h3, ?_⟩⟩
  intro p v
  rw [List.mem_filter, h4, List.length_take]
  simp only [tooDeep, Bool.and_eq_true, List.isPrefixOf_iff_prefix, Bool.not_eq_true', decide_eq_false_iff_not]
  have e : min (path.length - δ) path.length = path.length - δ := by omega
  rw [e]
  constructor
  · rintro ⟨⟨a1, a2⟩, a3, a4⟩
    exact ⟨a3, by omega, a1, a2⟩
  · rintro ⟨a1, a2, a3, a4⟩
    exact ⟨⟨a3, a4⟩, a1, by omega⟩

/-- The tree of the documentation of `children`: `/foo/bar`, `/foo/bar/baz`, `/foo/bar/baz/qux`. -/
def docPaths : List (FPath × Nat) :=
  [([.root, n "foo", n "bar"], 1), ([.root, n "foo", n "bar", n "baz"], 2), ([.root, n "foo", n "bar", n "baz", n "qux"], 3)]

/-- The tree meets the hypotheses, and without a limit there are three entries at or below `/foo/bar`. -/
example : ∃ t : PathTree Nat, ∃ h : Hist Nat, Built t h ∧ Deep h ∧ h.length = 3 ∧
    children t [.root, n "foo", n "bar"] none = .ok docPaths ∧ children t [.root, n "foo"] none = .ok docPaths := by
  obtain ⟨t, ht, h⟩ := inserts_obs (fs := noFs) docPaths (fun t => (children t [.root, n "foo", n "bar"] none, children t [.root, n "foo"] none))
    (b := (.ok docPaths, .ok docPaths)) (by with_unfolding_all rfl)
  rw [Prod.mk.injEq] at h
  refine ⟨t, _, ht, ?_, rfl, h⟩
  unfold Deep
  decide +kernel

/-- C94 is false with a limit, of the example in the documentation: `/foo/bar/baz` has one component more than `/foo/bar` and is not given with the limit 1. In another tree
with the same entries below `/foo/bar` nothing at all is given, even with the limit 2. -/
theorem C94_depth_refuted :
    (∃ t : PathTree Nat, ∃ h : Hist Nat, Built t h ∧ Deep h ∧ lastAt h [.root, n "foo", n "bar", n "baz"] = some 2 ∧
      children t [.root, n "foo", n "bar"] (some 1) = .ok [([.root, n "foo", n "bar"], 1)]) ∧
    ∃ t : PathTree Nat, ∃ h : Hist Nat, Built t h ∧ Deep h ∧ lastAt h [.root, n "foo", n "bar", n "baz"] = some 2 ∧
      children t [.root, n "foo", n "bar"] (some 2) = .ok [] := by
  constructor
  · obtain ⟨t, ht, h⟩ := inserts_obs (fs := noFs) docPaths (fun t => children t [.root, n "foo", n "bar"] (some 1))
      (b := .ok [([.root, n "foo", n "bar"], 1)]) (by with_unfolding_all rfl)
    refine ⟨t, _, ht, ?_, by decide +kernel, h⟩
    unfold Deep
    decide +kernel
  · obtain ⟨t, ht, h⟩ := inserts_obs (fs := noFs) [([.root, n "foo", n "bar", n "baz"], 2)] (fun t => children t [.root, n "foo", n "bar"] (some 2))
      (b := .ok []) (by with_unfolding_all rfl)
    refine ⟨t, _, ht, ?_, by decide +kernel, h⟩
    unfold Deep
    decide +kernel

/-- C94 is false of paths which are not canonical: unlike `get`, `children` does not canonicalise the path. -/
theorem C94_path_refuted : ∃ t : PathTree Nat, ∃ h : Hist Nat, Built t h ∧ Deep h ∧
    get noFs t [.root, n "x", .parent, n "foo", n "bar"] = .ok (some 1) ∧ children t [.root, n "x", .parent, n "foo", n "bar"] none = .ok [] := by
  obtain ⟨t, ht, h⟩ := inserts_obs (fs := noFs) docPaths
    (fun t => (get noFs t [.root, n "x", .parent, n "foo", n "bar"], children t [.root, n "x", .parent, n "foo", n "bar"] none))
    (b := (.ok (some 1), .ok [])) (by with_unfolding_all rfl)
  rw [Prod.mk.injEq] at h
  refine ⟨t, _, ht, ?_, h⟩
  unfold Deep
  decide +kernel

end Litcheck.PathTree
