import Verif.Spec.Registry
import Verif.Props.TestList
import Verif.Props.Execute
import Verif.Props.PathTree
import Mathlib.Data.List.Lex

/-!
# Lemmas about suites and test discovery
-/

namespace Litcheck.Registry

/-! ## Maps ordered by key -/

theorem map_toNat_inj {a b : Str} (h : a.map Char.toNat = b.map Char.toNat) : a = b := by
  refine List.map_injective_iff.2 ?_ h
  intro x y e
  exact Char.toNat_inj.1 e

theorem Key.code_inj {a b : Key} (h : a.code = b.code) : a = b := by
  obtain ⟨n, p⟩ := a
  obtain ⟨m, q⟩ := b
  simp only [Key.code, List.cons.injEq] at h
  have e1 := map_toNat_inj h.1
  have e2 : p = q := by
    refine List.map_injective_iff.2 ?_ h.2
    intro x y e
    exact map_toNat_inj e
  rw [e1, e2]

/-- Keys in strictly increasing order. -/
def Sorted {V : Type} (m : KMap V) : Prop := (m.map fun e => e.1.code).Pairwise (· < ·)

variable {V : Type}

theorem Sorted.nodup {m : KMap V} (h : Sorted m) : (m.map (·.1)).Nodup := by
  have : (m.map fun e => e.1.code).Nodup := h.imp (fun hlt => ne_of_lt hlt)
  have e : (m.map fun e => e.1.code) = (m.map (·.1)).map Key.code := by simp
  rw [e] at this
  exact List.Nodup.of_map _ this

theorem KMap.mem_insert {m : KMap V} {k : Key} {v : V} {e : Key × V} (h : e ∈ m.insert k v) : e = (k, v) ∨ e ∈ m := by
  induction m with
  | nil => simp [KMap.insert] at h; exact .inl h
  | cons a m ih =>
    obtain ⟨k', v'⟩ := a
    simp only [KMap.insert] at h
    split at h
    · rcases List.mem_cons.1 h with h | h
      · exact .inl h
      · exact .inr (List.mem_cons_of_mem _ h)
    · split at h
      · rcases List.mem_cons.1 h with h | h
        · exact .inl h
        · exact .inr h
      · rcases List.mem_cons.1 h with h | h
        · exact .inr (h ▸ List.mem_cons_self)
        · rcases ih h with h | h
          · exact .inl h
          · exact .inr (List.mem_cons_of_mem _ h)

theorem Sorted.insert {m : KMap V} (h : Sorted m) (k : Key) (v : V) : Sorted (m.insert k v) := by
  induction m with
  | nil => simp [KMap.insert, Sorted]
  | cons a m ih =>
    obtain ⟨k', v'⟩ := a
    simp only [Sorted, List.map_cons, List.pairwise_cons, List.mem_map, forall_exists_index, and_imp,
      forall_apply_eq_imp_iff₂] at h
    simp only [KMap.insert]
    split
    · rename_i e
      subst e
      simp only [Sorted, List.map_cons, List.pairwise_cons, List.mem_map, forall_exists_index, and_imp,
        forall_apply_eq_imp_iff₂]
      exact h
    · rename_i ne
      split
      · rename_i lt
        simp only [Sorted, List.map_cons, List.pairwise_cons, List.mem_map, forall_exists_index, and_imp,
          forall_apply_eq_imp_iff₂]
        refine ⟨?_, h⟩
        intro c hc
        rcases List.mem_cons.1 hc with rfl | hc
        · exact lt
        · obtain ⟨e, he, rfl⟩ := List.mem_map.1 hc
          exact lt_trans lt (h.1 e he)
      · rename_i nlt
        simp only [Sorted, List.map_cons, List.pairwise_cons, List.mem_map, forall_exists_index, and_imp,
          forall_apply_eq_imp_iff₂]
        refine ⟨?_, ih h.2⟩
        intro e he
        rcases KMap.mem_insert he with rfl | he
        · rcases lt_trichotomy k'.code k.code with hlt | heq | hgt
          · exact hlt
          · exact absurd (Key.code_inj heq) ne
          · exact absurd hgt nlt
        · exact h.1 e he

theorem KMap.get_insert (m : KMap V) (k q : Key) (v : V) :
    (m.insert k v).get q = if q = k then some v else m.get q := by
  induction m with
  | nil =>
    by_cases h : q = k
    · subst h; simp [KMap.insert, KMap.get]
    · rw [if_neg h]
      have : (k == q) = false := by simp [Ne.symm h]
      simp [KMap.insert, KMap.get, List.find?_cons, this]
  | cons a m ih =>
    obtain ⟨k', v'⟩ := a
    simp only [KMap.insert]
    split
    · rename_i e
      subst e
      by_cases h : q = k'
      · subst h; simp [KMap.get]
      · rw [if_neg h]
        have : (k' == q) = false := by simp [Ne.symm h]
        simp [KMap.get, List.find?_cons, this]
    · rename_i ne
      split
      · by_cases h : q = k
        · subst h; simp [KMap.get]
        · rw [if_neg h]
          have : (k == q) = false := by simp [Ne.symm h]
          simp [KMap.get, List.find?_cons, this]
      · by_cases h' : k' = q
        · subst h'
          rw [if_neg ne]
          simp [KMap.get]
        · have : (k' == q) = false := by simp [h']
          simp only [KMap.get, List.find?_cons, this] at ih ⊢
          exact ih

theorem KMap.get_mem {m : KMap V} {k : Key} {v : V} (h : m.get k = some v) : (k, v) ∈ m := by
  simp only [KMap.get, Option.map_eq_some_iff] at h
  obtain ⟨e, h1, h2⟩ := h
  have e1 := List.find?_some h1
  have e2 := List.mem_of_find?_eq_some h1
  obtain ⟨k', v'⟩ := e
  simp only [beq_iff_eq] at e1
  dsimp only at h2
  subst e1; subst h2
  exact e2

theorem KMap.get_none {m : KMap V} {k : Key} : m.get k = none ↔ k ∉ m.map (·.1) := by
  simp only [KMap.get, Option.map_eq_none_iff, List.find?_eq_none, List.mem_map, not_exists, not_and, beq_iff_eq]

theorem Sorted.get_iff {m : KMap V} (h : Sorted m) (k : Key) (v : V) : m.get k = some v ↔ (k, v) ∈ m := by
  refine ⟨KMap.get_mem, ?_⟩
  induction m with
  | nil => simp
  | cons a m ih =>
    obtain ⟨k', v'⟩ := a
    intro hm
    have nd := h.nodup
    simp only [List.map_cons, List.nodup_cons] at nd
    have hs : Sorted m := by
      simp only [Sorted, List.map_cons, List.pairwise_cons] at h
      exact h.2
    rcases List.mem_cons.1 hm with e | hm
    · injection e with e1 e2
      subst e1; subst e2
      simp [KMap.get]
    · have ne : k' ≠ k := by
        rintro rfl
        exact nd.1 (List.mem_map.2 ⟨_, hm, rfl⟩)
      have : (k' == k) = false := by simp [ne]
      have := ih hs hm
      simp only [KMap.get] at this
      simp [KMap.get, List.find?_cons, ne, this]

theorem KMap.keys_insert_old {m : KMap V} {k : Key} (v : V) (h : (m.get k).isSome) (hs : Sorted m) :
    (m.insert k v).map (·.1) = m.map (·.1) := by
  induction m with
  | nil => simp [KMap.get] at h
  | cons a m ih =>
    obtain ⟨k', v'⟩ := a
    simp only [KMap.insert]
    split
    · rename_i e; simp [e]
    · rename_i ne
      have hm : (KMap.get m k).isSome := by
        have : (k' == k) = false := by simp [ne]
        simpa [KMap.get, List.find?_cons, ne] using h
      simp only [Sorted, List.map_cons, List.pairwise_cons, List.mem_map, forall_exists_index, and_imp,
        forall_apply_eq_imp_iff₂] at hs
      split
      · rename_i lt
        exfalso
        obtain ⟨v0, hv⟩ := Option.isSome_iff_exists.1 hm
        have := hs.1 _ (KMap.get_mem hv)
        exact absurd (lt_trans lt this) (lt_irrefl _)
      · simp [ih hm hs.2]

theorem KMap.length_insert_new {m : KMap V} {k : Key} (v : V) (h : m.get k = none) : (m.insert k v).length = m.length + 1 := by
  induction m with
  | nil => simp [KMap.insert]
  | cons a m ih =>
    obtain ⟨k', v'⟩ := a
    simp only [KMap.insert]
    split
    · rename_i e; subst e; simp [KMap.get] at h
    · rename_i ne
      have hm : KMap.get m k = none := by
        simpa [KMap.get, List.find?_cons, ne] using h
      split
      · simp
      · simp [ih hm]

/-- Inserting the same key in two maps with the same keys leaves them with the same keys. -/
theorem KMap.keys_insert_congr {W : Type} (m : KMap V) (m' : KMap W) (h : m.map (·.1) = m'.map (·.1)) (k : Key) (v : V) (w : W) :
    (m.insert k v).map (·.1) = (m'.insert k w).map (·.1) := by
  induction m generalizing m' with
  | nil =>
    cases m' with
    | nil => rfl
    | cons b m' => simp at h
  | cons a m ih =>
    cases m' with
    | nil => simp at h
    | cons b m' =>
      obtain ⟨k1, v1⟩ := a
      obtain ⟨k2, v2⟩ := b
      simp only [List.map_cons, List.cons.injEq] at h
      obtain ⟨rfl, h⟩ := h
      simp only [KMap.insert]
      split
      · simp [h]
      · split
        · simp [h]
        · simp [ih m' h]

end Litcheck.Registry

namespace Litcheck.Registry

open Litcheck.RSpec Litcheck.PSpec

/-! ## The walk of a directory -/

/-- A file below some entries. -/
def HasFile : List FNode → DPath → Prop
  | _, [] => False
  | ns, [x] => .file x ∈ ns
  | ns, x :: y :: xs => ∃ ch, .dir x ch ∈ ns ∧ HasFile ch (y :: xs)

/-- A directory below some entries. -/
def HasDir : List FNode → DPath → Prop
  | _, [] => False
  | ns, [x] => ∃ ch, .dir x ch ∈ ns
  | ns, x :: y :: xs => ∃ ch, .dir x ch ∈ ns ∧ HasDir ch (y :: xs)

theorem hasFile_cons (ns : List FNode) (x : Str) (xs : DPath) (h : xs ≠ []) :
    HasFile ns (x :: xs) ↔ ∃ ch, .dir x ch ∈ ns ∧ HasFile ch xs := by
  cases xs with
  | nil => exact absurd rfl h
  | cons y ys => rfl

theorem hasDir_cons (ns : List FNode) (x : Str) (xs : DPath) (h : xs ≠ []) :
    HasDir ns (x :: xs) ↔ ∃ ch, .dir x ch ∈ ns ∧ HasDir ch xs := by
  cases xs with
  | nil => exact absurd rfl h
  | cons y ys => rfl

/-- The proper ancestors of `rel`, below `at'`, all satisfy `P`. -/
def Way (P : DPath → Prop) (at' rel : DPath) : Prop := ∀ q, q ≠ [] → q <+: rel → q ≠ rel → P (at' ++ q)

theorem way_single (P : DPath → Prop) (at' : DPath) (x : Str) : Way P at' [x] := by
  intro q hq hp hne
  obtain ⟨t, ht⟩ := hp
  cases q with
  | nil => exact absurd rfl hq
  | cons a q =>
    simp only [List.cons_append, List.cons.injEq, List.append_eq_nil_iff] at ht
    obtain ⟨rfl, rfl, _⟩ := ht
    exact absurd rfl hne

theorem way_cons (P : DPath → Prop) (at' : DPath) (x : Str) (xs : DPath) (h : xs ≠ []) :
    Way P at' (x :: xs) ↔ P (at' ++ [x]) ∧ Way P (at' ++ [x]) xs := by
  constructor
  · intro hw
    refine ⟨hw [x] (by simp) ⟨xs, rfl⟩ (by simp [h.symm]), ?_⟩
    intro q hq hp hne
    have := hw (x :: q) (by simp) (by simpa using hp) (by simpa using hne)
    simpa using this
  · rintro ⟨h1, h2⟩ q hq hp hne
    cases q with
    | nil => exact absurd rfl hq
    | cons a q =>
      obtain ⟨rfl, hp'⟩ := List.cons_prefix_cons.1 hp
      by_cases e : q = []
      · subst e; exact h1
      · have := h2 q e hp' (by simpa using hne)
        simpa using this

mutual

theorem walk_files (keep own nested : DPath → Bool) (at' : DPath) (ns : List FNode) (p : DPath) :
    p ∈ (walk keep own nested at' ns).1 ↔
      ∃ rel, p = at' ++ rel ∧ HasFile ns rel ∧ keep p = true ∧ Way (fun q => own q = true ∨ nested q = false) at' rel := by
  match ns with
  | [] =>
    simp only [walk, List.not_mem_nil, false_iff]
    rintro ⟨rel, _, h, _⟩
    match rel with
    | [] => exact h
    | [x] => simp [HasFile] at h
    | x :: y :: xs => simp [HasFile] at h
  | n :: ns =>
    simp only [walk, List.mem_append, walk_files keep own nested at' ns p, walkNode_files keep own nested at' n p]
    constructor
    · rintro (⟨rel, h1, h2, h3⟩ | ⟨rel, h1, h2, h3⟩)
      · refine ⟨rel, h1, ?_, h3⟩
        match rel with
        | [] => exact h2
        | [x] => simp only [HasFile, List.mem_singleton] at h2 ⊢; simp [h2]
        | x :: y :: xs =>
          simp only [HasFile, List.mem_singleton] at h2 ⊢
          obtain ⟨ch, e, h⟩ := h2
          exact ⟨ch, by simp [e], h⟩
      · refine ⟨rel, h1, ?_, h3⟩
        match rel with
        | [] => exact h2
        | [x] => simp only [HasFile] at h2 ⊢; simp [h2]
        | x :: y :: xs =>
          simp only [HasFile] at h2 ⊢
          obtain ⟨ch, e, h⟩ := h2
          exact ⟨ch, by simp [e], h⟩
    · rintro ⟨rel, h1, h2, h3⟩
      match rel with
      | [] => exact absurd h2 (by simp [HasFile])
      | [x] =>
        simp only [HasFile, List.mem_cons] at h2
        rcases h2 with h2 | h2
        · exact .inl ⟨[x], h1, by simp [HasFile, h2], h3⟩
        · exact .inr ⟨[x], h1, by simp [HasFile, h2], h3⟩
      | x :: y :: xs =>
        simp only [HasFile, List.mem_cons] at h2
        obtain ⟨ch, e | e, h⟩ := h2
        · exact .inl ⟨x :: y :: xs, h1, ⟨ch, by simp [e], h⟩, h3⟩
        · exact .inr ⟨x :: y :: xs, h1, ⟨ch, e, h⟩, h3⟩

theorem walkNode_files (keep own nested : DPath → Bool) (at' : DPath) (n : FNode) (p : DPath) :
    p ∈ (walkNode keep own nested at' n).1 ↔
      ∃ rel, p = at' ++ rel ∧ HasFile [n] rel ∧ keep p = true ∧ Way (fun q => own q = true ∨ nested q = false) at' rel := by
  match n with
  | .file x =>
    simp only [walkNode]
    constructor
    · intro h
      split at h
      · rename_i hk
        simp only [List.mem_singleton] at h
        subst h
        exact ⟨[x], rfl, by simp [HasFile], hk, way_single _ _ _⟩
      · simp at h
    · rintro ⟨rel, h1, h2, h3, _⟩
      match rel with
      | [] => exact absurd h2 (by simp [HasFile])
      | [y] =>
        simp only [HasFile, List.mem_singleton, FNode.file.injEq] at h2
        subst h2; subst h1
        simp [h3]
      | y :: z :: zs => simp [HasFile] at h2
  | .dir x ch =>
    have key : p ∈ (walk keep own nested (at' ++ [x]) ch).1 ∧ (own (at' ++ [x]) = true ∨ nested (at' ++ [x]) = false) ↔
        ∃ rel, p = at' ++ rel ∧ HasFile [.dir x ch] rel ∧ keep p = true ∧ Way (fun q => own q = true ∨ nested q = false) at' rel := by
      rw [walk_files keep own nested (at' ++ [x]) ch p]
      constructor
      · rintro ⟨⟨rel, h1, h2, h3, h4⟩, h5⟩
        have hne : rel ≠ [] := by rintro rfl; exact h2
        refine ⟨x :: rel, by simp [h1], (hasFile_cons _ _ _ hne).2 ⟨ch, by simp, h2⟩, h3, (way_cons _ _ _ _ hne).2 ⟨h5, h4⟩⟩
      · rintro ⟨rel, h1, h2, h3, h4⟩
        match rel with
        | [] => exact absurd h2 (by simp [HasFile])
        | [y] => simp [HasFile] at h2
        | y :: z :: zs =>
          simp only [HasFile, List.mem_singleton, FNode.dir.injEq] at h2
          obtain ⟨ch', ⟨rfl, rfl⟩, h2⟩ := h2
          obtain ⟨h5, h6⟩ := (way_cons _ _ _ _ (by simp)).1 h4
          exact ⟨⟨z :: zs, by simp [h1], h2, h3, h6⟩, h5⟩
    rw [← key]
    simp only [walkNode]
    split
    · rename_i h; simp [h]
    · rename_i h1
      split
      · rename_i h2; simp [h1, h2]
      · rename_i h2; simp [h2]

end

mutual

theorem walk_dirs (keep own nested : DPath → Bool) (at' : DPath) (ns : List FNode) (p : DPath) :
    p ∈ (walk keep own nested at' ns).2 ↔
      ∃ rel, p = at' ++ rel ∧ HasDir ns rel ∧ (own p = false ∧ nested p = true) ∧
        Way (fun q => own q = true ∨ nested q = false) at' rel := by
  match ns with
  | [] =>
    simp only [walk, List.not_mem_nil, false_iff]
    rintro ⟨rel, _, h, _⟩
    match rel with
    | [] => exact h
    | [x] => simp [HasDir] at h
    | x :: y :: xs => simp [HasDir] at h
  | n :: ns =>
    simp only [walk, List.mem_append, walk_dirs keep own nested at' ns p, walkNode_dirs keep own nested at' n p]
    constructor
    · rintro (⟨rel, h1, h2, h3⟩ | ⟨rel, h1, h2, h3⟩)
      · refine ⟨rel, h1, ?_, h3⟩
        match rel with
        | [] => exact h2
        | [x] =>
          simp only [HasDir, List.mem_singleton] at h2 ⊢
          obtain ⟨ch, e⟩ := h2
          exact ⟨ch, by simp [e]⟩
        | x :: y :: xs =>
          simp only [HasDir, List.mem_singleton] at h2 ⊢
          obtain ⟨ch, e, h⟩ := h2
          exact ⟨ch, by simp [e], h⟩
      · refine ⟨rel, h1, ?_, h3⟩
        match rel with
        | [] => exact h2
        | [x] =>
          simp only [HasDir] at h2 ⊢
          obtain ⟨ch, e⟩ := h2
          exact ⟨ch, by simp [e]⟩
        | x :: y :: xs =>
          simp only [HasDir] at h2 ⊢
          obtain ⟨ch, e, h⟩ := h2
          exact ⟨ch, by simp [e], h⟩
    · rintro ⟨rel, h1, h2, h3⟩
      match rel with
      | [] => exact absurd h2 (by simp [HasDir])
      | [x] =>
        simp only [HasDir, List.mem_cons] at h2
        obtain ⟨ch, h2 | h2⟩ := h2
        · exact .inl ⟨[x], h1, ⟨ch, by simp [h2]⟩, h3⟩
        · exact .inr ⟨[x], h1, ⟨ch, h2⟩, h3⟩
      | x :: y :: xs =>
        simp only [HasDir, List.mem_cons] at h2
        obtain ⟨ch, e | e, h⟩ := h2
        · exact .inl ⟨x :: y :: xs, h1, ⟨ch, by simp [e], h⟩, h3⟩
        · exact .inr ⟨x :: y :: xs, h1, ⟨ch, e, h⟩, h3⟩

theorem walkNode_dirs (keep own nested : DPath → Bool) (at' : DPath) (n : FNode) (p : DPath) :
    p ∈ (walkNode keep own nested at' n).2 ↔
      ∃ rel, p = at' ++ rel ∧ HasDir [n] rel ∧ (own p = false ∧ nested p = true) ∧
        Way (fun q => own q = true ∨ nested q = false) at' rel := by
  match n with
  | .file x =>
    simp only [walkNode, List.not_mem_nil, false_iff]
    rintro ⟨rel, h1, h2, h3, _⟩
    match rel with
    | [] => exact h2
    | [y] => simp [HasDir] at h2
    | y :: z :: zs => simp [HasDir] at h2
  | .dir x ch =>
    have key : (p ∈ (walk keep own nested (at' ++ [x]) ch).2 ∧ (own (at' ++ [x]) = true ∨ nested (at' ++ [x]) = false)) ∨
          (p = at' ++ [x] ∧ own p = false ∧ nested p = true) ↔
        ∃ rel, p = at' ++ rel ∧ HasDir [.dir x ch] rel ∧ (own p = false ∧ nested p = true) ∧
          Way (fun q => own q = true ∨ nested q = false) at' rel := by
      rw [walk_dirs keep own nested (at' ++ [x]) ch p]
      constructor
      · rintro (⟨⟨rel, h1, h2, h3, h4⟩, h5⟩ | ⟨h1, h2⟩)
        · have hne : rel ≠ [] := by rintro rfl; exact h2
          refine ⟨x :: rel, by simp [h1], (hasDir_cons _ _ _ hne).2 ⟨ch, by simp, h2⟩, h3, (way_cons _ _ _ _ hne).2 ⟨h5, h4⟩⟩
        · exact ⟨[x], h1, ⟨ch, by simp⟩, h2, way_single _ _ _⟩
      · rintro ⟨rel, h1, h2, h3, h4⟩
        match rel with
        | [] => exact absurd h2 (by simp [HasDir])
        | [y] =>
          simp only [HasDir, List.mem_singleton, FNode.dir.injEq] at h2
          obtain ⟨ch', rfl, rfl⟩ := h2
          exact .inr ⟨h1, h3⟩
        | y :: z :: zs =>
          simp only [HasDir, List.mem_singleton, FNode.dir.injEq] at h2
          obtain ⟨ch', ⟨rfl, rfl⟩, h2⟩ := h2
          obtain ⟨h5, h6⟩ := (way_cons _ _ _ _ (by simp)).1 h4
          exact .inl ⟨⟨z :: zs, by simp [h1], h2, h3, h6⟩, h5⟩
    rw [← key]
    simp only [walkNode]
    by_cases h1 : own (at' ++ [x]) = true
    · rw [if_pos h1]
      constructor
      · intro h; exact .inl ⟨h, .inl h1⟩
      · rintro (h | ⟨rfl, h, _⟩)
        · exact h.1
        · rw [h1] at h; exact absurd h (by simp)
    · rw [if_neg h1]
      by_cases h2 : nested (at' ++ [x]) = true
      · rw [if_pos h2]
        simp only [List.mem_singleton]
        constructor
        · intro h; exact .inr ⟨h, by rw [h]; simpa using h1, by rw [h]; exact h2⟩
        · rintro (⟨_, h | h⟩ | ⟨h, _⟩)
          · exact absurd h h1
          · rw [h2] at h; exact absurd h (by simp)
          · exact h
      · rw [if_neg h2]
        constructor
        · intro h; exact .inl ⟨h, .inr (by simpa using h2)⟩
        · rintro (h | ⟨rfl, _, h⟩)
          · exact h.1
          · exact absurd h h2

end

/-! ## Every file once -/

theorem HasFile.head {ns : List FNode} {x : Str} {xs : DPath} (h : HasFile ns (x :: xs)) : ∃ n ∈ ns, n.name = x := by
  cases xs with
  | nil => exact ⟨_, h, rfl⟩
  | cons y ys => obtain ⟨ch, hc, _⟩ := h; exact ⟨_, hc, rfl⟩

theorem HasDir.head {ns : List FNode} {x : Str} {xs : DPath} (h : HasDir ns (x :: xs)) : ∃ n ∈ ns, n.name = x := by
  cases xs with
  | nil => obtain ⟨ch, hc⟩ := h; exact ⟨_, hc, rfl⟩
  | cons y ys => obtain ⟨ch, hc, _⟩ := h; exact ⟨_, hc, rfl⟩

theorem _root_.Litcheck.RSpec.Tidy.nodup {ns : List FNode} (h : Tidy ns) : (ns.map FNode.name).Nodup := by
  cases h with | mk h _ => exact h

theorem _root_.Litcheck.RSpec.Tidy.sub {ns : List FNode} (h : Tidy ns) {x : Str} {ch : List FNode} (hc : .dir x ch ∈ ns) : Tidy ch := by
  cases h with | mk _ h => exact h x ch hc

theorem _root_.Litcheck.RSpec.Tidy.tail {n : FNode} {ns : List FNode} (h : Tidy (n :: ns)) : Tidy ns := by
  refine .mk ?_ (fun x ch hc => h.sub (List.mem_cons_of_mem _ hc))
  have := h.nodup
  rw [List.map_cons, List.nodup_cons] at this
  exact this.2

mutual

theorem walk_nodup (keep own nested : DPath → Bool) (at' : DPath) (ns : List FNode) (h : Tidy ns) :
    (walk keep own nested at' ns).1.Nodup := by
  match ns with
  | [] => simp [walk]
  | n :: ns =>
    simp only [walk]
    refine List.Nodup.append (walkNode_nodup keep own nested at' n (fun x ch e => h.sub (x := x) (by simp [e])))
      (walk_nodup keep own nested at' ns h.tail) ?_
    intro p h1 h2
    obtain ⟨r1, e1, f1, _⟩ := (walkNode_files keep own nested at' n p).1 h1
    obtain ⟨r2, e2, f2, _⟩ := (walk_files keep own nested at' ns p).1 h2
    have e : r1 = r2 := List.append_cancel_left (e1.symm.trans e2)
    subst e
    cases r1 with
    | nil => exact f1
    | cons x xs =>
      obtain ⟨m, hm, e⟩ := f1.head
      obtain ⟨m', hm', e'⟩ := f2.head
      simp only [List.mem_singleton] at hm
      subst hm
      have nd := h.nodup
      rw [List.map_cons, List.nodup_cons] at nd
      exact nd.1 (List.mem_map.2 ⟨m', hm', e'.trans e.symm⟩)

theorem walkNode_nodup (keep own nested : DPath → Bool) (at' : DPath) (n : FNode)
    (h : ∀ x ch, n = .dir x ch → Tidy ch) : (walkNode keep own nested at' n).1.Nodup := by
  match n with
  | .file x => simp only [walkNode]; split <;> simp
  | .dir x ch =>
    have := walk_nodup keep own nested (at' ++ [x]) ch (h x ch rfl)
    simp only [walkNode]
    split
    · exact this
    · split
      · simp
      · exact this

end

/-! ## The disk -/

theorem find_tidy {ns : List FNode} (h : (ns.map FNode.name).Nodup) (n : FNode) :
    ns.find? (fun m => m.name == n.name) = some n ↔ n ∈ ns := by
  refine ⟨List.mem_of_find?_eq_some, ?_⟩
  induction ns with
  | nil => simp
  | cons m ns ih =>
    rw [List.map_cons, List.nodup_cons] at h
    intro hn
    rcases List.mem_cons.1 hn with rfl | hn
    · simp
    · have : (m.name == n.name) = false := by
        rw [beq_eq_false_iff_ne]
        intro e
        exact h.1 (List.mem_map.2 ⟨n, hn, e.symm⟩)
      rw [List.find?_cons, this]
      exact ih h.2 hn

theorem entriesAt_append (ns : List FNode) (p q : DPath) : entriesAt ns (p ++ q) = (entriesAt ns p).bind (entriesAt · q) := by
  induction p generalizing ns with
  | nil => simp [entriesAt]
  | cons x xs ih =>
    simp only [List.cons_append, entriesAt]
    split
    · rw [ih]
    · rfl

theorem entriesAt_tidy {ns ms : List FNode} {p : DPath} (h : Tidy ns) (he : entriesAt ns p = some ms) : Tidy ms := by
  induction p generalizing ns with
  | nil => simp only [entriesAt, Option.some.injEq] at he; exact he ▸ h
  | cons x xs ih =>
    simp only [entriesAt] at he
    split at he
    · rename_i y ch hf
      exact ih (h.sub (List.mem_of_find?_eq_some hf)) he
    · cases he

theorem entriesAt_cons {ns : List FNode} (h : Tidy ns) (x : Str) (xs : DPath) (ms : List FNode) :
    entriesAt ns (x :: xs) = some ms ↔ ∃ ch, .dir x ch ∈ ns ∧ entriesAt ch xs = some ms := by
  simp only [entriesAt]
  constructor
  · intro he
    split at he
    · rename_i y ch hf
      have := List.find?_some hf
      simp only [FNode.name, beq_iff_eq] at this
      subst this
      exact ⟨ch, List.mem_of_find?_eq_some hf, he⟩
    · cases he
  · rintro ⟨ch, hc, he⟩
    have : ns.find? (fun n => n.name == x) = some (.dir x ch) := (find_tidy h.nodup (.dir x ch)).2 hc
    rw [this]
    exact he

theorem hasDir_iff {ns : List FNode} (h : Tidy ns) (rel : DPath) (hr : rel ≠ []) :
    HasDir ns rel ↔ (entriesAt ns rel).isSome := by
  induction rel generalizing ns with
  | nil => exact absurd rfl hr
  | cons x xs ih =>
    rw [Option.isSome_iff_exists]
    simp only [entriesAt_cons h]
    by_cases e : xs = []
    · subst e
      simp [HasDir, entriesAt]
    · rw [hasDir_cons _ _ _ e]
      constructor
      · rintro ⟨ch, h1, h2⟩
        obtain ⟨ms, hm⟩ := Option.isSome_iff_exists.1 ((ih (h.sub h1) e).1 h2)
        exact ⟨ms, ch, h1, hm⟩
      · rintro ⟨ms, ch, h1, h2⟩
        exact ⟨ch, h1, (ih (h.sub h1) e).2 (by rw [h2]; rfl)⟩

theorem hasFile_snoc {ns : List FNode} (h : Tidy ns) (p : DPath) (x : Str) :
    HasFile ns (p ++ [x]) ↔ ∃ ms, entriesAt ns p = some ms ∧ .file x ∈ ms := by
  induction p generalizing ns with
  | nil => simp [HasFile, entriesAt]
  | cons y ys ih =>
    rw [List.cons_append, hasFile_cons _ _ _ (by simp)]
    constructor
    · rintro ⟨ch, h1, h2⟩
      obtain ⟨ms, h3, h4⟩ := (ih (h.sub h1)).1 h2
      exact ⟨ms, (entriesAt_cons h _ _ _).2 ⟨ch, h1, h3⟩, h4⟩
    · rintro ⟨ms, h3, h4⟩
      obtain ⟨ch, h1, h5⟩ := (entriesAt_cons h _ _ _).1 h3
      exact ⟨ch, h1, (ih (h.sub h1)).2 ⟨ms, h5, h4⟩⟩

theorem isFile_snoc {d : Disk} (h : Tidy d.top) (p : DPath) (x : Str) :
    d.isFile (p ++ [x]) = true ↔ ∃ ms, entriesAt d.top p = some ms ∧ .file x ∈ ms := by
  simp only [Disk.isFile, List.getLast?_append, List.getLast?_singleton, Option.some_or, List.dropLast_append_of_ne_nil (show [x] ≠ [] by simp),
    List.dropLast_singleton, List.append_nil]
  cases he : entriesAt d.top p with
  | none => simp
  | some ms =>
    have hm := entriesAt_tidy h he
    simp only [Option.some.injEq, exists_eq_left']
    rw [← find_tidy hm.nodup (.file x)]
    change _ ↔ ms.find? (fun n => n.name == x) = some (.file x)
    constructor
    · intro hf
      split at hf
      · rename_i n hn
        have hx := List.find?_some hn
        simp only [beq_iff_eq] at hx
        cases n with
        | file y => simp only [FNode.name] at hx; subst hx; exact hn
        | dir y ch => simp [FNode.isFile] at hf
      · cases hf
    · intro hf
      rw [hf]
      rfl

theorem hasFile_iff {d : Disk} (h : Tidy d.top) {at' : DPath} {ns : List FNode} (he : entriesAt d.top at' = some ns) (rel : DPath)
    (hr : rel ≠ []) : HasFile ns rel ↔ d.isFile (at' ++ rel) = true := by
  obtain ⟨p, x, rfl⟩ : ∃ p x, rel = p ++ [x] := ⟨_, _, (List.dropLast_append_getLast hr).symm⟩
  rw [hasFile_snoc (entriesAt_tidy h he), ← List.append_assoc, isFile_snoc h, entriesAt_append, he]
  rfl

theorem hasDir_disk {d : Disk} (h : Tidy d.top) {at' : DPath} {ns : List FNode} (he : entriesAt d.top at' = some ns) (rel : DPath)
    (hr : rel ≠ []) : HasDir ns rel ↔ d.isDir (at' ++ rel) = true := by
  rw [hasDir_iff (entriesAt_tidy h he) rel hr, Disk.isDir, entriesAt_append, he]
  rfl

theorem isFile_dir {d : Disk} {p : DPath} {x : Str} (hf : d.isFile (p ++ [x]) = true) : d.isDir p = true := by
  simp only [Disk.isFile, List.getLast?_append, List.getLast?_singleton, Option.some_or, List.dropLast_append_of_ne_nil (show [x] ≠ [] by simp),
    List.dropLast_singleton, List.append_nil] at hf
  simp only [Disk.isDir]
  cases he : entriesAt d.top p with
  | none => rw [he] at hf; cases hf
  | some ms => rfl

theorem isDir_prefix {d : Disk} {p q : DPath} (hp : p <+: q) (h : d.isDir q = true) : d.isDir p = true := by
  obtain ⟨t, rfl⟩ := hp
  simp only [Disk.isDir, entriesAt_append] at h ⊢
  cases he : entriesAt d.top p with
  | none => rw [he] at h; cases h
  | some ms => rfl

theorem isFile_not_dir {d : Disk} {p : DPath} (h : Tidy d.top) (hf : d.isFile p = true) : d.isDir p = false := by
  by_cases hp : p = []
  · subst hp; simp [Disk.isFile] at hf
  · obtain ⟨q, x, rfl⟩ : ∃ q x, p = q ++ [x] := ⟨_, _, (List.dropLast_append_getLast hp).symm⟩
    obtain ⟨ms, h1, h2⟩ := (isFile_snoc h q x).1 hf
    have hm := entriesAt_tidy h h1
    simp only [Disk.isDir, entriesAt_append, h1, Option.bind_some]
    cases he : entriesAt ms [x] with
    | none => rfl
    | some ks =>
      obtain ⟨ch, hc, _⟩ := (entriesAt_cons hm _ _ _).1 he
      have e1 : ms.find? (fun n => n.name == x) = some (.dir x ch) := (find_tidy hm.nodup (.dir x ch)).2 hc
      have e2 : ms.find? (fun n => n.name == x) = some (.file x) := (find_tidy hm.nodup (.file x)).2 h2
      rw [e1] at e2
      cases e2

theorem strip_iff (c p r : DPath) : strip c p = some r ↔ p = c ++ r := by
  induction c generalizing p with
  | nil => simp [strip, eq_comm]
  | cons a as ih =>
    cases p with
    | nil => simp [strip]
    | cons b bs =>
      simp only [strip]
      split
      · rename_i e; subst e; simp [ih]
      · rename_i e; simp [Ne.symm e]

theorem strip_append (c r : DPath) : strip c (c ++ r) = some r := (strip_iff _ _ _).2 rfl

end Litcheck.Registry
