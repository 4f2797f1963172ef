import Verif.Proofs.TamePlain

/-!
# Check files of plain patterns: no panic
-/

namespace Litcheck
open Spec
variable {E : Type}

/-! ## The blocks of an orderly file -/

/-- Where the labelled blocks are. -/
theorem splitLabels_at : ∀ (lines : List (Line E)),
    (∃ t, lines = (splitLabels lines).1 ++ t ∧ ((splitLabels lines).2 = [] ∧ t = [] ∨
      (splitLabels lines).2 ≠ [] ∧ ∃ l t', t = l :: t' ∧ l.kind = .label)) ∧
    ∀ pre x post, (splitLabels lines).2 = pre ++ x :: post → ∃ s t, lines = s ++ x.1 :: (x.2 ++ t) ∧ x.1.kind = .label ∧
      (post = [] ∧ t = [] ∨ post ≠ [] ∧ ∃ l t', t = l :: t' ∧ l.kind = .label)
  | [] => by simp [splitLabels]
  | l :: ls => by
    obtain ⟨⟨t, h1, h2⟩, h3⟩ := splitLabels_at ls
    unfold splitLabels
    split
    · rename_i hk
      refine ⟨⟨l :: ls, rfl, .inr ⟨by simp, l, ls, rfl, hk⟩⟩, ?_⟩
      intro pre x post he
      cases pre with
      | nil =>
        simp only [List.nil_append, List.cons.injEq] at he
        obtain ⟨rfl, rfl⟩ := he
        exact ⟨[], t, by simp only [List.nil_append]; rw [← h1], hk, h2.imp (fun h => ⟨h.1, h.2⟩) (fun h => h)⟩
      | cons y pre =>
        simp only [List.cons_append, List.cons.injEq] at he
        obtain ⟨s, t', k1, k2⟩ := h3 pre x post he.2
        exact ⟨l :: s, t', by rw [k1]; rfl, k2⟩
    · rename_i hk
      refine ⟨⟨t, by rw [List.cons_append, ← h1], h2⟩, ?_⟩
      intro pre x post he
      obtain ⟨s, t', k1, k2⟩ := h3 pre x post he
      exact ⟨l :: s, t', by rw [k1]; rfl, k2⟩

theorem prefix_nots {imp : Option (Line E)} : ∀ {ls g : List (Line E)}, g <+: ls.flatMap (withImplicit imp) → (∀ l ∈ g, l.kind = .not) → g <+: ls
  | [], g, h, _ => by simpa using h
  | l :: ls, g, h, hk => by
    cases g with
    | nil => simp
    | cons x g =>
      rw [List.flatMap_cons] at h
      rw [show withImplicit imp l = if l.kind = .not then [l] else l :: imp.toList from rfl] at h
      split at h
      · rw [List.singleton_append, List.cons_prefix_cons] at h
        exact List.cons_prefix_cons.2 ⟨h.1, prefix_nots h.2 (fun y hy => hk y (by simp [hy]))⟩
      · rename_i hl
        rw [List.cons_append, List.cons_prefix_cons] at h
        exact absurd (h.1 ▸ hk x (by simp)) hl

theorem prefix_dags {imp : Option (Line E)} (himp : ∀ l ∈ imp, l.kind = .not) : ∀ {ls g : List (Line E)}, g <+: ls.flatMap (withImplicit imp) →
    (∀ l ∈ g, l.kind = .dag) → g <+: ls
  | [], g, h, _ => by simpa using h
  | l :: ls, g, h, hk => by
    cases g with
    | nil => simp
    | cons x g =>
      rw [List.flatMap_cons] at h
      rw [show withImplicit imp l = if l.kind = .not then [l] else l :: imp.toList from rfl] at h
      split at h
      · rename_i hl
        rw [List.singleton_append, List.cons_prefix_cons] at h
        have := hk x (by simp)
        rw [h.1, hl] at this
        simp at this
      · rw [List.cons_append, List.cons_prefix_cons] at h
        refine List.cons_prefix_cons.2 ⟨h.1, ?_⟩
        have h2 := h.2
        cases imp with
        | none => exact prefix_dags (imp := none) (by simp) h2 (fun y hy => hk y (by simp [hy]))
        | some i =>
          cases g with
          | nil => simp
          | cons y g =>
            simp only [Option.toList_some, List.singleton_append] at h2
            rw [List.cons_prefix_cons] at h2
            have h3 := hk y (by simp)
            rw [h2.1, himp i rfl] at h3
            simp at h3

/-- A group of `CHECK-NOT` lines: consecutive lines of the file, perhaps with the implicit one before them. -/
def NotRun (imp : Option (Line E)) (lines g : List (Line E)) : Prop :=
  g <:+: lines ∨ ∃ i g', imp = some i ∧ g = i :: g' ∧ g' <:+: lines

theorem infix_nots {imp : Option (Line E)} : ∀ {ls g : List (Line E)}, g <:+: ls.flatMap (withImplicit imp) → (∀ l ∈ g, l.kind = .not) → NotRun imp ls g
  | [], g, h, _ => .inl (by simpa using h)
  | l :: ls, g, h, hk => by
    have hmono : NotRun imp ls g → NotRun imp (l :: ls) g := by
      rintro (h | ⟨i, g', h1, h2, h3⟩)
      · exact .inl (List.infix_cons h)
      · exact .inr ⟨i, g', h1, h2, List.infix_cons h3⟩
    rw [List.flatMap_cons] at h
    rw [show withImplicit imp l = if l.kind = .not then [l] else l :: imp.toList from rfl] at h
    split at h
    · rename_i hl
      rw [List.singleton_append, List.infix_cons_iff] at h
      rcases h with h | h
      · left
        cases g with
        | nil => simp
        | cons x g =>
          rw [List.cons_prefix_cons] at h
          exact (List.cons_prefix_cons.2 ⟨h.1, prefix_nots h.2 (fun y hy => hk y (by simp [hy]))⟩).isInfix
      · exact hmono (infix_nots h hk)
    · rename_i hl
      rw [List.cons_append, List.infix_cons_iff] at h
      rcases h with h | h
      · cases g with
        | nil => exact .inl (by simp)
        | cons x g =>
          rw [List.cons_prefix_cons] at h
          exact absurd (h.1 ▸ hk x (by simp)) hl
      · cases imp with
        | none => exact hmono (infix_nots h hk)
        | some i =>
          simp only [Option.toList_some, List.singleton_append] at h
          rw [List.infix_cons_iff] at h
          rcases h with h | h
          · cases g with
            | nil => exact .inl (by simp)
            | cons x g =>
              rw [List.cons_prefix_cons] at h
              refine .inr ⟨i, g, rfl, by rw [h.1], ?_⟩
              exact List.infix_cons (prefix_nots h.2 (fun y hy => hk y (by simp [hy]))).isInfix
          · exact hmono (infix_nots h hk)

theorem infix_dags {imp : Option (Line E)} (himp : ∀ l ∈ imp, l.kind = .not) : ∀ {ls g : List (Line E)}, g <:+: ls.flatMap (withImplicit imp) →
    (∀ l ∈ g, l.kind = .dag) → g <:+: ls
  | [], g, h, _ => by simpa using h
  | l :: ls, g, h, hk => by
    have hskip : g <:+: imp.toList ++ ls.flatMap (withImplicit imp) → g <:+: l :: ls := by
      intro h
      cases imp with
      | none => exact List.infix_cons (infix_dags (imp := none) (by simp) (by simpa using h) hk)
      | some i =>
        simp only [Option.toList_some, List.singleton_append] at h
        rw [List.infix_cons_iff] at h
        rcases h with h | h
        · cases g with
          | nil => simp
          | cons x g =>
            rw [List.cons_prefix_cons] at h
            have := hk x (by simp)
            rw [h.1, himp i rfl] at this
            simp at this
        · exact List.infix_cons (infix_dags himp h hk)
    rw [List.flatMap_cons] at h
    have hw : withImplicit imp l = [l] ∨ withImplicit imp l = l :: imp.toList := by
      unfold withImplicit
      split
      · exact .inl rfl
      · exact .inr rfl
    have hp : g <+: withImplicit imp l ++ ls.flatMap (withImplicit imp) → g <:+: l :: ls := by
      intro h
      have := prefix_dags himp (ls := l :: ls) (g := g) (by rw [List.flatMap_cons]; exact h) hk
      exact this.isInfix
    rcases hw with hw | hw
    · rw [hw] at h hp
      rw [List.singleton_append, List.infix_cons_iff] at h
      rcases h with h | h
      · exact hp h
      · exact List.infix_cons (infix_dags himp h hk)
    · rw [hw] at h hp
      rw [List.cons_append, List.infix_cons_iff] at h
      rcases h with h | h
      · exact hp h
      · exact hskip h

/-- The groups of a block are groups of the file. -/
theorem head_nots {imp : Option (Line E)} {lines g : List (Line E)} (h : g <:+: headLines imp lines) (hk : ∀ l ∈ g, l.kind = .not) :
    NotRun imp lines g := by
  obtain ⟨⟨t, h1, _⟩, _⟩ := splitLabels_at lines
  have hpre : (splitLabels lines).1 <:+: lines := ⟨[], t, by rw [List.nil_append]; exact h1.symm⟩
  have hmono : NotRun imp (splitLabels lines).1 g → NotRun imp lines g := by
    rintro (h | ⟨i, g', k1, k2, k3⟩)
    · exact .inl (h.trans hpre)
    · exact .inr ⟨i, g', k1, k2, k3.trans hpre⟩
  unfold headLines at h
  cases imp with
  | none => exact hmono (infix_nots (by simpa using h) hk)
  | some i =>
    simp only [Option.toList_some, List.singleton_append] at h
    rw [List.infix_cons_iff] at h
    rcases h with h | h
    · cases g with
      | nil => exact .inl (by simp)
      | cons x g =>
        rw [List.cons_prefix_cons] at h
        exact .inr ⟨i, g, rfl, by rw [h.1], (prefix_nots h.2 (fun y hy => hk y (by simp [hy]))).isInfix.trans hpre⟩
    · exact hmono (infix_nots h hk)

theorem head_dags {imp : Option (Line E)} (himp : ∀ l ∈ imp, l.kind = .not) {lines g : List (Line E)} (h : g <:+: headLines imp lines)
    (hk : ∀ l ∈ g, l.kind = .dag) : g <:+: lines := by
  obtain ⟨⟨t, h1, _⟩, _⟩ := splitLabels_at lines
  have hpre : (splitLabels lines).1 <:+: lines := ⟨[], t, by rw [List.nil_append]; exact h1.symm⟩
  unfold headLines at h
  cases imp with
  | none => exact (infix_dags (imp := none) (by simp) (by simpa using h) hk).trans hpre
  | some i =>
    simp only [Option.toList_some, List.singleton_append] at h
    rw [List.infix_cons_iff] at h
    rcases h with h | h
    · cases g with
      | nil => simp
      | cons x g =>
        rw [List.cons_prefix_cons] at h
        have := hk x (by simp)
        rw [h.1, himp i rfl] at this
        simp at this
    · exact (infix_dags himp h hk).trans hpre

theorem block_nots {imp : Option (Line E)} {lines body g : List (Line E)} (hb : body <:+: lines) (h : g <:+: imp.toList ++ body) : NotRun imp lines g := by
  cases imp with
  | none => exact .inl ((by simpa using h : g <:+: body).trans hb)
  | some i =>
    simp only [Option.toList_some, List.singleton_append] at h
    rw [List.infix_cons_iff] at h
    rcases h with h | h
    · cases g with
      | nil => exact .inl (by simp)
      | cons x g =>
        rw [List.cons_prefix_cons] at h
        exact .inr ⟨i, g, rfl, by rw [h.1], h.2.isInfix.trans hb⟩
    · exact .inl (h.trans hb)

theorem block_dags {imp : Option (Line E)} (himp : ∀ l ∈ imp, l.kind = .not) {lines body g : List (Line E)} (hb : body <:+: lines)
    (h : g <:+: imp.toList ++ body) (hk : ∀ l ∈ g, l.kind = .dag) : g <:+: lines := by
  rcases block_nots hb h with h | ⟨i, g', h1, rfl, _⟩
  · exact h
  · have := hk i (by simp)
    rw [himp i h1] at this
    simp at this

/-! ### Orderly -/

theorem orderly_dags {imp : Bool} {ks a x c : List Kind} (h : OrderlyFile imp ks) (hks : ks = a ++ (x ++ c)) (hx : Kind.label ∉ x) : DagsBeforeNots x := by
  intro pre opt post he ho k hk
  obtain ⟨p1, p2, rfl⟩ := List.append_of_mem hk
  have h1 : ks = (a ++ pre) ++ Kind.dag :: (opt ++ Kind.not :: ((p1 ++ k :: p2) ++ c)) := by
    rw [hks, he]; simp
  refine h.dags _ _ _ h1 ho p1 k (p2 ++ c) (by simp) ?_
  intro hl
  apply hx
  rw [he]
  simp only [List.mem_append, List.mem_cons, List.mem_singleton, List.not_mem_nil, or_false] at hl ⊢
  rcases hl with hl | hl
  · exact .inr (.inr (.inr (.inr (.inl hl))))
  · exact .inr (.inr (.inr (.inr (.inr (.inl hl)))))

theorem dags_none {x : List Kind} (h : Kind.dag ∉ x) : DagsBeforeNots x := by
  intro pre opt post he _
  exact absurd (by rw [he]; simp) h

theorem head_kinds {imp : Option (Line E)} (himp : ∀ l ∈ imp, l.kind = .not) {lines : List (Line E)} {k : Kind} (hk : k ≠ .not) :
    k ∈ (headLines imp lines).map Line.kind → k ∈ (splitLabels lines).1.map Line.kind := by
  intro h
  obtain ⟨l, hl, rfl⟩ := List.mem_map.1 h
  have himp' : l ∈ imp.toList → False := fun hl => hk (himp l (by cases imp <;> simp_all))
  unfold headLines at hl
  rcases List.mem_append.1 hl with hl | hl
  · exact (himp' hl).elim
  · obtain ⟨x, hx, hlx⟩ := List.mem_flatMap.1 hl
    unfold withImplicit at hlx
    split at hlx
    · simp only [List.mem_singleton] at hlx
      subst hlx
      exact List.mem_map_of_mem hx
    · rcases List.mem_cons.1 hlx with rfl | hlx
      · exact List.mem_map_of_mem hx
      · exact (himp' hlx).elim

theorem head_orderly {imp : Option (Line E)} (himp : ∀ l ∈ imp, l.kind = .not) {lines : List (Line E)}
    (h : OrderlyFile imp.isSome (lines.map Line.kind)) :
    Orderly (splitLabels lines).2.isEmpty (splitLabels lines).2.isEmpty ((headLines imp lines).map Line.kind) := by
  obtain ⟨⟨t, h1, h2⟩, _⟩ := splitLabels_at lines
  have hks : lines.map Line.kind = [] ++ ((splitLabels lines).1.map Line.kind ++ t.map Line.kind) := by
    rw [List.nil_append, ← List.map_append, ← h1]
  have hnl : Kind.label ∉ (splitLabels lines).1.map Line.kind := by
    intro hl
    obtain ⟨l, hl, hk⟩ := List.mem_map.1 hl
    exact ((splitLabels_mem (l := l)).1 hl).2 hk
  have hlast : Kind.label ∉ t.map Line.kind → (splitLabels lines).2.isEmpty = true := by
    intro hn
    rcases h2 with ⟨h2, _⟩ | ⟨_, l, t', rfl, hk⟩
    · simp [h2]
    · exact absurd (by simp [hk]) hn
  refine ⟨?_, ?_, ?_⟩
  · cases himp' : imp with
    | none =>
      subst himp'
      rw [headLines_none]
      exact orderly_dags h hks hnl
    | some i =>
      rw [← himp']
      refine dags_none fun hd => ?_
      have := head_kinds himp (by simp) hd
      refine h.implicit (by rw [himp']; rfl) ?_
      rw [hks]; simp only [List.nil_append, List.mem_append]; exact .inl this
  · intro hn
    have hn : ∃ k, (k = Kind.next ∨ k = Kind.empty) ∧ k ∈ (splitLabels lines).1.map Line.kind := by
      rcases hn with hn | hn
      · exact ⟨_, .inl rfl, head_kinds himp (by simp) hn⟩
      · exact ⟨_, .inr rfl, head_kinds himp (by simp) hn⟩
    obtain ⟨k, hk, hm⟩ := hn
    obtain ⟨p1, p2, hp⟩ := List.append_of_mem hm
    have := h.next p1 k (p2 ++ t.map Line.kind) (by rw [hks, hp]; simp) hk
    exact hlast fun hl => this (by simp only [List.mem_append]; exact .inr hl)
  · intro hs
    have hm := head_kinds himp (by simp) hs
    obtain ⟨p1, p2, hp⟩ := List.append_of_mem hm
    rcases h.same p1 (p2 ++ t.map Line.kind) (by rw [hks, hp]; simp) with h3 | h3
    · exact absurd (by rw [hp]; simp [h3]) hnl
    · exact hlast fun hl => h3 (by simp only [List.mem_append]; exact .inr hl)

theorem block_orderly {imp : Option (Line E)} (himp : ∀ l ∈ imp, l.kind = .not) {lines : List (Line E)}
    (h : OrderlyFile imp.isSome (lines.map Line.kind)) {pre post : List (Line E × List (Line E))} {x : Line E × List (Line E)}
    (hx : (splitLabels lines).2 = pre ++ x :: post) : Orderly post.isEmpty true ((imp.toList ++ x.2).map Line.kind) := by
  obtain ⟨s, t, h1, h3, h2⟩ := (splitLabels_at lines).2 pre x post hx
  have hks : lines.map Line.kind = (s ++ [x.1]).map Line.kind ++ (x.2.map Line.kind ++ t.map Line.kind) := by
    rw [h1]; simp
  have hxm : x ∈ (splitLabels lines).2 := by rw [hx]; simp
  have hnl : Kind.label ∉ x.2.map Line.kind := by
    intro hl
    obtain ⟨l, hl, hk⟩ := List.mem_map.1 hl
    exact (((splitLabels_mem (l := l)).2 x hxm).2 l hl).2 hk
  have hmem : ∀ k, k ≠ Kind.not → k ∈ (imp.toList ++ x.2).map Line.kind → k ∈ x.2.map Line.kind := by
    intro k hk hm
    rw [List.map_append] at hm
    rcases List.mem_append.1 hm with hm | hm
    · obtain ⟨l, hl, rfl⟩ := List.mem_map.1 hm
      exact absurd (himp l (by cases imp <;> simp_all)) hk
    · exact hm
  have hlast : Kind.label ∉ t.map Line.kind → post.isEmpty = true := by
    intro hn
    rcases h2 with ⟨h2, _⟩ | ⟨_, l, t', rfl, hk⟩
    · simp [h2]
    · exact absurd (by simp [hk]) hn
  refine ⟨?_, ?_, fun _ => rfl⟩
  · cases himp' : imp with
    | none =>
      subst himp'
      exact orderly_dags h hks hnl
    | some i =>
      rw [← himp']
      refine dags_none fun hd => ?_
      have := hmem _ (by simp) hd
      refine h.implicit (by rw [himp']; rfl) ?_
      rw [hks]; simp only [List.mem_append]; exact .inr (.inl this)
  · intro hn
    have hn : ∃ k, (k = Kind.next ∨ k = Kind.empty) ∧ k ∈ x.2.map Line.kind := by
      rcases hn with hn | hn
      · exact ⟨_, .inl rfl, hmem _ (by simp) hn⟩
      · exact ⟨_, .inr rfl, hmem _ (by simp) hn⟩
    obtain ⟨k, hk, hm⟩ := hn
    obtain ⟨p1, p2, hp⟩ := List.append_of_mem hm
    have := h.next ((s ++ [x.1]).map Line.kind ++ p1) k (p2 ++ t.map Line.kind) (by rw [hks, hp]; simp) hk
    exact hlast fun hl => this (by simp only [List.mem_append]; exact .inr hl)

/-- A check file in the order above, whose matchers are harmless. -/
theorem fileTame {sc : SetCompiler E} {imp : Option (Line E)} (himp : ∀ l ∈ imp, l.kind = .not) {lines : List (Line E)}
    (h : OrderlyFile imp.isSome (lines.map Line.kind))
    (hpat : ∀ l ∈ lines, l.kind ≠ .not → l.kind ≠ .dag → l.kind ≠ .empty → l.pat.Tame)
    (hsame : ∀ l ∈ lines, l.kind = .same → l.pat.NeverEmpty)
    (hlabel : ∀ l ∈ lines, l.kind = .label → l.pat.OneLine)
    (hnots : ∀ g, NotRun imp lines g → g ≠ [] → (∀ l ∈ g, l.kind = .not) → ∃ r, sc.nots g = .ok r ∧ ∀ p, r = some p → p.Located)
    (hdags : ∀ g, g <:+: lines → g ≠ [] → (∀ l ∈ g, l.kind = .dag) → ∃ r, sc.dags g = .ok r ∧ ∀ d, r = some d → d.Tame) :
    FileTame sc imp lines := by
  have himpl : ∀ l ∈ imp.toList, l.kind = .not := fun l hl => himp l (by cases imp <;> simp_all)
  have hcz : ∀ l ∈ lines, l.kind ≠ .count 0 := fun l hl hk => h.count (hk ▸ List.mem_map_of_mem hl)
  refine ⟨hlabel, ?_, ?_⟩
  · have hm : ∀ l ∈ headLines imp lines, l ∈ lines ∧ l.kind ≠ .label ∨ l.kind = .not := by
      intro l hl
      unfold headLines at hl
      rcases List.mem_append.1 hl with hl | hl
      · exact .inr (himpl l hl)
      · obtain ⟨x, hx, hlx⟩ := List.mem_flatMap.1 hl
        unfold withImplicit at hlx
        split at hlx
        · simp only [List.mem_singleton] at hlx
          subst hlx
          exact .inl ((splitLabels_mem (l := l)).1 hx)
        · rcases List.mem_cons.1 hlx with rfl | hlx
          · exact .inl ((splitLabels_mem (l := l)).1 hx)
          · exact .inr (himpl l hlx)
    refine ⟨?_, ?_, ?_, ?_, ?_, ?_, head_orderly himp h⟩
    · intro l hl k1 k2 k3
      rcases hm l hl with h1 | h1
      · exact hpat l h1.1 k1 k2 k3
      · exact absurd h1 k1
    · intro l hl k1
      rcases hm l hl with h1 | h1
      · exact hsame l h1.1 k1
      · rw [h1] at k1; simp at k1
    · intro l hl
      rcases hm l hl with h1 | h1
      · exact h1.2
      · rw [h1]; simp
    · intro l hl
      rcases hm l hl with h1 | h1
      · exact hcz l h1.1
      · rw [h1]; simp
    · intro g hg hne hk
      exact hnots g (head_nots hg hk) hne hk
    · intro g hg hne hk
      exact hdags g (head_dags himp hg hk) hne hk
  · intro pre x post hx
    obtain ⟨s, t, h1, _, _⟩ := (splitLabels_at lines).2 pre x post hx
    have hxm : x ∈ (splitLabels lines).2 := by rw [hx]; simp
    have hb : x.2 <:+: lines := ⟨s ++ [x.1], t, by rw [h1]; simp⟩
    have hm : ∀ l ∈ imp.toList ++ x.2, l ∈ lines ∧ l.kind ≠ .label ∨ l.kind = .not := by
      intro l hl
      rcases List.mem_append.1 hl with hl | hl
      · exact .inr (himpl l hl)
      · exact .inl (((splitLabels_mem (l := l)).2 x hxm).2 l hl)
    refine ⟨?_, ?_, ?_, ?_, ?_, ?_, block_orderly himp h hx⟩
    · intro l hl k1 k2 k3
      rcases hm l hl with h1 | h1
      · exact hpat l h1.1 k1 k2 k3
      · exact absurd h1 k1
    · intro l hl k1
      rcases hm l hl with h1 | h1
      · exact hsame l h1.1 k1
      · rw [h1] at k1; simp at k1
    · intro l hl
      rcases hm l hl with h1 | h1
      · exact h1.2
      · rw [h1]; simp
    · intro l hl
      rcases hm l hl with h1 | h1
      · exact hcz l h1.1
      · rw [h1]; simp
    · intro g hg hne hk
      exact hnots g (block_nots hb hg) hne hk
    · intro g hg hne hk
      exact hdags g (block_dags himp hb hg hk) hne hk

end Litcheck
