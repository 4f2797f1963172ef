import Verif.Proofs.Sequence

/-!
# The compiler keeps every directive, in order
-/

namespace Litcheck
open Spec
variable {E : Type}

/-- The directive of a line, given the meaning of its pattern. -/
def Line.directive (mean : Line E → Meaning E) (l : Line E) : Directive E := ⟨l.kind, mean l⟩

/-- What is assumed of the patterns of a check file. `good` is a property of lists of consecutive lines
(for example: all patterns are literals, and the `CHECK-DAG` literals of a group are distinct). -/
structure Contracts (sc : SetCompiler E) (mean : Line E → Meaning E) (good : List (Line E) → Prop) : Prop where
  ofInfix : ∀ a b c, good (a ++ b ++ c) → good b
  pat : ∀ l : Line E, good [l] → l.kind ≠ .empty → l.pat.Sound (mean l)
  nots : ∀ ls p, good ls → (∀ l ∈ ls, l.kind = .not) → sc.nots ls = .ok (some p) → p.Complete (ls.map mean)
  dags : ∀ ls d, ls ≠ [] → good ls → (∀ l ∈ ls, l.kind = .dag) → sc.dags ls = .ok (some d) → d.Sound (ls.map mean)

theorem Contracts.ofPrefix {sc : SetCompiler E} {mean : Line E → Meaning E} {good : List (Line E) → Prop}
    (hc : Contracts sc mean good) {a b : List (Line E)} (h : good (a ++ b)) : good a :=
  hc.ofInfix [] a b (by simpa using h)

theorem Contracts.ofSuffix {sc : SetCompiler E} {mean : Line E → Meaning E} {good : List (Line E) → Prop}
    (hc : Contracts sc mean good) {a b : List (Line E)} (h : good (a ++ b)) : good b :=
  hc.ofInfix a b [] (by simpa using h)

theorem Contracts.mem {sc : SetCompiler E} {mean : Line E → Meaning E} {good : List (Line E) → Prop}
    (hc : Contracts sc mean good) {ls : List (Line E)} (h : good ls) {l : Line E} (hl : l ∈ ls) : good [l] := by
  obtain ⟨a, c, rfl⟩ := List.append_of_mem hl
  exact hc.ofInfix a [l] c (by simpa using h)

theorem GroupsDen.nil : GroupsDen ([] : List (Group E)) [] := ⟨[], .nil, rfl⟩

theorem GroupsDen.snoc {gs : List (Group E)} {ds dg : List (Directive E)} {g : Group E} (h : GroupsDen gs ds)
    (hg : TopDen g dg) : GroupsDen (gs ++ [g]) (ds ++ dg) := by
  obtain ⟨dss, hf, rfl⟩ := h
  refine ⟨dss ++ [dg], ?_, by simp⟩
  exact List.rel_append hf (.cons hg .nil)

theorem GroupsDen.unsnoc {gs : List (Group E)} {g : Group E} {ds : List (Directive E)} (h : GroupsDen (gs ++ [g]) ds) :
    ∃ d1 d2, GroupsDen gs d1 ∧ TopDen g d2 ∧ ds = d1 ++ d2 := by
  obtain ⟨dss, hf, rfl⟩ := h
  induction gs generalizing dss with
  | nil =>
    cases hf with
    | cons h1 h2 => cases h2; exact ⟨[], _, GroupsDen.nil, h1, by simp⟩
  | cons x xs ih =>
    cases hf with
    | cons h1 h2 =>
      obtain ⟨d1, d2, ⟨e, he, hee⟩, h4, h5⟩ := ih _ h2
      exact ⟨_, d2, ⟨_ :: e, .cons h1 he, rfl⟩, h4, by simp [hee, h5]⟩

theorem popLeft_den {gs : List (Group E)} {ds : List (Directive E)} (h : GroupsDen gs ds) :
    (∃ d1 t d2, (popLeft gs).2 = some t ∧ GroupsDen (popLeft gs).1 d1 ∧ TreeDen t d2 ∧ ds = d1 ++ d2) ∨
    ((popLeft gs).2 = none ∧ (popLeft gs).1 = gs) := by
  unfold popLeft
  split
  · rename_i t ht
    left
    obtain ⟨ys, rfl⟩ := List.getLast?_eq_some_iff.1 ht
    obtain ⟨d1, d2, h1, h2, h3⟩ := h.unsnoc
    refine ⟨d1, t, d2, rfl, by simpa using h1, ?_, h3⟩
    cases h2 with
    | proper h2 => cases h2 with
      | tree h2 => exact h2
  · rename_i d hd
    left
    obtain ⟨ys, rfl⟩ := List.getLast?_eq_some_iff.1 hd
    obtain ⟨d1, d2, h1, h2, h3⟩ := h.unsnoc
    refine ⟨d1, _, d2, rfl, by simpa using h1, ?_, h3⟩
    cases h2 with
    | proper h2 => exact .matchAll h2
  · right; exact ⟨rfl, rfl⟩

/-- The directives of the groups compiled so far, with the `CHECK-NOT` group waiting for its right-hand
side. -/
def PendDen (gs : List (Group E)) (p : Pending E) (ds : List (Directive E)) : Prop :=
  match p with
  | none => GroupsDen gs ds
  | some (none, root) => ∃ d1 μs, GroupsDen gs d1 ∧ root.Complete μs ∧ ds = d1 ++ μs.map (⟨.not, ·⟩)
  | some (some t, root) => ∃ d1 d2 μs, GroupsDen gs d1 ∧ TreeDen t d2 ∧ root.Complete μs ∧
      ds = d1 ++ (d2 ++ μs.map (⟨.not, ·⟩))

theorem pushGroup_den {gs : List (Group E)} {p : Pending E} {ds dg : List (Directive E)} {g : Group E}
    (h : PendDen gs p ds) (hg : GroupDen g dg) : GroupsDen (pushGroup gs p g) (ds ++ dg) := by
  match p, h with
  | none, h => exact GroupsDen.snoc h (.proper hg)
  | some (none, root), h =>
    obtain ⟨d1, μs, h1, h2, rfl⟩ := h
    rw [List.append_assoc]
    exact h1.snoc (.proper (.tree (.matchAfter h2 (.matchAll hg))))
  | some (some t, root), h =>
    obtain ⟨d1, d2, μs, h1, ht, h2, rfl⟩ := h
    rw [List.append_assoc, List.append_assoc]
    exact h1.snoc (.proper (.tree (.matchAround h2 ht (.matchAll hg))))

theorem map_directive_dag {mean : Line E → Meaning E} {ls : List (Line E)} (h : ∀ l ∈ ls, l.kind = .dag) :
    ls.map (Line.directive mean) = (ls.map mean).map (⟨.dag, ·⟩) := by
  rw [List.map_map]
  apply List.map_congr_left
  intro l hl
  simp [Line.directive, h l hl]

theorem map_directive_not {mean : Line E → Meaning E} {ls : List (Line E)} (h : ∀ l ∈ ls, l.kind = .not) :
    ls.map (Line.directive mean) = (ls.map mean).map (⟨.not, ·⟩) := by
  rw [List.map_map]
  apply List.map_congr_left
  intro l hl
  simp [Line.directive, h l hl]

theorem compileRule_sound {mean : Line E → Meaning E} {l : Line E} (hp : l.kind ≠ .empty → l.pat.Sound (mean l))
    (hk : l.kind = .plain ∨ l.kind = .next ∨ l.kind = .same ∨ l.kind = .empty) :
    Rule.Sound (compileRule l) (l.directive mean) := by
  unfold compileRule Line.directive
  rcases hk with h | h | h | h <;> rw [h] at hp ⊢ <;> simp only
  · exact .plain (hp (by simp))
  · exact .next (hp (by simp))
  · exact .same (hp (by simp))
  · exact .empty

theorem mem_takeWhile {α : Type} {p : α → Bool} {l : List α} {x : α} (h : x ∈ l.takeWhile p) : p x = true := by
  induction l with
  | nil => simp at h
  | cons y ys ih =>
    rw [List.takeWhile_cons] at h
    split at h
    · rcases List.mem_cons.1 h with rfl | h
      · assumption
      · exact ih h
    · simp at h

theorem forall2_map {α β γ : Type} {R : β → γ → Prop} {f : α → β} {g : α → γ} {l : List α}
    (h : ∀ x ∈ l, R (f x) (g x)) : List.Forall₂ R (l.map f) (l.map g) := by
  induction l with
  | nil => exact .nil
  | cons x xs ih =>
    refine .cons (h x (by simp)) (ih ?_)
    intro y hy; exact h y (by simp [hy])

theorem dagGroup_den {sc : SetCompiler E} {mean : Line E → Meaning E} {good : List (Line E) → Prop} (hc : Contracts sc mean good)
    {d : Dag E} {μs : List (Meaning E)} (hds : d.Sound μs) (hne : μs ≠ []) (rest : List (Line E))
    (hgood : good rest) (hcz : ∀ l ∈ rest, l.kind ≠ .count 0) :
    ∃ pre, GroupDen (dagGroup d rest).1 (μs.map (⟨.dag, ·⟩) ++ pre) ∧
      rest.map (Line.directive mean) = pre ++ (dagGroup d rest).2.map (Line.directive mean) ∧
      ∃ pre', rest = pre' ++ (dagGroup d rest).2 := by
  cases rest with
  | nil => exact ⟨[], by simpa [dagGroup] using GroupDen.unordered hds hne, by simp [dagGroup], [], by simp [dagGroup]⟩
  | cons l rest =>
    have hother : dagGroup d (l :: rest) = (.unordered d, l :: rest) →
        ∃ pre, GroupDen (dagGroup d (l :: rest)).1 (μs.map (⟨.dag, ·⟩) ++ pre) ∧
        (l :: rest).map (Line.directive mean) = pre ++ (dagGroup d (l :: rest)).2.map (Line.directive mean) ∧
        ∃ pre', l :: rest = pre' ++ (dagGroup d (l :: rest)).2 := by
      intro h
      rw [h]
      exact ⟨[], by simpa using GroupDen.unordered hds hne, by simp, [], by simp⟩
    cases hk : l.kind with
    | plain =>
      have hd : dagGroup d (l :: rest) = (.bounded d (.ordered [compileRule l]), rest) := by simp [dagGroup, hk]
      rw [hd]
      refine ⟨[l.directive mean], ?_, by simp, [l], by simp⟩
      exact .bounded hds hne (.ordered (by simp) (.cons (compileRule_sound (hc.pat l (hc.mem hgood (by simp))) (Or.inl hk)) .nil))
    | count n =>
      have hd : dagGroup d (l :: rest) = (.bounded d (.repeated (compileRule l) n), rest) := by simp [dagGroup, hk]
      rw [hd]
      refine ⟨[l.directive mean], ?_, by simp, [l], by simp⟩
      have hn : 1 ≤ n := by
        rcases Nat.eq_zero_or_pos n with h0 | h0
        · subst h0; exact absurd hk (hcz l (by simp))
        · exact h0
      have hcr : compileRule l = .plain l.pat := by unfold compileRule; rw [hk]
      rw [hcr]
      unfold Line.directive
      rw [hk]
      exact .bounded hds hne (.repeated (hc.pat l (hc.mem hgood (by simp)) (by simp [hk])) hn)
    | label => exact hother (by simp [dagGroup, hk])
    | next => exact hother (by simp [dagGroup, hk])
    | same => exact hother (by simp [dagGroup, hk])
    | not => exact hother (by simp [dagGroup, hk])
    | dag => exact hother (by simp [dagGroup, hk])
    | empty => exact hother (by simp [dagGroup, hk])

/-- The groups of a block stand for its lines, in order. -/
theorem compileBody_den {sc : SetCompiler E} {mean : Line E → Meaning E} {good : List (Line E) → Prop} (hc : Contracts sc mean good) :
    ∀ (fuel : Nat) (body : List (Line E)) (gs : List (Group E)) (p : Pending E) (ds : List (Directive E))
      (gs' : List (Group E)) (p' : Pending E),
      good body → (∀ l ∈ body, l.kind ≠ .label) → (∀ l ∈ body, l.kind ≠ .count 0) → PendDen gs p ds →
      compileBody sc fuel body gs p = .ok (.ok (gs', p')) →
      PendDen gs' p' (ds ++ body.map (Line.directive mean)) := by
  intro fuel
  induction fuel with
  | zero =>
    intro body gs p ds gs' p' hgood hl hcz hd h
    cases body with
    | nil => simp [compileBody] at h; obtain ⟨rfl, rfl⟩ := h; simpa using hd
    | cons l ls => simp [compileBody] at h
  | succ fuel ih =>
    intro body gs p ds gs' p' hgood hl hcz hd h
    cases body with
    | nil => simp [compileBody] at h; obtain ⟨rfl, rfl⟩ := h; simpa using hd
    | cons line body =>
      have hlb : ∀ l ∈ body, l.kind ≠ .label := fun l h => hl l (by simp [h])
      have hcb : ∀ l ∈ body, l.kind ≠ .count 0 := fun l h => hcz l (by simp [h])
      unfold compileBody at h
      split at h
      · -- CHECK-NOT
        rename_i hk
        split at h
        · simp at h
        · rename_i hpn
          have hpn : p = none := by cases p <;> simp_all
          subst hpn
          split at h
          · simp at h
          · simp at h
          · rename_i matcher hm
            have hsplit : line :: body = (line :: body.takeWhile Line.isNot) ++ body.dropWhile Line.isNot := by
              simp [List.takeWhile_append_dropWhile]
            have hnk : ∀ l ∈ line :: body.takeWhile Line.isNot, l.kind = .not := by
              intro l hl'
              rcases List.mem_cons.1 hl' with rfl | hl'
              · exact hk
              · have := mem_takeWhile hl'; simpa [Line.isNot] using this
            have hsub : ∀ l ∈ body.dropWhile Line.isNot, l ∈ body := fun l h => (List.dropWhile_suffix _).mem h
            have hcomp := hc.nots _ _ (hc.ofPrefix (hsplit ▸ hgood)) hnk hm
            have hgrest := hc.ofSuffix (hsplit ▸ hgood)
            have hpop := popLeft_den hd
            rw [hsplit, List.map_append, map_directive_not hnk, ← List.append_assoc]
            generalize (line :: List.takeWhile Line.isNot body).map mean = μs at *
            dsimp only at h
            split at h
            · -- nothing follows
              rename_i hemp
              have hrest : List.dropWhile Line.isNot body = [] := by simpa using hemp
              rcases hpop with ⟨d1, t, d2, hp2, hp1, ht, rfl⟩ | ⟨hp2, hp1⟩
              · rw [hp2] at h
                simp only at h
                refine ih _ _ _ _ _ _ hgrest (by simp [hrest]) (by simp [hrest]) ?_ h
                rw [List.append_assoc]
                exact hp1.snoc (.proper (.tree (.matchBefore hcomp ht)))
              · rw [hp2] at h
                simp only at h
                refine ih _ _ _ _ _ _ hgrest (by simp [hrest]) (by simp [hrest]) ?_ h
                rw [hp1]
                exact GroupsDen.snoc hd (.never hcomp)
            · refine ih _ _ _ _ _ _ hgrest (fun l h => hlb l (hsub l h)) (fun l h => hcb l (hsub l h)) ?_ h
              rcases hpop with ⟨d1, t, d2, hp2, hp1, ht, rfl⟩ | ⟨hp2, hp1⟩
              · rw [hp2]; exact ⟨d1, d2, _, hp1, ht, hcomp, by simp⟩
              · rw [hp2, hp1]; exact ⟨ds, _, hd, hcomp, rfl⟩
      · -- CHECK-DAG
        rename_i hk
        split at h
        · simp at h
        · simp at h
        · rename_i d hdg
          have hsplit : line :: body = (line :: body.takeWhile Line.isDag) ++ body.dropWhile Line.isDag := by
            simp [List.takeWhile_append_dropWhile]
          have hnk : ∀ l ∈ line :: body.takeWhile Line.isDag, l.kind = .dag := by
            intro l hl'
            rcases List.mem_cons.1 hl' with rfl | hl'
            · exact hk
            · have := mem_takeWhile hl'; simpa [Line.isDag] using this
          have hsub : ∀ l ∈ body.dropWhile Line.isDag, l ∈ body := fun l h => (List.dropWhile_suffix _).mem h
          have hne : (line :: List.takeWhile Line.isDag body).map mean ≠ [] := by simp
          have hds := hc.dags _ _ (by simp) (hc.ofPrefix (hsplit ▸ hgood)) hnk hdg
          have hgrest := hc.ofSuffix (hsplit ▸ hgood)
          rw [hsplit, List.map_append, map_directive_dag hnk, ← List.append_assoc]
          generalize (line :: List.takeWhile Line.isDag body).map mean = μs at *
          dsimp only at h
          obtain ⟨pre, hg, hpre, pre', hpre'⟩ := dagGroup_den hc hds hne (body.dropWhile Line.isDag) hgrest
            (fun l h => hcb l (hsub l h))
          have hsub2 : ∀ l ∈ (dagGroup d (body.dropWhile Line.isDag)).2, l ∈ body.dropWhile Line.isDag := by
            intro l h; rw [hpre']; exact List.mem_append_right _ h
          have := ih _ _ _ _ _ _ (hc.ofSuffix (hpre' ▸ hgrest)) (fun l h => hlb l (hsub l (hsub2 l h))) (fun l h => hcb l (hsub l (hsub2 l h)))
            (show PendDen _ none _ from pushGroup_den hd hg) h
          rw [hpre]
          simpa using this
      · -- CHECK-COUNT
        rename_i n hk
        have hn : 1 ≤ n := by
          rcases Nat.eq_zero_or_pos n with h0 | h0
          · subst h0; exact absurd hk (hcz line (by simp))
          · exact h0
        have hcr : compileRule line = .plain line.pat := by unfold compileRule; rw [hk]
        have hg : GroupDen (.repeated (compileRule line) n) [line.directive mean] := by
          rw [hcr]; unfold Line.directive; rw [hk]
          exact .repeated (hc.pat line (hc.mem hgood (by simp)) (by simp [hk])) hn
        have := ih _ _ _ _ _ _ (hc.ofSuffix (a := [line]) (by simpa using hgood)) hlb hcb (show PendDen _ none _ from pushGroup_den hd hg) h
        simpa using this
      · -- CHECK, CHECK-NEXT, CHECK-SAME, CHECK-EMPTY
        rename_i hk1 hk2 hk3
        have hsplit : line :: body = (line :: body.takeWhile (fun l => !l.endsOrdered)) ++
            body.dropWhile (fun l => !l.endsOrdered) := by
          simp [List.takeWhile_append_dropWhile]
        have hnk : ∀ l ∈ line :: body.takeWhile (fun l => !l.endsOrdered),
            l.kind = .plain ∨ l.kind = .next ∨ l.kind = .same ∨ l.kind = .empty := by
          intro l hl'
          have hlab : l.kind ≠ .label := by
            rcases List.mem_cons.1 hl' with rfl | hl'
            · exact hl _ (by simp)
            · exact hlb l ((List.takeWhile_prefix _).mem hl')
          rcases List.mem_cons.1 hl' with rfl | hl'
          · revert hlab hk1 hk2 hk3
            generalize l.kind = k
            cases k <;> simp
          · have := mem_takeWhile hl'
            unfold Line.endsOrdered at this
            revert hlab this
            generalize l.kind = k
            cases k <;> simp
        have hsub : ∀ l ∈ body.dropWhile (fun l => !l.endsOrdered), l ∈ body :=
          fun l h => (List.dropWhile_suffix _).mem h
        dsimp only at h
        have hg : GroupDen (.ordered ((line :: body.takeWhile (fun l => !l.endsOrdered)).map compileRule))
            ((line :: body.takeWhile (fun l => !l.endsOrdered)).map (Line.directive mean)) := by
          refine .ordered (by simp) (forall2_map ?_)
          intro l hl'
          exact compileRule_sound (hc.pat l (hc.mem hgood (by rw [hsplit]; exact List.mem_append_left _ hl'))) (hnk l hl')
        have := ih _ _ _ _ _ _ (hc.ofSuffix (hsplit ▸ hgood)) (fun l h => hlb l (hsub l h)) (fun l h => hcb l (hsub l h))
          (show PendDen _ none _ from pushGroup_den hd hg) h
        rw [hsplit, List.map_append, ← List.append_assoc]
        exact this

end Litcheck
