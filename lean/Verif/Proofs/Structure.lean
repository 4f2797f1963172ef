import Verif.Spec.Structure
import Verif.Proofs.Program
import Verif.Proofs.EndToEnd

/-!
# The compiler keeps every line, in order (no assumption on the patterns)
-/

namespace Litcheck
open Spec
variable {E : Type} {sc : SetCompiler E}

theorem Spec.GroupsOf.nil : GroupsOf sc ([] : List (Group E)) [] := ⟨[], .nil, rfl⟩

theorem Spec.GroupsOf.snoc {gs : List (Group E)} {ds dg : List (Line E)} {g : Group E} (h : GroupsOf sc gs ds)
    (hg : GroupOf sc g dg) : GroupsOf sc (gs ++ [g]) (ds ++ dg) := by
  obtain ⟨dss, hf, rfl⟩ := h
  refine ⟨dss ++ [dg], ?_, by simp⟩
  exact List.rel_append hf (.cons hg .nil)

theorem Spec.GroupsOf.unsnoc {gs : List (Group E)} {g : Group E} {ds : List (Line E)} (h : GroupsOf sc (gs ++ [g]) ds) :
    ∃ d1 d2, GroupsOf sc gs d1 ∧ GroupOf sc g d2 ∧ ds = d1 ++ d2 := by
  obtain ⟨dss, hf, rfl⟩ := h
  induction gs generalizing dss with
  | nil =>
    cases hf with
    | cons h1 h2 => cases h2; exact ⟨[], _, GroupsOf.nil, h1, by simp⟩
  | cons x xs ih =>
    cases hf with
    | cons h1 h2 =>
      obtain ⟨d1, d2, ⟨e, he, hee⟩, h4, h5⟩ := ih _ h2
      exact ⟨_, d2, ⟨_ :: e, .cons h1 he, rfl⟩, h4, by simp [hee, h5]⟩

theorem popLeft_of {gs : List (Group E)} {ds : List (Line E)} (h : GroupsOf sc gs ds) :
    (∃ d1 t d2, (popLeft gs).2 = some t ∧ GroupsOf sc (popLeft gs).1 d1 ∧ TreeOf sc t d2 ∧ ds = d1 ++ d2) ∨
    ((popLeft gs).2 = none ∧ (popLeft gs).1 = gs) := by
  unfold popLeft
  split
  · rename_i t ht
    left
    obtain ⟨ys, rfl⟩ := List.getLast?_eq_some_iff.1 ht
    obtain ⟨d1, d2, h1, h2, h3⟩ := h.unsnoc
    refine ⟨d1, t, d2, rfl, by simpa using h1, ?_, h3⟩
    cases h2 with
    | tree h2 => exact h2
  · rename_i d hd
    left
    obtain ⟨ys, rfl⟩ := List.getLast?_eq_some_iff.1 hd
    obtain ⟨d1, d2, h1, h2, h3⟩ := h.unsnoc
    exact ⟨d1, _, d2, rfl, by simpa using h1, .matchAll h2, h3⟩
  · right; exact ⟨rfl, rfl⟩

/-- A set of `CHECK-NOT` lines and its compiled pattern. -/
def NotsOf (sc : SetCompiler E) (root : Pat E) (ls : List (Line E)) : Prop :=
  ls ≠ [] ∧ (∀ l ∈ ls, l.kind = .not) ∧ sc.nots ls = .ok (some root)

/-- The lines of the groups compiled so far, with the `CHECK-NOT` group waiting for its right-hand side. -/
def PendOf (sc : SetCompiler E) (gs : List (Group E)) (p : Pending E) (ds : List (Line E)) : Prop :=
  match p with
  | none => GroupsOf sc gs ds
  | some (none, root) => ∃ d1 μs, GroupsOf sc gs d1 ∧ NotsOf sc root μs ∧ ds = d1 ++ μs
  | some (some t, root) => ∃ d1 d2 μs, GroupsOf sc gs d1 ∧ TreeOf sc t d2 ∧ NotsOf sc root μs ∧ ds = d1 ++ (d2 ++ μs)

theorem pushGroup_of {gs : List (Group E)} {p : Pending E} {ds dg : List (Line E)} {g : Group E}
    (h : PendOf sc gs p ds) (hg : GroupOf sc g dg) : GroupsOf sc (pushGroup gs p g) (ds ++ dg) := by
  match p, h with
  | none, h => exact GroupsOf.snoc h hg
  | some (none, root), h =>
    obtain ⟨d1, μs, h1, h2, rfl⟩ := h
    rw [List.append_assoc]
    exact h1.snoc (.tree (.matchAfter h2.1 h2.2.1 h2.2.2 (.matchAll hg)))
  | some (some t, root), h =>
    obtain ⟨d1, d2, μs, h1, ht, h2, rfl⟩ := h
    rw [List.append_assoc]
    exact h1.snoc (.tree (.matchAround h2.1 h2.2.1 h2.2.2 ht (.matchAll hg)))

theorem compileRule_of {l : Line E} (hk : l.kind = .plain ∨ l.kind = .next ∨ l.kind = .same ∨ l.kind = .empty) :
    RuleOf (compileRule l) l := by
  unfold compileRule
  rcases hk with h | h | h | h <;> simp only [h]
  · exact .plain h
  · exact .next h
  · exact .same h
  · exact .empty h

theorem dagGroup_of {d : Dag E} {dl : List (Line E)} (hne : dl ≠ []) (hk : ∀ l ∈ dl, l.kind = .dag)
    (hd : sc.dags dl = .ok (some d)) (rest : List (Line E)) :
    ∃ pre, GroupOf sc (dagGroup d rest).1 (dl ++ pre) ∧ rest = pre ++ (dagGroup d rest).2 := by
  have hun := GroupOf.unordered hne hk hd
  unfold dagGroup
  split
  · rename_i l rest'
    split
    · rename_i hkl
      exact ⟨[l], .bounded hne hk hd (.ordered (by simp) (.cons (compileRule_of (.inl hkl)) .nil)), by simp⟩
    · rename_i n hkl
      refine ⟨[l], .bounded hne hk hd ?_, by simp⟩
      have hcr : compileRule l = .plain l.pat := by unfold compileRule; rw [hkl]
      rw [hcr]; exact .repeated hkl
    · exact ⟨[], by simpa using hun, by simp⟩
  · exact ⟨[], by simpa using hun, by simp⟩

/-- The groups of a block hold its lines, in order. -/
theorem compileBody_of : ∀ (fuel : Nat) (body : List (Line E)) (gs : List (Group E)) (p : Pending E) (ds : List (Line E))
      (gs' : List (Group E)) (p' : Pending E),
      (∀ l ∈ body, l.kind ≠ .label) → PendOf sc gs p ds →
      compileBody sc fuel body gs p = .ok (.ok (gs', p')) →
      PendOf sc gs' p' (ds ++ body) := by
  intro fuel
  induction fuel with
  | zero =>
    intro body gs p ds gs' p' hl hd h
    cases body with
    | nil => simp [compileBody] at h; obtain ⟨rfl, rfl⟩ := h; simpa using hd
    | cons l ls => simp [compileBody] at h
  | succ fuel ih =>
    intro body gs p ds gs' p' hl hd h
    cases body with
    | nil => simp [compileBody] at h; obtain ⟨rfl, rfl⟩ := h; simpa using hd
    | cons line body =>
      have hlb : ∀ l ∈ body, l.kind ≠ .label := fun l h => hl l (by simp [h])
      unfold compileBody at h
      split at h
      · -- CHECK-NOT
        rename_i hk
        split at h
        · simp at h
        · rename_i hpn
          have hpn : p = none := by cases p <;> simp_all
          subst hpn
          split at h
          · simp at h
          · simp at h
          · rename_i matcher hm
            have hsplit : line :: body = (line :: body.takeWhile Line.isNot) ++ body.dropWhile Line.isNot := by
              simp [List.takeWhile_append_dropWhile]
            have hnk : ∀ l ∈ line :: body.takeWhile Line.isNot, l.kind = .not := by
              intro l hl'
              rcases List.mem_cons.1 hl' with rfl | hl'
              · exact hk
              · have := mem_takeWhile hl'; simpa [Line.isNot] using this
            have hsub : ∀ l ∈ body.dropWhile Line.isNot, l ∈ body := fun l h => (List.dropWhile_suffix _).mem h
            have hcomp : NotsOf sc matcher (line :: body.takeWhile Line.isNot) := ⟨by simp, hnk, hm⟩
            have hpop := popLeft_of hd
            rw [hsplit, ← List.append_assoc]
            generalize (line :: List.takeWhile Line.isNot body) = μs at *
            dsimp only at h
            split at h
            · -- nothing follows
              rename_i hemp
              have hrest : List.dropWhile Line.isNot body = [] := by simpa using hemp
              rcases hpop with ⟨d1, t, d2, hp2, hp1, ht, rfl⟩ | ⟨hp2, hp1⟩
              · rw [hp2] at h
                simp only at h
                refine ih _ _ _ _ _ _ (by simp [hrest]) ?_ h
                rw [List.append_assoc]
                exact hp1.snoc (.tree (.matchBefore hcomp.1 hcomp.2.1 hcomp.2.2 ht))
              · rw [hp2] at h
                simp only at h
                refine ih _ _ _ _ _ _ (by simp [hrest]) ?_ h
                rw [hp1]
                exact GroupsOf.snoc hd (.never hcomp.1 hcomp.2.1 hcomp.2.2)
            · refine ih _ _ _ _ _ _ (fun l h => hlb l (hsub l h)) ?_ h
              rcases hpop with ⟨d1, t, d2, hp2, hp1, ht, rfl⟩ | ⟨hp2, hp1⟩
              · rw [hp2]; exact ⟨d1, d2, _, hp1, ht, hcomp, by simp⟩
              · rw [hp2, hp1]; exact ⟨ds, _, hd, hcomp, rfl⟩
      · -- CHECK-DAG
        rename_i hk
        split at h
        · simp at h
        · simp at h
        · rename_i d hdg
          have hsplit : line :: body = (line :: body.takeWhile Line.isDag) ++ body.dropWhile Line.isDag := by
            simp [List.takeWhile_append_dropWhile]
          have hnk : ∀ l ∈ line :: body.takeWhile Line.isDag, l.kind = .dag := by
            intro l hl'
            rcases List.mem_cons.1 hl' with rfl | hl'
            · exact hk
            · have := mem_takeWhile hl'; simpa [Line.isDag] using this
          have hsub : ∀ l ∈ body.dropWhile Line.isDag, l ∈ body := fun l h => (List.dropWhile_suffix _).mem h
          have hne : (line :: List.takeWhile Line.isDag body) ≠ [] := by simp
          rw [hsplit, ← List.append_assoc]
          generalize (line :: List.takeWhile Line.isDag body) = μs at *
          dsimp only at h
          obtain ⟨pre, hg, hpre⟩ := dagGroup_of hne hnk hdg (body.dropWhile Line.isDag)
          have hsub2 : ∀ l ∈ (dagGroup d (body.dropWhile Line.isDag)).2, l ∈ body.dropWhile Line.isDag := by
            intro l h; rw [hpre]; exact List.mem_append_right _ h
          have := ih _ _ _ _ _ _ (fun l h => hlb l (hsub l (hsub2 l h)))
            (show PendOf sc _ none _ from pushGroup_of hd hg) h
          rw [hpre]
          simpa using this
      · -- CHECK-COUNT
        rename_i n hk
        have hcr : compileRule line = .plain line.pat := by unfold compileRule; rw [hk]
        have hg : GroupOf sc (.repeated (compileRule line) n) [line] := by
          rw [hcr]; exact .repeated hk
        have := ih _ _ _ _ _ _ hlb (show PendOf sc _ none _ from pushGroup_of hd hg) h
        simpa using this
      · -- CHECK, CHECK-NEXT, CHECK-SAME, CHECK-EMPTY
        rename_i hk1 hk2 hk3
        have hsplit : line :: body = (line :: body.takeWhile (fun l => !l.endsOrdered)) ++
            body.dropWhile (fun l => !l.endsOrdered) := by
          simp [List.takeWhile_append_dropWhile]
        have hnk : ∀ l ∈ line :: body.takeWhile (fun l => !l.endsOrdered),
            l.kind = .plain ∨ l.kind = .next ∨ l.kind = .same ∨ l.kind = .empty := by
          intro l hl'
          have hlab : l.kind ≠ .label := by
            rcases List.mem_cons.1 hl' with rfl | hl'
            · exact hl _ (by simp)
            · exact hlb l ((List.takeWhile_prefix _).mem hl')
          rcases List.mem_cons.1 hl' with rfl | hl'
          · revert hlab hk1 hk2 hk3
            generalize l.kind = k
            cases k <;> simp
          · have := mem_takeWhile hl'
            unfold Line.endsOrdered at this
            revert hlab this
            generalize l.kind = k
            cases k <;> simp
        have hsub : ∀ l ∈ body.dropWhile (fun l => !l.endsOrdered), l ∈ body :=
          fun l h => (List.dropWhile_suffix _).mem h
        dsimp only at h
        have hg : GroupOf sc (.ordered ((line :: body.takeWhile (fun l => !l.endsOrdered)).map compileRule))
            (line :: body.takeWhile (fun l => !l.endsOrdered)) := by
          refine .ordered (by simp) ?_
          have := forall2_map (R := RuleOf) (f := compileRule) (g := id)
            (l := line :: body.takeWhile (fun l => !l.endsOrdered)) (fun l hl => compileRule_of (hnk l hl))
          simpa using this
        have := ih _ _ _ _ _ _ (fun l h => hlb l (hsub l h)) (show PendOf sc _ none _ from pushGroup_of hd hg) h
        rw [hsplit, ← List.append_assoc]
        exact this

theorem compileBlocks_of : ∀ (bs : List (LBlock E)) (prog : List (Section E)),
    (∀ x ∈ bs, ∀ l ∈ x.2, l.kind ≠ .label) → compileBlocks sc bs = .ok (.ok prog) → ProgramOf sc prog bs
  | [], prog, _, h => by simp [compileBlocks] at h; subst h; exact .nil
  | (label, body) :: bs, prog, hl, h => by
    unfold compileBlocks at h
    obtain ⟨r, h1, h2⟩ := bind_ok.1 h
    match r, h1, h2 with
    | .error e, h1, h2 => simp at h2
    | .ok (gs, some p), h1, h2 => simp at h2
    | .ok (gs, none), h1, h2 =>
      dsimp only at h2
      obtain ⟨r2, h3, h4⟩ := bind_ok.1 h2
      match r2, h3, h4 with
      | .error e, h3, h4 => simp at h4
      | .ok rest, h3, h4 =>
        have hb := compileBody_of _ _ _ _ [] _ _ (hl (label, body) (by simp)) (show PendOf sc [] none [] from GroupsOf.nil) h1
        rw [List.nil_append] at hb
        have hr := compileBlocks_of bs rest (fun x hx => hl x (by simp [hx])) h3
        cases label with
        | some l => simp at h4; subst h4; exact .block hb hr
        | none => simp at h4; subst h4; exact .groups hb hr

end Litcheck
