import Verif.Proofs.Tame
import Verif.Proofs.EndToEnd
import Verif.Spec.Orderly
import Mathlib.Data.List.TakeWhile

/-!
# Compiling a check file: no panic, and groups which do not panic
-/

namespace Litcheck
open Spec
variable {E : Type}

/-- What is asked of the patterns of a block. -/
structure BlockTame (sc : SetCompiler E) (nx sm : Bool) (all : List (Line E)) : Prop where
  pats : ∀ l ∈ all, l.kind ≠ .not → l.kind ≠ .dag → l.kind ≠ .empty → l.pat.Tame
  same : ∀ l ∈ all, l.kind = .same → l.pat.NeverEmpty
  noLabel : ∀ l ∈ all, l.kind ≠ .label
  count : ∀ l ∈ all, l.kind ≠ .count 0
  nots : ∀ ls, ls <:+: all → ls ≠ [] → (∀ l ∈ ls, l.kind = .not) → ∃ r, sc.nots ls = .ok r ∧ ∀ p, r = some p → p.Located
  dags : ∀ ls, ls <:+: all → ls ≠ [] → (∀ l ∈ ls, l.kind = .dag) → ∃ r, sc.dags ls = .ok r ∧ ∀ d, r = some d → d.Tame
  orderly : Orderly nx sm (all.map Line.kind)

/-- The lines end with a `CHECK-DAG` group, or with that and one more line. -/
def EndsDag (ks : List Kind) : Prop := ∃ pre opt, ks = pre ++ Kind.dag :: opt ∧ (opt = [] ∨ opt = [.plain] ∨ ∃ n, opt = [.count n])

/-- The last group can be taken as the left side of a `CHECK-NOT`. -/
def LastOk (gs : List (Group E)) (ks : List Kind) : Prop := ∀ t, (popLeft gs).2 = some t → t.Closed ∨ EndsDag ks

/-- The pending `CHECK-NOT`. -/
def PendOk (nx sm : Bool) (gs : List (Group E)) (ks : List Kind) (body : List (Line E)) : Pending E → Prop
  | none => body ≠ [] → LastOk gs ks
  | some (left, root) => root.Located ∧ (∀ t, left = some t → t.Tame nx sm ∧ t.Closed) ∧ ∃ l ls, body = l :: ls ∧ l.kind ≠ .not

theorem popLeft_snoc (gs : List (Group E)) (g : Group E) : popLeft (gs ++ [g]) =
    match g with
    | .tree t => (gs, some t)
    | .unordered d => (gs, some (.matchAll (.unordered d)))
    | _ => (gs ++ [g], none) := by
  unfold popLeft
  simp only [List.getLast?_append, List.getLast?_singleton, Option.some_or, List.dropLast_concat]
  cases g <;> rfl

theorem popLeft_tame {nx sm : Bool} {gs : List (Group E)} (h : ∀ g ∈ gs, g.Harmless nx sm) :
    (∀ g ∈ (popLeft gs).1, g.Harmless nx sm) ∧ ∀ t, (popLeft gs).2 = some t → t.Tame nx sm := by
  rcases List.eq_nil_or_concat gs with rfl | ⟨gs', g, rfl⟩
  · simp [popLeft]
  · rw [List.concat_eq_append] at h ⊢
    have hg := h g (by simp)
    have hgs : ∀ x ∈ gs', x.Harmless nx sm := fun x hx => h x (by simp [hx])
    rw [popLeft_snoc]
    cases g with
    | tree t =>
      refine ⟨hgs, ?_⟩
      intro t' ht
      simp only [Option.some.injEq] at ht
      subst ht
      rcases hg with hg | ⟨p, hp, _⟩
      · simpa [Group.Tame] using hg
      · simp at hp
    | unordered d =>
      refine ⟨hgs, ?_⟩
      intro t' ht
      simp only [Option.some.injEq] at ht
      subst ht
      rcases hg with hg | ⟨p, hp, _⟩
      · simpa [Tree.Tame] using hg
      · simp at hp
    | _ => exact ⟨h, by simp⟩

theorem pushGroup_tame {nx sm : Bool} {gs : List (Group E)} {ks ks' : List Kind} {body : List (Line E)} {p : Pending E} {g : Group E}
    (hgs : ∀ g ∈ gs, g.Harmless nx sm) (hp : PendOk nx sm gs ks body p) (hg : g.Tame nx sm) (hgc : g.Closed ∨ EndsDag ks') :
    (∀ x ∈ pushGroup gs p g, x.Harmless nx sm) ∧ LastOk (pushGroup gs p g) ks' := by
  unfold pushGroup
  rcases p with _ | ⟨left, root⟩
  · refine ⟨?_, ?_⟩
    · intro x hx
      rcases List.mem_append.1 hx with hx | hx
      · exact hgs x hx
      · simp only [List.mem_singleton] at hx
        subst hx; exact .inl hg
    · intro t ht
      dsimp only at ht
      rw [popLeft_snoc] at ht
      cases g with
      | tree t' =>
        simp only [Option.some.injEq] at ht
        subst ht
        simpa [Group.Closed] using hgc
      | unordered d =>
        simp only [Group.Closed, false_or] at hgc
        exact .inr hgc
      | _ => simp at ht
  · obtain ⟨h1, h2, _⟩ := hp
    have hkey : ∀ t : Tree E, t.Tame nx sm → (t.Closed ∨ EndsDag ks') →
        (∀ x ∈ gs ++ [Group.tree t], x.Harmless nx sm) ∧ LastOk (gs ++ [Group.tree t]) ks' := by
      intro t ht htc
      refine ⟨?_, ?_⟩
      · intro x hx
        rcases List.mem_append.1 hx with hx | hx
        · exact hgs x hx
        · simp only [List.mem_singleton] at hx
          subst hx; exact .inl (by simpa [Group.Tame] using ht)
      · intro t' ht'
        rw [popLeft_snoc] at ht'
        simp only [Option.some.injEq] at ht'
        subst ht'; exact htc
    cases left with
    | none =>
      refine hkey _ ?_ ?_
      · simp only [Tree.Tame]; exact ⟨h1, hg⟩
      · simpa only [Tree.Closed] using hgc
    | some t =>
      obtain ⟨h3, h4⟩ := h2 t rfl
      refine hkey _ ?_ ?_
      · simp only [Tree.Tame]; exact ⟨h1, h3, h4, hg⟩
      · rcases hgc with hgc | hgc
        · exact .inl (by simp only [Tree.Closed]; exact ⟨h4, hgc⟩)
        · exact .inr hgc

theorem compileRule_tame {sc : SetCompiler E} {nx sm : Bool} {all : List (Line E)} (h : BlockTame sc nx sm all) {l : Line E} (hl : l ∈ all)
    (h1 : l.kind ≠ .not) (h2 : l.kind ≠ .dag) : (compileRule l).Tame nx sm := by
  have hm : l.kind ∈ all.map Line.kind := List.mem_map_of_mem hl
  have hp := h.pats l hl h1 h2
  unfold compileRule
  cases hk : l.kind with
  | not => exact absurd hk h1
  | dag => exact absurd hk h2
  | empty => exact h.orderly.next (.inr (hk ▸ hm))
  | next => exact ⟨h.orderly.next (.inl (hk ▸ hm)), hp (by simp [hk])⟩
  | same => exact ⟨h.orderly.same (hk ▸ hm), hp (by simp [hk]), h.same l hl hk⟩
  | plain => exact hp (by simp [hk])
  | label => exact hp (by simp [hk])
  | count n => exact hp (by simp [hk])

theorem dagGroup_tame {sc : SetCompiler E} {nx sm : Bool} {all : List (Line E)} (h : BlockTame sc nx sm all) {d : Dag E} (hd : d.Tame)
    {done dl rest : List (Line E)} (hall : all = done ++ (dl ++ rest)) (hdl : dl ≠ []) (hk : ∀ l ∈ dl, l.kind = .dag) :
    (dagGroup d rest).1.Tame nx sm ∧ ∃ opt, rest = opt ++ (dagGroup d rest).2 ∧ EndsDag ((done ++ dl ++ opt).map Line.kind) := by
  have hend : ∀ opt : List (Line E), (opt.map Line.kind = [] ∨ opt.map Line.kind = [.plain] ∨ ∃ n, opt.map Line.kind = [.count n]) →
      EndsDag ((done ++ dl ++ opt).map Line.kind) := by
    intro opt ho
    obtain ⟨dl', x, rfl⟩ := List.eq_nil_or_concat dl |>.resolve_left hdl
    rw [List.concat_eq_append] at hk ⊢
    refine ⟨(done ++ dl').map Line.kind, opt.map Line.kind, ?_, ho⟩
    simp [hk x (by simp)]
  cases rest with
  | nil => exact ⟨by simp only [dagGroup, Group.Tame]; exact hd, [], by simp [dagGroup], hend [] (by simp)⟩
  | cons l rest =>
    have hl : l ∈ all := by rw [hall]; simp
    have hother : dagGroup d (l :: rest) = (.unordered d, l :: rest) → (dagGroup d (l :: rest)).1.Tame nx sm ∧
        ∃ opt, (l :: rest) = opt ++ (dagGroup d (l :: rest)).2 ∧ EndsDag ((done ++ dl ++ opt).map Line.kind) := by
      intro he
      rw [he]
      exact ⟨by simp only [Group.Tame]; exact hd, [], rfl, hend [] (by simp)⟩
    cases hkl : l.kind with
    | plain =>
      have he : dagGroup d (l :: rest) = (.bounded d (.ordered [compileRule l]), rest) := by simp [dagGroup, hkl]
      have hcr : compileRule l = .plain l.pat := by unfold compileRule; rw [hkl]
      have ht := compileRule_tame h hl (by simp [hkl]) (by simp [hkl])
      rw [he]
      refine ⟨?_, [l], rfl, hend [l] (by simp [hkl])⟩
      simp only [Group.Tame]
      refine ⟨hd, ⟨l.pat, .inl (by rw [hcr])⟩, ?_⟩
      intro r hr
      simp only [List.mem_singleton] at hr
      rw [hr]; exact ht
    | count n =>
      have he : dagGroup d (l :: rest) = (.bounded d (.repeated (compileRule l) n), rest) := by simp [dagGroup, hkl]
      have hcr : compileRule l = .plain l.pat := by unfold compileRule; rw [hkl]
      have ht := compileRule_tame h hl (by simp [hkl]) (by simp [hkl])
      have hn : 1 ≤ n := by
        rcases Nat.eq_zero_or_pos n with h0 | h0
        · subst h0; exact absurd hkl (h.count l hl)
        · exact h0
      rw [he]
      refine ⟨?_, [l], rfl, hend [l] (by simp [hkl])⟩
      simp only [Group.Tame]
      exact ⟨hd, ⟨l.pat, .inr ⟨n, by rw [hcr]⟩⟩, ht, hn⟩
    | label => exact hother (by simp [dagGroup, hkl])
    | next => exact hother (by simp [dagGroup, hkl])
    | same => exact hother (by simp [dagGroup, hkl])
    | not => exact hother (by simp [dagGroup, hkl])
    | dag => exact hother (by simp [dagGroup, hkl])
    | empty => exact hother (by simp [dagGroup, hkl])

theorem compileBody_tame {sc : SetCompiler E} {nx sm : Bool} {all : List (Line E)} (h : BlockTame sc nx sm all) :
    ∀ (fuel : Nat) (body : List (Line E)) (gs : List (Group E)) (p : Pending E) (done : List (Line E)),
      all = done ++ body → body.length ≤ fuel → (∀ g ∈ gs, g.Harmless nx sm) → PendOk nx sm gs (done.map Line.kind) body p →
      ∃ r, compileBody sc fuel body gs p = .ok r ∧ ∀ gs' p', r = .ok (gs', p') → p' = none ∧ ∀ g ∈ gs', g.Harmless nx sm
  | fuel, [], gs, p, done, hall, hf, hgs, hp => by
    refine ⟨.ok (gs, p), by unfold compileBody; rfl, ?_⟩
    intro gs' p' he
    simp only [Except.ok.injEq, Prod.mk.injEq] at he
    obtain ⟨rfl, rfl⟩ := he
    refine ⟨?_, hgs⟩
    rcases p with _ | ⟨left, root⟩
    · rfl
    · obtain ⟨_, _, l, ls, h3, _⟩ := hp
      simp at h3
  | 0, l :: ls, gs, p, done, hall, hf, hgs, hp => by simp at hf
  | fuel + 1, line :: body, gs, p, done, hall, hf, hgs, hp => by
    have hline : line ∈ all := by rw [hall]; simp
    have hlen : body.length ≤ fuel := by simpa using hf
    unfold compileBody
    split
    · -- CHECK-NOT
      rename_i hk
      have hpn : p = none := by
        rcases p with _ | ⟨left, root⟩
        · rfl
        · obtain ⟨_, _, l, ls, h3, h4⟩ := hp
          simp only [List.cons.injEq] at h3
          rw [← h3.1] at h4
          exact absurd hk h4
      subst hpn
      have hsplit : line :: body = (line :: body.takeWhile Line.isNot) ++ body.dropWhile Line.isNot := by
        simp [List.takeWhile_append_dropWhile]
      have hnk : ∀ l ∈ line :: body.takeWhile Line.isNot, l.kind = .not := by
        intro l hl'
        rcases List.mem_cons.1 hl' with rfl | hl'
        · exact hk
        · have := mem_takeWhile hl'; simpa [Line.isNot] using this
      have hall2 : all = (done ++ (line :: body.takeWhile Line.isNot)) ++ body.dropWhile Line.isNot := by
        rw [List.append_assoc, ← hsplit]; exact hall
      obtain ⟨r, hr, hr2⟩ := h.nots (line :: body.takeWhile Line.isNot) ⟨done, body.dropWhile Line.isNot, hall2.symm⟩ (by simp) hnk
      have hlen2 : (body.dropWhile Line.isNot).length ≤ fuel := Nat.le_trans (List.dropWhile_suffix _).length_le hlen
      simp only [Option.isSome_none, Bool.false_eq_true, if_false, hr]
      cases r with
      | none => exact ⟨_, rfl, by simp⟩
      | some matcher =>
        have hloc := hr2 matcher rfl
        obtain ⟨q1, q2⟩ := popLeft_tame hgs
        dsimp only
        by_cases hemp : (body.dropWhile Line.isNot).isEmpty = true
        · have hrest : body.dropWhile Line.isNot = [] := by simpa using hemp
          simp only [hemp, if_true]
          cases hpl : (popLeft gs).2 with
          | some t =>
            dsimp only
            refine compileBody_tame h fuel _ _ _ _ hall2 hlen2 ?_ ?_
            · intro x hx
              rcases List.mem_append.1 hx with hx | hx
              · exact q1 x hx
              · simp only [List.mem_singleton] at hx
                subst hx
                exact .inl (by simp only [Group.Tame, Tree.Tame]; exact ⟨hloc, q2 t hpl⟩)
            · rw [hrest]; exact fun h0 => absurd rfl h0
          | none =>
            dsimp only
            refine compileBody_tame h fuel _ _ _ _ hall2 hlen2 ?_ ?_
            · intro x hx
              rcases List.mem_append.1 hx with hx | hx
              · exact q1 x hx
              · simp only [List.mem_singleton] at hx
                subst hx
                exact .inr ⟨_, rfl, hloc⟩
            · rw [hrest]; exact fun h0 => absurd rfl h0
        · simp only [hemp, Bool.false_eq_true, if_false]
          refine compileBody_tame h fuel _ _ _ _ hall2 hlen2 q1 ?_
          have hrest : body.dropWhile Line.isNot ≠ [] := by simpa using hemp
          refine ⟨hloc, ?_, ?_⟩
          · intro t ht
            refine ⟨q2 t ht, ?_⟩
            rcases hp (by simp) t ht with hc | ⟨pre, opt, he, ho⟩
            · exact hc
            · exfalso
              have hks : all.map Line.kind = pre ++ Kind.dag :: (opt ++ Kind.not :: body.map Line.kind) := by
                rw [hall, List.map_append, List.map_cons, he, hk]; simp
              have := h.orderly.dags pre opt _ hks ho
              apply hrest
              rw [List.dropWhile_eq_nil_iff]
              intro l hl
              have h5 := this l.kind (List.mem_map_of_mem hl)
              simp [Line.isNot, h5]
          · cases hb : body.dropWhile Line.isNot with
            | nil => exact absurd hb hrest
            | cons l ls =>
              refine ⟨l, ls, rfl, ?_⟩
              have := List.head?_dropWhile_not Line.isNot body
              rw [hb] at this
              simpa [Line.isNot] using this
    · -- CHECK-DAG
      rename_i hk
      have hsplit : line :: body = (line :: body.takeWhile Line.isDag) ++ body.dropWhile Line.isDag := by
        simp [List.takeWhile_append_dropWhile]
      have hnk : ∀ l ∈ line :: body.takeWhile Line.isDag, l.kind = .dag := by
        intro l hl'
        rcases List.mem_cons.1 hl' with rfl | hl'
        · exact hk
        · have := mem_takeWhile hl'; simpa [Line.isDag] using this
      have hall2 : all = done ++ ((line :: body.takeWhile Line.isDag) ++ body.dropWhile Line.isDag) := by
        rw [← hsplit]; exact hall
      obtain ⟨r, hr, hr2⟩ := h.dags (line :: body.takeWhile Line.isDag) ⟨done, body.dropWhile Line.isDag, by rw [hall2]; simp⟩ (by simp) hnk
      simp only [hr]
      cases r with
      | none => exact ⟨_, rfl, by simp⟩
      | some d =>
        obtain ⟨g1, opt, g2, g3⟩ := dagGroup_tame h (hr2 d rfl) hall2 (by simp) hnk
        obtain ⟨x1, x2⟩ := pushGroup_tame (ks' := (done ++ (line :: body.takeWhile Line.isDag) ++ opt).map Line.kind) hgs hp g1 (.inr g3)
        dsimp only
        have hlen3 : (dagGroup d (body.dropWhile Line.isDag)).2.length ≤ fuel := by
          have h1 : (body.dropWhile Line.isDag).length ≤ fuel := Nat.le_trans (List.dropWhile_suffix _).length_le hlen
          rw [g2, List.length_append] at h1
          omega
        refine compileBody_tame h fuel _ _ _ (done ++ (line :: body.takeWhile Line.isDag) ++ opt) ?_ hlen3 x1 (fun _ => x2)
        rw [hall2]
        simp only [List.append_assoc]
        rw [← g2]
    · -- CHECK-COUNT
      rename_i n hk
      have hn : 1 ≤ n := by
        rcases Nat.eq_zero_or_pos n with h0 | h0
        · subst h0; exact absurd hk (h.count line hline)
        · exact h0
      have hg : Group.Tame nx sm (.repeated (compileRule line) n) := by
        simp only [Group.Tame]
        exact ⟨compileRule_tame h hline (by simp [hk]) (by simp [hk]), hn⟩
      obtain ⟨x1, x2⟩ := pushGroup_tame (ks' := (done ++ [line]).map Line.kind) hgs hp hg (.inl (by simp [Group.Closed]))
      exact compileBody_tame h fuel _ _ _ (done ++ [line]) (by rw [hall]; simp) hlen x1 (fun _ => x2)
    · -- CHECK, CHECK-NEXT, CHECK-SAME, CHECK-EMPTY
      rename_i hk1 hk2 hk3
      have hsplit : line :: body = (line :: body.takeWhile (fun l => !l.endsOrdered)) ++ body.dropWhile (fun l => !l.endsOrdered) := by
        simp [List.takeWhile_append_dropWhile]
      have hall2 : all = (done ++ (line :: body.takeWhile (fun l => !l.endsOrdered))) ++ body.dropWhile (fun l => !l.endsOrdered) := by
        rw [List.append_assoc, ← hsplit]; exact hall
      have hnk : ∀ l ∈ line :: body.takeWhile (fun l => !l.endsOrdered), l.kind ≠ .not ∧ l.kind ≠ .dag := by
        intro l hl'
        rcases List.mem_cons.1 hl' with rfl | hl'
        · exact ⟨hk1, hk2⟩
        · have := mem_takeWhile hl'
          unfold Line.endsOrdered at this
          revert this
          generalize l.kind = k
          cases k <;> simp
      have hg : Group.Tame nx sm (.ordered ((line :: body.takeWhile (fun l => !l.endsOrdered)).map compileRule)) := by
        simp only [Group.Tame]
        intro r hr
        obtain ⟨l, hl, rfl⟩ := List.mem_map.1 hr
        exact compileRule_tame h (by rw [hall2]; simp only [List.mem_append]; exact .inl (.inr hl)) (hnk l hl).1 (hnk l hl).2
      obtain ⟨x1, x2⟩ := pushGroup_tame (ks' := (done ++ (line :: body.takeWhile (fun l => !l.endsOrdered))).map Line.kind) hgs hp hg
        (.inl (by simp [Group.Closed]))
      exact compileBody_tame h fuel _ _ _ _ hall2 (Nat.le_trans (List.dropWhile_suffix _).length_le hlen) x1 (fun _ => x2)

end Litcheck
