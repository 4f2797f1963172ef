import Verif.Proofs.Structure
import Verif.Proofs.Completeness

/-!
# Every group of the program is evaluated, and everything it reports is recorded
-/

namespace Litcheck
open Spec
variable {E : Type}

/-- The failures among the match results which a group returns. -/
def GR.failures : GR → List Failure
  | .matched ms => ms.flatten.filterMap MatchResult.failure?
  | .unmatched ms => ms.flatten.filterMap MatchResult.failure?
  | .err f => [f]

/-- Evaluating the group in state `s` reports the failures `fs`: those recorded while it is evaluated, then those
among the match results it returns. -/
def Reported (g : Group E) (s : St E) (fs : List Failure) : Prop :=
  ∃ r s' own, checkGroup g s = .ok (r, s') ∧ s'.res.errors = s.res.errors ++ own ∧ fs = own ++ r.failures

/-- The groups of a program, in order. -/
def programGroups (prog : List (Section E)) : List (Group E) :=
  prog.flatMap fun
    | .group g => [g]
    | .block _ gs => gs

theorem checkOne_reported {g : Group E} {s s' : St E} (h : checkOne g s = .ok s') :
    ∃ fs, Reported g s fs ∧ s'.res.errors = s.res.errors ++ fs := by
  unfold checkOne at h
  obtain ⟨⟨r, s1⟩, h1, h2⟩ := bind_ok.1 h
  obtain ⟨own, hown⟩ := checkGroup_err g h1
  refine ⟨own ++ r.failures, ⟨r, s1, own, h1, hown.symm, rfl⟩, ?_⟩
  rw [← List.append_assoc, hown]
  cases r with
  | matched ms => simp at h2; rw [← h2]; simp only; rw [appendAll_errors]; rfl
  | unmatched ms => simp at h2; rw [← h2]; simp only; rw [appendAll_errors]; rfl
  | err f => simp at h2; rw [← h2]; rfl

/-- The reports of a list of groups. -/
structure Reports (gs : List (Group E)) (fs : List Failure) : Prop where
  each : ∃ reports : List (Group E × List Failure), reports.map Prod.fst = gs ∧ fs = reports.flatMap Prod.snd ∧
    ∀ x ∈ reports, ∃ s, Reported x.1 s x.2

theorem Reports.nil : Reports ([] : List (Group E)) [] := ⟨[], rfl, rfl, by simp⟩

theorem Reports.append {g1 g2 : List (Group E)} {f1 f2 : List Failure} (h1 : Reports g1 f1) (h2 : Reports g2 f2) :
    Reports (g1 ++ g2) (f1 ++ f2) := by
  obtain ⟨r1, rfl, rfl, h3⟩ := h1
  obtain ⟨r2, rfl, rfl, h4⟩ := h2
  refine ⟨r1 ++ r2, by simp, by simp, ?_⟩
  intro x hx
  rcases List.mem_append.1 hx with hx | hx
  · exact h3 x hx
  · exact h4 x hx

theorem checkGroups_reports : ∀ (gs : List (Group E)) {s s' : St E}, checkGroups gs s = .ok s' →
    ∃ fs, Reports gs fs ∧ s'.res.errors = s.res.errors ++ fs
  | [], s, s', h => by simp [checkGroups] at h; subst h; exact ⟨[], Reports.nil, by simp⟩
  | g :: gs, s, s', h => by
    unfold checkGroups at h
    obtain ⟨s1, h1, h2⟩ := bind_ok.1 h
    obtain ⟨f1, hr, he⟩ := checkOne_reported h1
    obtain ⟨f2, hrs, hes⟩ := checkGroups_reports gs h2
    have hone : Reports [g] f1 := ⟨[(g, f1)], rfl, by simp, by simpa using ⟨s, hr⟩⟩
    exact ⟨f1 ++ f2, by simpa using hone.append hrs, by rw [hes, he]; simp⟩

/-- The block stands for the groups. -/
def BlockIs (prog : List (Section E)) (bi : BlockInfo) (gs : List (Group E)) : Prop :=
  bi.start.isSome = true ∧ ∀ s : St E, checkSections prog bi.sections s = checkGroups gs s

theorem checkBlocks_reports {vs : Bool} {clear : E → E} {prog : List (Section E)} {L : List BlockInfo}
    {gss : List (List (Group E))} (hL : List.Forall₂ (BlockIs prog) L gss) :
    ∀ {s s' : St E}, checkBlocks vs clear prog L s = .ok s' → ∃ fs, Reports gss.flatten fs ∧ s'.res.errors = s.res.errors ++ fs := by
  induction hL with
  | nil => intro s s' h; simp [checkBlocks] at h; subst h; exact ⟨[], Reports.nil, by simp⟩
  | @cons bi gs L gss hb _ ih =>
    intro s s' h
    unfold checkBlocks at h
    obtain ⟨s1, h1, h2⟩ := bind_ok.1 h
    obtain ⟨f2, hr2, he2⟩ := ih h2
    have hone : ∃ f1, Reports gs f1 ∧ s1.res.errors = s.res.errors ++ f1 := by
      obtain ⟨lo, hlo⟩ := Option.isSome_iff_exists.1 hb.1
      obtain ⟨cur, res, _, hres, hrun⟩ := checkBlock_run (o := ⟨false, vs⟩) hb.2 hlo rfl h1
      obtain ⟨f1, hr1, he1⟩ := checkGroups_reports gs hrun
      exact ⟨f1, hr1, by rw [he1]; simp only; rw [hres]⟩
    obtain ⟨f1, hr1, he1⟩ := hone
    exact ⟨f1 ++ f2, by simpa using hr1.append hr2, by rw [he2, he1]; simp⟩

theorem setPrevEnd_is {prog : List (Section E)} {acc : List BlockInfo} {gss : List (List (Group E))} (e : Nat)
    (h : List.Forall₂ (BlockIs prog) acc gss) : List.Forall₂ (BlockIs prog) (setPrevEnd e acc) gss := by
  induction h with
  | nil => exact .nil
  | @cons bi gs L gss hb hL ih =>
    unfold setPrevEnd
    split
    · exact .cons hb hL
    · exact .cons hb ih

theorem discover_is {eof : Nat} {env : E} {prog : List (Section E)} : ∀ (bs : List (Pat E × List (Group E))) (pre : List (Section E))
    (cur : Cursor) (acc : List BlockInfo) (errs : List Failure) (acc' : List BlockInfo) (gss : List (List (Group E))),
    prog = pre ++ bs.map blockSection → List.Forall₂ (BlockIs prog) acc gss →
    discoverLoop eof env (bs.map blockSection) pre.length cur acc errs = .ok (acc', []) →
    List.Forall₂ (BlockIs prog) acc' ((bs.map Prod.snd).reverse ++ gss) := by
  have hnotnil : ∀ (ss : List (Section E)) i cur acc acc' errs f, discoverLoop eof env ss i cur acc (errs ++ [f]) ≠ .ok (acc', []) := by
    intro ss
    induction ss with
    | nil => intro i cur acc acc' errs f h; simp [discoverLoop] at h
    | cons sec ss ih =>
      intro i cur acc acc' errs f h
      cases sec with
      | group g => unfold discoverLoop at h; exact ih _ _ _ _ _ _ h
      | block l bd =>
        unfold discoverLoop at h
        obtain ⟨r, _, h⟩ := bind_ok.1 h
        split at h
        · split at h
          · obtain ⟨nl, _, h⟩ := bind_ok.1 h
            obtain ⟨pl, _, h⟩ := bind_ok.1 h
            obtain ⟨c, _, h⟩ := bind_ok.1 h
            exact ih _ _ _ _ _ _ h
          · exact ih _ _ _ _ _ _ h
        · exact ih _ _ _ _ _ _ h
  intro bs
  induction bs with
  | nil =>
    intro pre cur acc errs acc' gss hp hacc h
    simp [discoverLoop] at h
    rw [← h.1]
    simpa using hacc
  | cons x bs ih =>
    intro pre cur acc errs acc' gss hp hacc h
    rw [List.map_cons, blockSection] at h
    unfold discoverLoop at h
    obtain ⟨r, hr, h⟩ := bind_ok.1 h
    split at h
    · split at h
      · obtain ⟨nl, hnl, h⟩ := bind_ok.1 h
        obtain ⟨pl, hpl, h⟩ := bind_ok.1 h
        obtain ⟨cur', hcur', h⟩ := bind_ok.1 h
        have := ih (pre ++ [blockSection x]) _ _ _ _ (x.2 :: gss) (by rw [hp]; simp) (.cons ?_ (setPrevEnd_is _ hacc))
          (by rw [List.length_append]; exact h)
        · simpa using this
        · refine ⟨rfl, fun s => checkSections_block (p := x.1) ?_ s⟩
          rw [hp]; simp
      · exact absurd h (hnotnil _ _ _ _ _ _ _)
    · exact absurd h (hnotnil _ _ _ _ _ _ _)

theorem discover_groups {eof : Nat} {env : E} (gs : List (Group E)) : ∀ (ss : List (Section E)) (i : Nat) (cur : Cursor)
    (acc : List BlockInfo) (errs : List Failure),
    discoverLoop eof env (gs.map .group ++ ss) i cur acc errs = discoverLoop eof env ss (i + gs.length) cur acc errs := by
  induction gs with
  | nil => intro ss i cur acc errs; rfl
  | cons g gs ih =>
    intro ss i cur acc errs
    rw [List.map_cons, List.cons_append, discoverLoop, ih]
    congr 1
    simp; omega

theorem takeWhile_groups (gs : List (Group E)) (bs : List (Pat E × List (Group E))) :
    ((gs.map Section.group ++ bs.map blockSection).takeWhile (fun s => !s.isBlock)).length = gs.length := by
  induction gs with
  | nil => cases bs <;> simp [blockSection, Section.isBlock]
  | cons g gs ih => simpa [Section.isBlock] using ih

theorem discoverBlocks_is {gs : List (Group E)} {bs : List (Pat E × List (Group E))} {c c' : Ctx E} {L : List BlockInfo}
    (h : discoverBlocks (gs.map .group ++ bs.map blockSection) c = .ok (.ok L, c')) :
    ∃ gss, List.Forall₂ (BlockIs (gs.map .group ++ bs.map blockSection)) L gss ∧ gss.flatten = gs ++ (bs.map Prod.snd).flatten := by
  have htw := takeWhile_groups gs bs
  unfold discoverBlocks at h
  dsimp only at h
  obtain ⟨⟨acc', errs'⟩, h1, h2⟩ := bind_ok.1 h
  obtain ⟨cur', _, h3⟩ := bind_ok.1 h2
  dsimp only at h3
  split at h3
  · rename_i herr
    have herr : errs' = [] := by simpa using herr
    subst herr
    simp only [Except.ok.injEq, Prod.mk.injEq] at h3
    obtain ⟨rfl, _⟩ := h3
    rw [discover_groups] at h1
    have key : ∀ acc gss, List.Forall₂ (BlockIs (gs.map .group ++ bs.map blockSection)) acc gss →
        discoverLoop c.cur.buf.length c.env (bs.map blockSection) (0 + gs.length) c.cur acc [] = .ok (acc', []) →
        List.Forall₂ (BlockIs (gs.map .group ++ bs.map blockSection)) acc' ((bs.map Prod.snd).reverse ++ gss) := by
      intro acc gss hacc hl
      exact discover_is bs (gs.map .group) _ _ _ _ _ rfl hacc (by simpa using hl)
    have hhead : BlockIs (gs.map .group ++ bs.map blockSection) ⟨none, ⟨0, gs.length⟩, some 0, none, c.cur.buf.length⟩ gs :=
      ⟨rfl, fun s => checkSections_head s⟩
    cases gs with
    | cons g gs =>
      have h1 : discoverLoop c.cur.buf.length c.env (bs.map blockSection) (0 + (g :: gs).length) c.cur
          [⟨none, ⟨0, (((g :: gs).map Section.group ++ bs.map blockSection).takeWhile (fun s => !s.isBlock)).length⟩, some 0, none,
            c.cur.buf.length⟩] [] = .ok (acc', []) := h1
      rw [htw] at h1
      have := key _ [g :: gs] (.cons hhead .nil) h1
      exact ⟨_, List.rel_reverse this, by simp⟩
    | nil =>
      cases bs with
      | nil =>
        have := key _ [[]] (.cons hhead .nil) h1
        exact ⟨_, List.rel_reverse this, by simp⟩
      | cons x bs =>
        have := key [] [] .nil h1
        exact ⟨_, List.rel_reverse this, by simp⟩
  · simp at h3

theorem Spec.ProgramOf.labelled {sc : SetCompiler E} {prog : List (Section E)} {bs : List (Line E × List (Line E))}
    (h : ProgramOf sc prog (bs.map (fun x => (some x.1, x.2)))) : ∃ cs : List (Pat E × List (Group E)), prog = cs.map blockSection := by
  induction bs generalizing prog with
  | nil => cases h; exact ⟨[], rfl⟩
  | cons x bs ih =>
    rw [List.map_cons] at h
    cases h with
    | block h1 h2 =>
      obtain ⟨cs, rfl⟩ := ih h2
      exact ⟨(_, _) :: cs, rfl⟩

theorem Spec.ProgramOf.shape {sc : SetCompiler E} {prog : List (Section E)} {imp : Option (Line E)} {lines : List (Line E)}
    (h : ProgramOf sc prog (fileBlocks imp lines)) :
    ∃ (gs : List (Group E)) (cs : List (Pat E × List (Group E))), prog = gs.map .group ++ cs.map blockSection := by
  have hmap : (splitLabels lines).2.map (fun x => (some x.1, imp.toList ++ x.2)) =
      ((splitLabels lines).2.map (fun x => (x.1, imp.toList ++ x.2))).map (fun x => (some x.1, x.2)) := by
    rw [List.map_map]; rfl
  unfold fileBlocks headBlocks at h
  rw [hmap] at h
  split at h
  · rw [List.nil_append] at h
    obtain ⟨cs, rfl⟩ := h.labelled
    exact ⟨[], cs, by simp⟩
  · rw [List.singleton_append] at h
    cases h with
    | groups h1 h2 =>
      obtain ⟨cs, rfl⟩ := h2.labelled
      exact ⟨_, cs, rfl⟩

theorem programGroups_shape (gs : List (Group E)) (cs : List (Pat E × List (Group E))) :
    programGroups (gs.map .group ++ cs.map blockSection) = gs ++ (cs.map Prod.snd).flatten := by
  unfold programGroups
  rw [List.flatMap_append, List.flatMap_map, List.flatMap_map]
  simp only [List.flatMap_singleton']
  congr 1

end Litcheck
