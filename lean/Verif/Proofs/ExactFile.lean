import Verif.Proofs.ExactBlocks
import Verif.Proofs.EndToEnd

/-!
# Check files without `CHECK-DAG`, exactly
-/

namespace Litcheck
open Spec
variable {E : Type}

/-- The end of `discover_blocks`. -/
def finishD (cur : Cursor) (env : E) (x : P (List BlockInfo × List Failure)) : P (Except (List Failure) (List BlockInfo) × Ctx E) := do
  let (acc, errs) ← x
  let cur ← cur.reset
  if errs.isEmpty then .ok (.ok acc.reverse, ⟨cur, env⟩) else .ok (.error errs, ⟨cur, env⟩)

theorem discover_head {gs : List (Group E)} (hgs : gs ≠ []) (bs : List (Pat E × List (Group E))) (cur : Cursor) (env : E) :
    discoverBlocks (gs.map .group ++ bs.map blockSection) ⟨cur, env⟩ =
    finishD cur env (discoverLoop cur.buf.length env (bs.map blockSection) gs.length cur
      [⟨none, ⟨0, gs.length⟩, some 0, none, cur.buf.length⟩] []) := by
  have hskip : ∀ (gs : List (Group E)) (i : Nat) (acc : List BlockInfo),
      discoverLoop cur.buf.length env (gs.map .group ++ bs.map blockSection) i cur acc [] =
      discoverLoop cur.buf.length env (bs.map blockSection) (i + gs.length) cur acc [] := by
    intro gs
    induction gs with
    | nil => intro i acc; rfl
    | cons g gs ih =>
      intro i acc
      rw [List.map_cons, List.cons_append, discoverLoop, ih]
      simp only [List.length_cons]
      congr 1
      omega
  have htw : ((gs.map Section.group ++ bs.map blockSection).takeWhile (fun s => !s.isBlock)).length = gs.length := by
    rw [List.takeWhile_append_of_pos]
    · cases bs with
      | nil => simp
      | cons x xs => simp [List.takeWhile_cons, Section.isBlock]
    · intro a ha
      obtain ⟨g', _, rfl⟩ := List.mem_map.1 ha
      rfl
  cases gs with
  | nil => simp at hgs
  | cons g gs =>
    have := hskip (g :: gs) 0 [⟨none, ⟨0, (g :: gs).length⟩, some 0, none, cur.buf.length⟩]
    rw [Nat.zero_add] at this
    rw [← this, ← htw]
    rfl

theorem discover_noHead (x : Pat E × List (Group E)) (bs : List (Pat E × List (Group E))) (cur : Cursor) (env : E) :
    discoverBlocks ((x :: bs).map blockSection) ⟨cur, env⟩ =
    finishD cur env (discoverLoop cur.buf.length env ((x :: bs).map blockSection) 0 cur [] []) := rfl

theorem finishD_ok {cur c2 : Cursor} (h : cur.reset = .ok c2) {env : E} {acc : List BlockInfo} :
    finishD cur env (.ok (acc, [])) = .ok (.ok acc.reverse, ⟨c2, env⟩) := by
  simp [finishD, h, bind, Except.bind]

theorem finishD_inv {cur : Cursor} {env : E} {x : P (List BlockInfo × List Failure)} {L : List BlockInfo} {c : Ctx E}
    (h : finishD cur env x = .ok (.ok L, c)) :
    ∃ acc c2, x = .ok (acc, []) ∧ L = acc.reverse ∧ cur.reset = .ok c2 ∧ c = ⟨c2, env⟩ := by
  unfold finishD at h
  obtain ⟨⟨acc, errs⟩, h1, h0⟩ := bind_ok.1 h
  obtain ⟨c2, h2, h3⟩ := bind_ok.1 h0
  cases errs with
  | nil =>
    simp at h3
    exact ⟨acc, c2, h1, h3.1.symm, h2, h3.2.symm⟩
  | cons f fs => simp at h3

theorem finishD_err {cur : Cursor} {env : E} {x : P (List BlockInfo × List Failure)} {errs : List Failure} {c : Ctx E}
    (h : finishD cur env x = .ok (.error errs, c)) : errs ≠ [] := by
  unfold finishD at h
  obtain ⟨⟨acc, errs'⟩, h1, h0⟩ := bind_ok.1 h
  obtain ⟨c2, h2, h3⟩ := bind_ok.1 h0
  cases errs' with
  | nil => simp at h3
  | cons f fs =>
    simp at h3
    rw [← h3.1]; simp

/-- What `check_input` does, exactly. -/
theorem checkInput_exact {o : CheckOpts} {clear : E → E} {gs : List (Group E)} {ds : List (Check E)}
    {bs : List (Pat E × List (Group E))} {dbs : List (Check E × List (Check E))} (hgs : BodyDen gs ds)
    (hemp : gs = [] ↔ ds = []) (hbs : List.Forall₂ BlockX bs dbs) (hprog : gs ≠ [] ∨ bs ≠ [])
    (hent : bs ≠ [] → ∀ b : Buf, EnterX b 0 ds)
    {env : E} {b : Buf} (hlf : LFMode b ∨ Lineless (gs.map .group ++ bs.map blockSection)) :
    (∃ tr, checkInput o clear (gs.map .group ++ bs.map blockSection) env b = .ok tr ∧ tr.errors = []) ↔
    (o.allowEmpty = true ∨ b ≠ []) ∧ FilePasses b (enterEnv o clear) env ds dbs := by
  obtain ⟨cur0, hnew, w0, hb0, hs0, hst0⟩ := checkInput_readable o clear env hlf
  obtain ⟨cur1, hreset, hcr, hcb⟩ := Cursor.reset_frame cur0
  have hcr : cur1.crlf = false := by rw [hcr]; exact w0.lf
  have hcb : cur1.buf = b := by rw [hcb, hb0]
  constructor
  · rintro ⟨tr, h, hok⟩
    rw [hnew] at h
    unfold checkInputFrom at h
    rw [hb0] at h
    simp only [bind, Except.bind] at h
    split at h
    · simp at h; rw [← h] at hok; simp [TestResult.fromErrors] at hok
    · rename_i hne0
      refine ⟨by simp at hne0; rcases Classical.em (o.allowEmpty = true) with h | h; exact Or.inl h; right; exact hne0 (by simpa using h), ?_⟩
      cases hd : discoverBlocks (gs.map .group ++ bs.map blockSection) ⟨cur0, env⟩ with
      | error e => rw [hd] at h; simp at h
      | ok x =>
        obtain ⟨d, c⟩ := x
        rw [hd] at h
        simp only at h
        cases d with
        | error errs =>
          simp at h
          exfalso
          rw [← h] at hok
          simp only [TestResult.fromErrors] at hok
          by_cases hg : gs = []
          · subst hg
            cases bs with
            | nil => simp at hprog
            | cons x bs =>
              rw [List.map_nil, List.nil_append, discover_noHead] at hd
              exact finishD_err hd hok
          · rw [discover_head hg] at hd
            exact finishD_err hd hok
        | ok L =>
          simp only at h
          split at h
          · simp at h
          · rename_i s' hcbs
            simp at h
            have herr : s'.res.errors = [] := by rw [h]; exact hok
            by_cases hg : gs = []
            · subst hg
              rw [hemp.1 rfl]
              cases hbs with
              | nil => simp at hprog
              | @cons x y bs dbs hxy hrest =>
                rw [List.map_nil, List.nil_append, discover_noHead] at hd
                obtain ⟨acc, c2, hloop, rfl, hr2, rfl⟩ := finishD_inv hd
                rw [hreset] at hr2
                cases hr2
                rw [hb0] at hloop
                obtain ⟨s, e, env1, hF⟩ := discover_back hxy.label w0 hb0 hst0 hloop
                obtain ⟨info, pe, cur', rfl, rfl, h2, h3, w', hb', hst', heq⟩ :=
                  discover_fwd hxy.label x.2 (bs.map blockSection) 0 w0 hb0 hst0 hF [] []
                have hm : (x :: bs).map blockSection = .block x.1 x.2 :: bs.map blockSection := rfl
                rw [hm, heq, setPrevEnd] at hloop
                obtain ⟨L, hL, hacc⟩ := discover_foundX_back hrest w' hb' hst' (by simp) rfl hloop
                simp only [List.reverse_nil, List.nil_append] at hacc
                rw [hacc] at hcbs
                rw [hs0] at hF
                have hla := FoundX.labelAt hxy hF
                obtain ⟨hl1, hl2⟩ := h3.le (by have := hla.2.1; have := hla.2.2.1; omega)
                refine .noHead hF h3 ?_
                have := foundX_back hL (o := o) (clear := clear) (pre := [blockSection x]) (prog := (x :: bs).map blockSection)
                  rfl rfl rfl rfl hxy.body (fun s => checkSections_block (p := x.1) (by simp) s) hl2
                  (fun _ => Or.inl (LineEnd.enter h3)) hcr hcb hcbs (by simp [herr, TestResult.new])
                exact this
            · rw [discover_head hg] at hd
              obtain ⟨acc, c2, hloop, rfl, hr2, rfl⟩ := finishD_inv hd
              rw [hreset] at hr2
              cases hr2
              rw [hb0] at hloop
              obtain ⟨L, hL, hacc⟩ := discover_foundX_back hbs w0 hb0 hst0 (by simp) rfl hloop
              simp only [List.reverse_nil, List.nil_append] at hacc
              rw [hacc] at hcbs
              rw [hs0] at hL
              refine .head (fun hx => hg (hemp.2 hx)) ?_
              exact foundX_back hL (o := o) (clear := clear) (pre := gs.map .group) rfl (by simp) rfl rfl hgs
                (fun s => checkSections_head s) (Nat.zero_le _) (fun hbn => hent hbn b) hcr hcb hcbs (by simp [herr, TestResult.new])
  · rintro ⟨hne, hpass⟩
    have hguard : (!o.allowEmpty && b.isEmpty) = false := by
      rcases hne with h | h
      · simp [h]
      · cases b with
        | nil => simp at h
        | cons => simp
    have hfin : ∀ (L : List BlockInfo), discoverBlocks (gs.map .group ++ bs.map blockSection) ⟨cur0, env⟩ = .ok (.ok L, ⟨cur1, env⟩) →
        (∃ s', checkBlocks o.enableVarScope clear (gs.map .group ++ bs.map blockSection) L ⟨⟨cur1, env⟩, TestResult.new⟩ = .ok s' ∧
          s'.res.errors = (TestResult.new).errors) →
        ∃ tr, checkInput o clear (gs.map .group ++ bs.map blockSection) env b = .ok tr ∧ tr.errors = [] := by
      rintro L hd ⟨s', hs, he⟩
      refine ⟨s'.res, ?_, by rw [he]; rfl⟩
      rw [hnew]
      unfold checkInputFrom
      simp only [hb0, hguard, bind, Except.bind, hd, hs, Bool.false_eq_true, if_false]
    cases hpass with
    | head hdne hbp =>
      have hg : gs ≠ [] := fun hx => hdne (hemp.1 hx)
      have hlab := hbp.labels
      rw [← hs0] at hlab
      obtain ⟨acc', L, hloop, hL, hacc⟩ := discover_foundX_fwd hbs (i := gs.length) w0 hb0 hst0
        (cb := ⟨none, ⟨0, gs.length⟩, some 0, none, b.length⟩) (by simp) rfl (acc := []) (errs := []) hlab
      simp only [List.reverse_nil, List.nil_append] at hacc
      rw [hs0] at hL
      refine hfin L ?_ ?_
      · rw [discover_head hg, hb0, hloop, finishD_ok hreset, hacc]
      · exact foundX_fwd hL (o := o) (clear := clear) (pre := gs.map .group) rfl (by simp) rfl rfl hgs
          (fun s => checkSections_head s) (Nat.zero_le _) (fun hbn => hent hbn b) (s := ⟨⟨cur1, env⟩, TestResult.new⟩) hcr hcb hbp
    | @noHead l ds rest s e eol env1 hF heol hbp =>
      have hg : gs = [] := hemp.2 rfl
      subst hg
      cases hbs with
      | @cons x y bs dbs hxy hrest =>
        rw [← hs0] at hF
        obtain ⟨info, pe, cur', rfl, rfl, h2, h3, w', hb', hst', heq⟩ :=
          discover_fwd hxy.label x.2 (bs.map blockSection) 0 w0 hb0 hst0 hF [] []
        obtain rfl := heol.unique h3
        rw [setPrevEnd] at heq
        obtain ⟨acc', L, hloop, hL, hacc⟩ := discover_foundX_fwd hrest (i := 0 + 1) w' hb' hst'
          (cb := ⟨some info, ⟨0, 0 + 1⟩, some cur'.start, none, b.length⟩) (by simp) rfl (acc := []) (errs := []) hbp.labels
        simp only [List.reverse_nil, List.nil_append] at hacc
        rw [hs0] at hF
        have hla := FoundX.labelAt hxy hF
        obtain ⟨hl1, hl2⟩ := h3.le (by have := hla.2.1; have := hla.2.2.1; omega)
        have hm : (x :: bs).map blockSection = .block x.1 x.2 :: bs.map blockSection := rfl
        refine hfin L ?_ ?_
        · rw [List.map_nil, List.nil_append, discover_noHead, hb0, hm, heq, hloop, finishD_ok hreset, hacc]
        · exact foundX_fwd hL (o := o) (clear := clear) (pre := [blockSection x]) rfl rfl rfl rfl hxy.body
            (fun s => checkSections_block (p := x.1) (by simp) s) hl2 (fun _ => Or.inl (LineEnd.enter h3))
            (s := ⟨⟨cur1, env⟩, TestResult.new⟩) hcr hcb hbp

section
variable {sc : SetCompiler E} {first : Line E → Finder E} {mean : Line E → Meaning E} {good : List (Line E) → Prop}

theorem compileBlocks_exact (hc : Exactly sc first mean good) (bs : List (Line E × List (Line E))) {prog : List (Section E)}
    (hlab : ∀ x ∈ bs, x.1.pat.LabelExact (first x.1)) (hgood : ∀ x ∈ bs, good x.2)
    (hbody : ∀ x ∈ bs, ∀ l ∈ x.2, l.kind ≠ .label ∧ l.kind ≠ .count 0 ∧ l.kind ≠ .dag)
    (h : compileBlocks sc (bs.map (fun x => (some x.1, x.2))) = .ok (.ok prog)) :
    ∃ cs, prog = cs.map blockSection ∧
      List.Forall₂ BlockX cs (bs.map (fun x => (x.1.check first mean, x.2.map (Line.check first mean)))) := by
  induction bs generalizing prog with
  | nil => simp [compileBlocks] at h; exact ⟨[], by simp [h], .nil⟩
  | cons x bs ih =>
    rw [List.map_cons, compileBlocks] at h
    obtain ⟨r, hr, h1⟩ := bind_ok.1 h
    split at h1
    · simp at h1
    · simp at h1
    · rename_i gs
      obtain ⟨rest, hrest, h2⟩ := bind_ok.1 h1
      split at h2
      · simp at h2
      · rename_i rest'
        simp only [Except.ok.injEq] at h2
        obtain ⟨cs, hcs, hden⟩ := ih (fun x hx => hlab x (by simp [hx])) (fun x hx => hgood x (by simp [hx])) (fun x hx => hbody x (by simp [hx])) hrest
        have hb := compileBody_exact hc _ _ _ _ [] _ (hgood x (by simp)) (fun l hl => (hbody x (by simp) l hl).1)
          (fun l hl => (hbody x (by simp) l hl).2.1) (fun l hl => (hbody x (by simp) l hl).2.2) (show PendGs [] none [] from GsDen.nil) hr
        simp only [List.nil_append] at hb
        refine ⟨(x.1.pat, gs) :: cs, by rw [← h2, hcs]; rfl, ?_⟩
        exact .cons ⟨hlab x (by simp), hb⟩ hden

/-- Checking a compiled check file, exactly. -/
theorem compile_check_exact (hc : Exactly sc first mean good)
    {imp : Option (Line E)} (himp : ∀ l ∈ imp, l.kind = .not) {lines : List (Line E)}
    (hgh : good (headLines imp lines)) (hgb : ∀ x ∈ (splitLabels lines).2, good (imp.toList ++ x.2))
    (hcz : ∀ l ∈ lines, l.kind ≠ .count 0) (hdag : ∀ l ∈ lines, l.kind ≠ .dag)
    (hlab : ∀ l ∈ lines, l.kind = .label → l.pat.LabelExact (first l))
    (hne : (splitLabels lines).2 ≠ [] → ∀ l ∈ headLines imp lines, l.kind ≠ .empty → l.kind ≠ .not → Solid (first l))
    {prog : List (Section E)} (hcomp : compile sc imp lines = .ok (.ok prog))
    {o : CheckOpts} {clear : E → E} {env : E} {b : Buf} (hlf : LFMode b ∨ Lineless prog) :
    (∃ tr, checkInput o clear prog env b = .ok tr ∧ tr.errors = []) ↔
    (o.allowEmpty = true ∨ b ≠ []) ∧
    FilePasses b (enterEnv o clear) env ((headLines imp lines).map (Line.check first mean))
      ((splitLabels lines).2.map (fun x => (x.1.check first mean, (imp.toList ++ x.2).map (Line.check first mean)))) := by
  unfold compile at hcomp
  split at hcomp
  · simp at hcomp
  · rename_i hnonempty
    split at hcomp
    · simp at hcomp
    · rename_i blocks hbl
      have hblocks := compileLines_eq hbl
      have hheadk : ∀ l ∈ headLines imp lines, l.kind ≠ .label ∧ l.kind ≠ .count 0 ∧ l.kind ≠ .dag := by
        intro l hl
        unfold headLines at hl
        have himp' : l ∈ imp.toList → l.kind ≠ .label ∧ l.kind ≠ .count 0 ∧ l.kind ≠ .dag := by
          intro hl
          rw [himp l (by cases imp <;> simp_all)]; simp
        rcases List.mem_append.1 hl with hl | hl
        · exact himp' hl
        · obtain ⟨x, hx, hlx⟩ := List.mem_flatMap.1 hl
          have hxm := (splitLabels_mem (l := x)).1 hx
          unfold withImplicit at hlx
          split at hlx
          · simp at hlx; subst hlx; exact ⟨hxm.2, hcz _ hxm.1, hdag _ hxm.1⟩
          · rcases List.mem_cons.1 hlx with rfl | hlx
            · exact ⟨hxm.2, hcz _ hxm.1, hdag _ hxm.1⟩
            · exact himp' hlx
      have hbodyk : ∀ x ∈ (splitLabels lines).2.map (fun x => (x.1, imp.toList ++ x.2)), ∀ l ∈ x.2,
          l.kind ≠ .label ∧ l.kind ≠ .count 0 ∧ l.kind ≠ .dag := by
        intro x hx l hl
        obtain ⟨y, hy, rfl⟩ := List.mem_map.1 hx
        have := (splitLabels_mem (l := y.1)).2 y hy
        rcases List.mem_append.1 hl with hl | hl
        · rw [himp l (by cases imp <;> simp_all)]; simp
        · exact ⟨(this.2 l hl).2, hcz l (this.2 l hl).1, hdag l (this.2 l hl).1⟩
      have hlabk : ∀ x ∈ (splitLabels lines).2.map (fun x => (x.1, imp.toList ++ x.2)), x.1.pat.LabelExact (first x.1) := by
        intro x hx
        obtain ⟨y, hy, rfl⟩ := List.mem_map.1 hx
        have := (splitLabels_mem (l := y.1)).2 y hy
        exact hlab _ this.1.1 this.1.2
      have hmap : (splitLabels lines).2.map (fun x => (some x.1, imp.toList ++ x.2)) =
          ((splitLabels lines).2.map (fun x => (x.1, imp.toList ++ x.2))).map (fun x => (some x.1, x.2)) := by
        rw [List.map_map]; rfl
      have hmap2 : (splitLabels lines).2.map (fun x => (x.1.check first mean, (imp.toList ++ x.2).map (Line.check first mean))) =
          ((splitLabels lines).2.map (fun x => (x.1, imp.toList ++ x.2))).map
            (fun x => (x.1.check first mean, x.2.map (Line.check first mean))) := by
        rw [List.map_map]; rfl
      rw [hmap2]
      have hgb' : ∀ x ∈ (splitLabels lines).2.map (fun x => (x.1, imp.toList ++ x.2)), good x.2 := by
        intro x hx
        obtain ⟨y, hy, rfl⟩ := List.mem_map.1 hx
        exact hgb y hy
      -- the head groups and the labelled blocks of the program
      have hstruct : ∃ gs cs, prog = gs.map .group ++ cs.map blockSection ∧
          BodyDen gs ((headLines imp lines).map (Line.check first mean)) ∧
          List.Forall₂ BlockX cs (((splitLabels lines).2.map (fun x => (x.1, imp.toList ++ x.2))).map
            (fun x => (x.1.check first mean, x.2.map (Line.check first mean)))) := by
        rw [hblocks, hmap] at hcomp
        by_cases hh : headLines imp lines = []
        · rw [hh] at hcomp
          simp only [headBlocks, List.isEmpty_nil, if_true, List.nil_append] at hcomp
          obtain ⟨cs, h1, h2⟩ := compileBlocks_exact hc _ hlabk hgb' hbodyk hcomp
          exact ⟨[], cs, by simp [h1], by rw [hh]; exact .nil, h2⟩
        · have hhb : headBlocks (headLines imp lines) = [(none, headLines imp lines)] := by
            unfold headBlocks
            rw [if_neg (by simpa using hh)]
          rw [hhb, List.singleton_append, compileBlocks] at hcomp
          obtain ⟨r, hr, h1⟩ := bind_ok.1 hcomp
          split at h1
          · simp at h1
          · simp at h1
          · rename_i gs
            obtain ⟨rest, hrest, h2⟩ := bind_ok.1 h1
            split at h2
            · simp at h2
            · rename_i rest'
              simp only [Except.ok.injEq] at h2
              obtain ⟨cs, h3, h4⟩ := compileBlocks_exact hc _ hlabk hgb' hbodyk hrest
              have hb := compileBody_exact hc _ _ _ _ [] _ hgh (fun l hl => (hheadk l hl).1)
                (fun l hl => (hheadk l hl).2.1) (fun l hl => (hheadk l hl).2.2) (show PendGs [] none [] from GsDen.nil) hr
              simp only [List.nil_append] at hb
              exact ⟨gs, cs, by rw [← h2, h3], hb, h4⟩
      obtain ⟨gs, cs, hprog, hgs, hcs⟩ := hstruct
      subst hprog
      have hlen : cs = [] ↔ (splitLabels lines).2 = [] := by
        have := hcs.length_eq
        simp only [List.length_map] at this
        rw [← List.length_eq_zero_iff, this, List.length_eq_zero_iff]
      have hemp : gs = [] ↔ (headLines imp lines).map (Line.check first mean) = [] := by
        constructor
        · rintro rfl; generalize hq : (headLines imp lines).map (Line.check first mean) = q at hgs; cases hgs; rfl
        · intro hx
          rw [hx] at hgs
          generalize hq : ([] : List (Check E)) = q at hgs
          cases hgs with
          | nil => rfl
          | cons hg _ =>
            obtain ⟨d, hd, _⟩ := GDen.positive _ hg
            have : d ∈ ([] : List (Check E)) := by rw [hq]; simp [hd]
            simp at this
          | never _ hnn _ => exact absurd hq.symm hnn
          | before _ _ ht =>
            obtain ⟨d, hd, _⟩ := TDen.positive _ ht
            have : d ∈ ([] : List (Check E)) := by rw [hq]; simp [hd]
            simp at this
      refine checkInput_exact hgs hemp hcs ?_ ?_ hlf
      · by_contra hcon
        simp only [not_or, not_not] at hcon
        obtain ⟨hg, hcn⟩ := hcon
        have h2 := hlen.1 hcn
        have hh : headLines imp lines = [] := by simpa using hemp.1 hg
        unfold headLines at hh
        have hi : imp = none := by
          cases imp with
          | none => rfl
          | some x => simp at hh
        subst hi
        have hs1 : (splitLabels lines).1 = [] := by
          cases hs : (splitLabels lines).1 with
          | nil => rfl
          | cons a as =>
            rw [hs] at hh
            simp only [Option.toList_none, List.nil_append, List.flatMap_cons, List.append_eq_nil_iff] at hh
            unfold withImplicit at hh
            split at hh <;> simp at hh
        have : lines = [] := by
          cases lines with
          | nil => rfl
          | cons a as =>
            unfold splitLabels at hs1 h2
            split at hs1
            · rename_i hk; simp [hk] at h2
            · simp at hs1
        simp [this] at hnonempty
      · intro hcn b
        right
        refine ⟨rfl, ⟨?_, ?_⟩, ?_, ?_⟩
        · have := (headLines_relative himp hbl).firstAbsolute (mean := fun l => (Spec.Check.dir (l.check first mean)).mean)
            (fun l hl => (hheadk l hl).1)
          rw [List.map_map]
          exact this
        · intro d hd k1 k2
          obtain ⟨l, hl, rfl⟩ := List.mem_map.1 hd
          exact hne (fun hx => hcn (hlen.2 hx)) l hl k1 k2
        · intro d hd
          obtain ⟨l, hl, rfl⟩ := List.mem_map.1 hd
          exact (hheadk l hl).2.1
        · intro d hd k1 k2
          obtain ⟨l, hl, rfl⟩ := List.mem_map.1 hd
          exact ⟨l.pat, hc.pat l (hc.mem hgh hl) k1 k2⟩

end

end Litcheck
