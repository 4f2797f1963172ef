import Verif.Proofs.TameProgram
import Verif.Props.Checks

/-!
# Checking an input ends without a panic
-/

namespace Litcheck
open Spec
variable {E : Type}

/-- Every text is a match: what is asked of a label which only has to be found on one line. -/
def anyMeaning : Meaning E := fun _ _ _ _ _ => True

/-- The label is found on one line, and is not empty. -/
abbrev Pat.OneLine (p : Pat E) : Prop := p.LabelSound anyMeaning

theorem Pat.LabelSound.oneLine {p : Pat E} {μ : Meaning E} (h : p.LabelSound μ) : p.OneLine := by
  intro b r env m i h1 h2
  obtain ⟨k1, k2, k3, k4, _⟩ := h b r env m i h1 h2
  exact ⟨k1, k2, k3, k4, env, trivial⟩

theorem Cursor.setBounds_fine {c : Cursor} (hlf : c.crlf = false) {nx sm : Bool} {s e : Nat} (h1 : s ≤ e) (h2 : e ≤ c.buf.length)
    (h3 : nx = true → e = c.buf.length) (h4 : sm = true → e = c.buf.length ∨ IsLF c.buf e) :
    ∃ c', c.setBounds ⟨s, e⟩ = .ok c' ∧ c'.Fine nx sm ∧ c'.buf = c.buf := by
  obtain ⟨r, hr, hnl⟩ := Cursor.nextNewlineFrom_ok (c := { c with start := s, stop := e }) hlf (s := s) (by simp; omega)
  refine ⟨{ c with start := s, stop := e, eol := r.getD c.buf.length }, ?_, ⟨hlf, h1, h2, h3, ?_⟩, rfl⟩
  · simp [Cursor.setBounds, bounded_ok h1 h2, hr, bind, Except.bind]
  · intro hsm
    simp only at hnl ⊢
    rcases hnl with ⟨n, rfl, hn1, hn2, hn3, hn4⟩ | ⟨rfl, hno⟩
    · refine ⟨hn1, ?_⟩
      rcases h4 hsm with h5 | h5
      · simp only [Option.getD_some]; omega
      · by_contra hc
        exact hn4 e h1 (by simpa using hc) h5
    · simp only [Option.getD_none]
      rcases h4 hsm with h5 | h5
      · omega
      · exact absurd h5 (hno e h1 h5.lt)

/-- The blocks found by `discover_blocks`, in order, of which nothing is known but their bounds. -/
inductive Opened (b : Buf) (env : E) : BlockInfo → Nat → Nat → List (Pat E × List (Group E)) → List BlockInfo → Prop
  | nil {cb i lo} : cb.stop = none → Opened b env cb i lo [] [cb]
  | cons {cb i lo p gs bs info prevEnd eol L} : LabelAt (anyMeaning (E := E)) env b lo info.start info.stop →
      PrevLineEnd b info.start prevEnd → LineEnd b info.start eol →
      Opened b env ⟨some info, ⟨i, i + 1⟩, some eol, none, b.length⟩ (i + 1) eol bs L →
      Opened b env cb i lo ((p, gs) :: bs) ({ cb with stop := some prevEnd } :: L)

theorem discover_opened {b : Buf} {env : E} : ∀ {bs : List (Pat E × List (Group E))}, (∀ x ∈ bs, x.1.OneLine) → ∀ {i : Nat} {cur : Cursor},
    cur.WF → cur.buf = b → cur.stop = b.length → ∀ {cb : BlockInfo}, cb.start.isSome → cb.stop = none → ∀ {acc acc' : List BlockInfo} {errs : List Failure},
    discoverLoop b.length env (bs.map blockSection) i cur (cb :: acc) errs = .ok (acc', []) →
    ∃ L, Opened b env cb i cur.start bs L ∧ acc'.reverse = acc.reverse ++ L
  | [], _, i, cur, w, hb, hst, cb, hcb, hcs, acc, acc', errs, h => by
    simp [discoverLoop] at h
    exact ⟨[cb], .nil hcs, by rw [← h.1]; simp⟩
  | x :: bs, hl, i, cur, w, hb, hst, cb, hcb, hcs, acc, acc', errs, h => by
    obtain ⟨info, pe, cur', h1, h2, h3, w', hb', hst', h⟩ := discover_step (hl x (by simp)) w hb hst h
    rw [setPrevEnd, if_pos hcb] at h
    obtain ⟨L, hL, hacc⟩ := discover_opened (fun y hy => hl y (by simp [hy])) w' hb' hst' (by simp) rfl h
    exact ⟨{ cb with stop := some pe } :: L, Opened.cons h1 h2 h3 hL, by rw [hacc]; simp⟩

theorem checkBlock_tame {o : CheckOpts} {clear : E → E} {prog : List (Section E)} {bi : BlockInfo} {gs : List (Group E)} {nx sm : Bool}
    (hgs : ∀ s : St E, checkSections prog bi.sections s = checkGroups gs s) (hg : ∀ g ∈ gs, g.Harmless nx sm) {lo hi : Nat}
    (h1 : bi.start = some lo) (h2 : bi.stop.getD bi.eof = hi) (hle : lo ≤ hi) {s : St E} (hlf : s.ctx.cur.crlf = false)
    (hhi : hi ≤ s.ctx.cur.buf.length) (h3 : nx = true → hi = s.ctx.cur.buf.length)
    (h4 : sm = true → hi = s.ctx.cur.buf.length ∨ IsLF s.ctx.cur.buf hi) :
    ∃ s', checkBlock o.enableVarScope clear prog bi s = .ok s' ∧ s'.ctx.cur.crlf = false ∧ s'.ctx.cur.buf = s.ctx.cur.buf := by
  obtain ⟨c, hc, hf, hb⟩ := Cursor.setBounds_fine hlf hle hhi h3 h4
  have hkey : ∀ s0 : St E, s0.ctx = s.ctx →
      ∃ s', (if bi.start.isNone = true then Except.ok s0 else do
        let r ← bi.range
        let cur ← s0.ctx.cur.setBounds r
        checkSections prog bi.sections { s0 with ctx := ⟨cur, if o.enableVarScope then clear s0.ctx.env else s0.ctx.env⟩ })
        = .ok s' ∧ s'.ctx.cur.crlf = false ∧ s'.ctx.cur.buf = s.ctx.cur.buf := by
    intro s0 hs0
    have hr : bi.range = .ok ⟨lo, hi⟩ := by
      unfold BlockInfo.range Rng.new
      rw [h1, h2]
      simp [hle]
    obtain ⟨s', hs', hm⟩ := checkGroups_tame (s := { s0 with ctx := ⟨c, if o.enableVarScope then clear s0.ctx.env else s0.ctx.env⟩ }) hg hf
    refine ⟨s', ?_, hm.fine.lf, ?_⟩
    · rw [h1]
      simp only [Option.isNone_some, Bool.false_eq_true, if_false, hr, bind, Except.bind, hs0, hc, hgs]
      rw [hs0] at hs'
      exact hs'
    · rw [hm.buf]; exact hb
  unfold checkBlock
  cases hl : bi.label with
  | none => exact hkey s rfl
  | some info => exact hkey { s with res := s.res.addMatched info } rfl

theorem opened_blocks {o : CheckOpts} {clear : E → E} {b : Buf} {env0 : E} {cb : BlockInfo} {i lo : Nat}
    {bs : List (Pat E × List (Group E))} {L : List BlockInfo} (hF : Opened b env0 cb i lo bs L) {prog pre : List (Section E)}
    (hprog : prog = pre ++ bs.map blockSection) (hpre : pre.length = i) (hcb : cb.start = some lo) (heof : cb.eof = b.length)
    {gs : List (Group E)} {nx sm : Bool} (hgs : ∀ g ∈ gs, g.Harmless nx sm) (hnx : nx = true → bs = [])
    (hsm : sm = true → bs = [] ∨ lo = b.length ∨ IsLF b lo)
    (hbs : ∀ pre x post, bs = pre ++ x :: post → ∀ g ∈ x.2, g.Harmless post.isEmpty true)
    (hsec : ∀ s : St E, checkSections prog cb.sections s = checkGroups gs s) (hlo : lo ≤ b.length)
    (hent : lo = 0 ∨ lo = b.length ∨ IsLF b lo) {s : St E} (hlf : s.ctx.cur.crlf = false) (hb : s.ctx.cur.buf = b) :
    ∃ s', checkBlocks o.enableVarScope clear prog L s = .ok s' := by
  induction hF generalizing pre gs nx sm s with
  | nil hstop =>
    obtain ⟨s', h1, _⟩ := checkBlock_tame (o := o) (clear := clear) hsec hgs hcb rfl (s := s)
      (by rw [hstop, heof]; exact hlo) hlf (by rw [hstop, heof, hb]; exact Nat.le_refl _)
      (by rw [hstop, heof, hb]; exact fun _ => rfl) (by rw [hstop, heof, hb]; exact fun _ => .inl rfl)
    exact ⟨s', by simp only [checkBlocks, h1, bind, Except.bind]⟩
  | @cons cb i lo p gs1 bs info pe eol L hlab hpe heol hF ih =>
    have hsl := hlab.2.1
    have hel := hlab.2.2.1
    have hpel := hpe.le (by omega)
    obtain ⟨hl1, hl2⟩ := heol.le (by omega)
    have hle : lo ≤ pe := by
      rcases hent with rfl | hent
      · exact Nat.zero_le _
      · exact (next_label_after hlab hent hpe).2
    obtain ⟨s1, h1, k1, k2⟩ := checkBlock_tame (o := o) (clear := clear) (bi := { cb with stop := some pe }) hsec hgs hcb rfl (s := s)
      hle hlf (by rw [hb]; exact hpel) (fun h => absurd (hnx h) (by simp))
      (by
        intro h
        rcases hsm h with h | h
        · simp at h
        · rw [hb]; exact .inr (next_label_after hlab h hpe).1.2.1)
    have heol' : eol = b.length ∨ IsLF b eol := by
      rcases heol with ⟨_, hh, _⟩ | ⟨_, hh⟩
      · exact Or.inr hh
      · exact Or.inl hh
    obtain ⟨s2, h2⟩ := ih (pre := pre ++ [blockSection (p, gs1)]) (by rw [hprog]; simp) (by simp [hpre]) rfl rfl (nx := bs.isEmpty) (sm := true)
      (hbs [] (p, gs1) bs rfl) (by simp) (fun _ => .inr heol')
      (by
        intro pre' x post he
        exact hbs ((p, gs1) :: pre') x post (by rw [he]; rfl))
      (by
        intro s
        refine checkSections_block (p := p) ?_ s
        rw [hprog, ← hpre]
        simp) hl2 (.inr heol') k1 (by rw [k2, hb])
    exact ⟨s2, by simp only [checkBlocks, h1, h2, bind, Except.bind]⟩

theorem labelsOf_blocks (gs : List (Group E)) (bs : List (Pat E × List (Group E))) :
    labelsOf (gs.map Section.group ++ bs.map blockSection) = bs.map Prod.fst := by
  rw [labelsOf_groups]
  induction bs with
  | nil => rfl
  | cons x bs ih => simp [labelsOf, ih]

theorem discover_skip {b : Buf} {env : E} (bs : List (Section E)) (cur : Cursor) (errs : List Failure) : ∀ (gs : List (Group E)) (i : Nat) (acc : List BlockInfo),
    discoverLoop b.length env (gs.map .group ++ bs) i cur acc errs = discoverLoop b.length env bs (i + gs.length) cur acc errs
  | [], i, acc => rfl
  | g :: gs, i, acc => by
    rw [List.map_cons, List.cons_append, discoverLoop, discover_skip bs cur errs gs]
    simp only [List.length_cons]
    congr 1
    omega

/-- The block before the first label, with which `discover_blocks` starts. -/
def implicitBlock (prog : List (Section E)) (eof : Nat) : List BlockInfo :=
  match prog with
  | .block _ _ :: _ => []
  | _ => [⟨none, ⟨0, (prog.takeWhile (fun s => !s.isBlock)).length⟩, some 0, none, eof⟩]

theorem discoverBlocks_eq (prog : List (Section E)) (c : Ctx E) : discoverBlocks prog c =
    ((discoverLoop c.cur.buf.length c.env prog 0 c.cur (implicitBlock prog c.cur.buf.length) []).bind fun x =>
      c.cur.reset.bind fun cur =>
        if x.2.isEmpty then .ok (.ok x.1.reverse, { c with cur := cur }) else .ok (.error x.2, { c with cur := cur })) := rfl

/-- `check_input` does not panic. -/
theorem checkInput_tame {o : CheckOpts} {clear : E → E} {gs : List (Group E)} {bs : List (Pat E × List (Group E))}
    (hgs : ∀ g ∈ gs, g.Harmless bs.isEmpty bs.isEmpty) (hl : ∀ x ∈ bs, x.1.OneLine)
    (hbs : ∀ pre x post, bs = pre ++ x :: post → ∀ g ∈ x.2, g.Harmless post.isEmpty true) (env : E) {b : Buf}
    (hlf : LFMode b ∨ Lineless (gs.map .group ++ bs.map blockSection)) :
    ∃ tr, checkInput o clear (gs.map .group ++ bs.map blockSection) env b = .ok tr := by
  obtain ⟨c, hnew, w, hb, hs, hst⟩ := checkInput_readable o clear env hlf
  rw [hnew]
  unfold checkInputFrom
  rw [hb]
  simp only [bind, Except.bind]
  split
  · exact ⟨_, rfl⟩
  · generalize hprog : gs.map Section.group ++ bs.map blockSection = prog
    have hls : List.Forall₂ Pat.LabelSound (labelsOf prog) (bs.map fun _ => anyMeaning) := by
      rw [← hprog, labelsOf_blocks]
      clear hprog hbs hgs hnew hlf
      induction bs with
      | nil => exact .nil
      | cons x bs ih => exact .cons (hl x (by simp)) (ih fun y hy => hl y (by simp [hy]))
    obtain ⟨c', hr, k1, k2⟩ := Cursor.reset_frame c
    have key : ∀ acc0, ∃ x, discoverLoop b.length env prog 0 c acc0 [] = .ok x := by
      intro acc0
      obtain ⟨acc', errs', h1, _⟩ := discover_total (b := b) (env := env) prog _ 0 c acc0 [] hls w hb hst
      exact ⟨_, h1⟩
    have hdisc : ∃ d, discoverBlocks prog ⟨c, env⟩ = .ok (d, ⟨c', env⟩) ∧ ∀ L, d = .ok L →
        ∃ s', checkBlocks o.enableVarScope clear prog L ⟨⟨c', env⟩, TestResult.new⟩ = .ok s' := by
      rw [discoverBlocks_eq]
      dsimp only
      rw [hb]
      generalize himp : implicitBlock prog b.length = acc0
      obtain ⟨⟨acc, errs⟩, hx⟩ := key acc0
      simp only [hx, Except.bind, hr]
      by_cases he : errs.isEmpty = true
      · rw [if_pos he]
        refine ⟨_, rfl, ?_⟩
        intro L hL
        simp only [Except.ok.injEq] at hL
        have he : errs = [] := by simpa using he
        subst he
        have hlf' : c'.crlf = false := by rw [k1]; exact w.lf
        have hbc : c'.buf = b := by rw [k2, hb]
        by_cases hempty : gs = [] ∧ bs ≠ []
        · obtain ⟨rfl, hne⟩ := hempty
          cases bs with
          | nil => exact absurd rfl hne
          | cons x bs =>
            simp only [List.map_nil, List.nil_append, List.map_cons] at hprog
            subst hprog
            simp only [implicitBlock] at himp
            subst himp
            obtain ⟨info, pe, c3, h1, h2, h3, w3, hb3, hst3, hloop⟩ := discover_step (hl x (by simp)) w hb hst hx
            rw [setPrevEnd] at hloop
            obtain ⟨L', hO, hacc⟩ := discover_opened (fun y hy => hl y (by simp [hy])) w3 hb3 hst3 (by simp) rfl hloop
            simp only [List.reverse_nil, List.nil_append] at hacc
            have heol' : c3.start = b.length ∨ IsLF b c3.start := by
              rcases h3 with ⟨_, hh, _⟩ | ⟨_, hh⟩
              · exact Or.inr hh
              · exact Or.inl hh
            have hll : info.start ≤ b.length := by have := h1.2.1; have := h1.2.2.1; omega
            rw [← hL, hacc]
            exact opened_blocks hO (pre := [blockSection x]) rfl rfl rfl rfl (hbs [] x bs rfl) (by simp) (fun _ => .inr heol')
              (fun pre y post he => hbs (x :: pre) y post (by rw [he]; rfl))
              (fun s => checkSections_block (p := x.1) (by simp) s) (h3.le hll).2 (.inr heol') hlf' hbc
        · have htw : (prog.takeWhile (fun s => !s.isBlock)).length = gs.length := by
            rw [← hprog, List.takeWhile_append_of_pos]
            · cases bs with
              | nil => simp
              | cons x xs => simp [List.takeWhile_cons, Section.isBlock]
            · intro a ha
              obtain ⟨g', _, rfl⟩ := List.mem_map.1 ha
              rfl
          have hacc0 : acc0 = [⟨none, ⟨0, gs.length⟩, some 0, none, b.length⟩] := by
            rw [← himp, ← htw]
            clear hx himp htw
            cases gs with
            | nil =>
              have : bs = [] := by
                by_contra h
                exact hempty ⟨rfl, h⟩
              subst this
              subst hprog
              rfl
            | cons g gs =>
              subst hprog
              rfl
          subst hacc0
          rw [← hprog, discover_skip, Nat.zero_add] at hx
          obtain ⟨L', hO, hacc⟩ := discover_opened hl w hb hst (by simp) rfl hx
          simp only [List.reverse_nil, List.nil_append] at hacc
          rw [hs] at hO
          rw [← hL, hacc]
          refine opened_blocks hO (pre := gs.map .group) hprog.symm (by simp) rfl rfl hgs (by simp) ?_ hbs ?_ (Nat.zero_le _) (.inl rfl) hlf' hbc
          · intro h
            exact .inl (by simpa using h)
          · intro s
            rw [← hprog]
            exact checkSections_head s
      · rw [if_neg he]
        exact ⟨_, rfl, by simp⟩
    obtain ⟨d, hd, hd2⟩ := hdisc
    simp only [hd]
    cases d with
    | error errs => exact ⟨_, rfl⟩
    | ok L =>
      obtain ⟨s', hs'⟩ := hd2 L rfl
      simp only [hs']
      exact ⟨_, rfl⟩

end Litcheck
