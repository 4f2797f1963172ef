import Verif.Proofs.Lineless
import Verif.Proofs.FirstLeaf
import Verif.Spec.Labels

/-!
# Labels: discovering blocks and checking them
-/

namespace Litcheck
open Spec
variable {E : Type}

/-- A label matcher is sound: whenever it reports a location, the label is there (on one line, and not
empty). -/
def Pat.LabelSound (p : Pat E) (μ : Meaning E) : Prop :=
  ∀ b r env m i, (p.run b r env).1 = some m → m.info = some i →
    r.start ≤ i.start ∧ i.start < i.stop ∧ i.stop ≤ r.stop ∧ NoLF b i.start i.stop ∧
    ∃ env', μ env b i.start i.stop env'

theorem lineEnd_of_nextNL {b : Buf} {s : Nat} {r : Option Nat} (h : Cursor.NextNL b s b.length r) :
    LineEnd b s (r.getD b.length) := by
  rcases h with ⟨n, rfl, h1, h2, h3, h4⟩ | ⟨rfl, h⟩
  · exact Or.inl ⟨h1, h3, h4⟩
  · exact Or.inr ⟨h, rfl⟩

theorem prevLineEnd_of_prevNL {b : Buf} {s : Nat} {r : Option Nat} (h : Cursor.PrevNL b s r) :
    PrevLineEnd b s (r.getD 0) := by
  rcases h with ⟨n, rfl, h1, h2, h3⟩ | ⟨rfl, h⟩
  · exact Or.inl ⟨h1, h2, h3⟩
  · exact Or.inr ⟨h, rfl⟩

theorem Spec.LineEnd.le {b : Buf} {s e : Nat} (h : LineEnd b s e) (hs : s ≤ b.length) : s ≤ e ∧ e ≤ b.length := by
  rcases h with ⟨h1, h2, _⟩ | ⟨_, rfl⟩
  · exact ⟨h1, Nat.le_of_lt h2.lt⟩
  · exact ⟨hs, Nat.le_refl _⟩

/-- One iteration of `discover_blocks` on a label which is found. -/
theorem discover_step {b : Buf} {env : E} {label : Pat E} {μ : Meaning E} (hl : label.LabelSound μ) {body : List (Group E)}
    {ss : List (Section E)} {i : Nat} {cur : Cursor} (w : cur.WF) (hb : cur.buf = b) (hst : cur.stop = b.length)
    {acc acc' : List BlockInfo} {errs : List Failure}
    (h : discoverLoop b.length env (.block label body :: ss) i cur acc errs = .ok (acc', [])) :
    ∃ info prevEnd cur', LabelAt μ env b cur.start info.start info.stop ∧ PrevLineEnd b info.start prevEnd ∧
      LineEnd b info.start cur'.start ∧ cur'.WF ∧ cur'.buf = b ∧ cur'.stop = b.length ∧
      discoverLoop b.length env ss (i + 1) cur'
        (⟨some info, ⟨i, i + 1⟩, some cur'.start, none, b.length⟩ :: setPrevEnd prevEnd acc) errs = .ok (acc', []) := by
  unfold discoverLoop at h
  obtain ⟨r, hr, h⟩ := bind_ok.1 h
  have hrr := bounded_from_inv hr
  obtain ⟨rfl, _⟩ := hrr
  have hnotnil : ∀ (ss : List (Section E)) i cur acc errs f, discoverLoop b.length env ss i cur acc (errs ++ [f]) ≠ .ok (acc', []) := by
    intro ss
    induction ss with
    | nil => intro i cur acc errs f h; simp [discoverLoop] at h
    | cons sec ss ih =>
      intro i cur acc errs f h
      cases sec with
      | group g => unfold discoverLoop at h; exact ih _ _ _ _ _ h
      | block l bd =>
        unfold discoverLoop at h
        obtain ⟨r, _, h⟩ := bind_ok.1 h
        split at h
        · split at h
          · obtain ⟨nl, _, h⟩ := bind_ok.1 h
            obtain ⟨pl, _, h⟩ := bind_ok.1 h
            obtain ⟨c, _, h⟩ := bind_ok.1 h
            exact ih _ _ _ _ _ h
          · exact ih _ _ _ _ _ h
        · exact ih _ _ _ _ _ h
  split at h
  · rename_i m hm
    split at h
    · rename_i info hinfo
      obtain ⟨nl, hnl, h⟩ := bind_ok.1 h
      obtain ⟨pl, hpl, h⟩ := bind_ok.1 h
      obtain ⟨cur', hcur', h⟩ := bind_ok.1 h
      obtain ⟨k1, k2, k3, k4, k5⟩ := hl _ _ _ _ _ hm hinfo
      simp only [hb] at k1 k3 k4 k5
      have hnl' := (Cursor.nextNewlineFrom_inv w.lf hnl).2
      have hpl' := (Cursor.prevNewlineFrom_inv w.lf hpl).2
      rw [hb] at hnl' hpl'
      have hle := lineEnd_of_nextNL hnl'
      obtain ⟨hl1, hl2⟩ := hle.le (by omega)
      obtain ⟨c2, hc2, w2, hs2, hst2, hb2⟩ := Cursor.setStart_wf w (s := nl.getD b.length) (by omega)
      rw [hcur'] at hc2
      simp at hc2
      subst hc2
      have hse : cur'.start = nl.getD b.length := by rw [hs2, hst]; omega
      refine ⟨info, pl.getD 0, cur', ⟨k1, k2, k3, k4, k5⟩, prevLineEnd_of_prevNL hpl', ?_, w2, by rw [hb2, hb], by rw [hst2, hst], h⟩
      rw [hse]; exact hle
    · exact absurd h (hnotnil _ _ _ _ _ _)
  · exact absurd h (hnotnil _ _ _ _ _ _)

/-- The blocks which `discover_blocks` returns, in order: `cb` is the block being open. -/
inductive Found (b : Buf) (env : E) : BlockInfo → Nat → Nat → List (Pat E × List (Group E)) →
    List (Meaning E × List (Directive E)) → List BlockInfo → Prop
  | nil {cb i lo} : cb.stop = none → Found b env cb i lo [] [] [cb]
  | cons {cb i lo p gs bs μ ds dbs info prevEnd eol L} : LabelAt μ env b lo info.start info.stop →
      PrevLineEnd b info.start prevEnd → LineEnd b info.start eol → GroupsDen gs ds →
      Found b env ⟨some info, ⟨i, i + 1⟩, some eol, none, b.length⟩ (i + 1) eol bs dbs L →
      Found b env cb i lo ((p, gs) :: bs) ((μ, ds) :: dbs) ({ cb with stop := some prevEnd } :: L)

/-- A labelled block of the compiled program and its meaning. -/
structure BlockDen (x : Pat E × List (Group E)) (y : Meaning E × List (Directive E)) : Prop where
  label : x.1.LabelSound y.1
  body : GroupsDen x.2 y.2

/-- The section of a labelled block. -/
abbrev blockSection (x : Pat E × List (Group E)) : Section E := .block x.1 x.2

theorem discover_found {b : Buf} {env : E} {bs : List (Pat E × List (Group E))}
    {dbs : List (Meaning E × List (Directive E))} (hd : List.Forall₂ BlockDen bs dbs) {i : Nat} {cur : Cursor}
    (w : cur.WF) (hb : cur.buf = b) (hst : cur.stop = b.length) {cb : BlockInfo} (hcb : cb.start.isSome)
    (hcs : cb.stop = none)
    {acc acc' : List BlockInfo} {errs : List Failure}
    (h : discoverLoop b.length env (bs.map blockSection) i cur (cb :: acc) errs = .ok (acc', [])) :
    ∃ L, Found b env cb i cur.start bs dbs L ∧ acc'.reverse = acc.reverse ++ L := by
  induction hd generalizing i cur cb acc with
  | nil =>
    simp [discoverLoop] at h
    exact ⟨[cb], .nil hcs, by rw [← h.1]; simp⟩
  | @cons x y bs dbs hxy _ ih =>
    obtain ⟨info, pe, cur', h1, h2, h3, w', hb', hst', h⟩ := discover_step hxy.label w hb hst h
    rw [setPrevEnd, if_pos hcb] at h
    obtain ⟨L, hL, hacc⟩ := ih w' hb' hst' (by simp) rfl h
    refine ⟨{ cb with stop := some pe } :: L, ?_, by rw [hacc]; simp⟩
    exact Found.cons h1 h2 h3 hxy.body hL

theorem Spec.PrevLineEnd.le {b : Buf} {s e : Nat} (h : PrevLineEnd b s e) (hs : s < b.length) : e ≤ b.length := by
  rcases h with ⟨h1, _, _⟩ | ⟨_, rfl⟩ <;> omega

/-- The bounds of a block which ends before a label are acceptable to the cursor. -/
theorem block_bend {μ : Meaning E} {env : E} {b : Buf} {lo s e n : Nat} (h : LabelAt μ env b lo s e)
    (hn : LastLF b s n) : IsLF b n ∧ n + 1 < b.length ∧ ¬ IsLF b (n + 1) := by
  obtain ⟨h1, h2, h3, h4, _⟩ := h
  obtain ⟨k1, k2, k3⟩ := hn
  refine ⟨k2, by omega, ?_⟩
  by_cases hc : n + 1 = s
  · rw [hc]; exact h4 s (Nat.le_refl _) h2
  · exact k3 (n + 1) (Nat.le_refl _) (by omega)

/-- After a label, the end of the line of the label is before the next label's line. -/
theorem next_label_after {μ : Meaning E} {env : E} {b : Buf} {lo s e hi : Nat} (h : LabelAt μ env b lo s e)
    (hlo : lo = b.length ∨ IsLF b lo) (hp : PrevLineEnd b s hi) : LastLF b s hi ∧ lo ≤ hi := by
  obtain ⟨h1, h2, h3, h4, _⟩ := h
  have hlf : IsLF b lo := by
    rcases hlo with h | h
    · omega
    · exact h
  have hne : lo ≠ s := by
    intro hc; subst hc; exact h4 lo (Nat.le_refl _) h2 hlf
  rcases hp with hp | ⟨hp, _⟩
  · refine ⟨hp, ?_⟩
    by_contra hc
    exact hp.2.2 lo (by omega) (by omega) hlf
  · exact absurd hlf (hp lo (Nat.zero_le _) (by omega))

/-- The variables at the start of a block. -/
def enterEnv (o : CheckOpts) (clear : E → E) (env : E) : E := if o.enableVarScope then clear env else env

theorem checkBlock_run {o : CheckOpts} {clear : E → E} {prog : List (Section E)} {bi : BlockInfo} {gs : List (Group E)}
    (hgs : ∀ s : St E, checkSections prog bi.sections s = checkGroups gs s) {lo hi : Nat}
    (h1 : bi.start = some lo) (h2 : bi.stop.getD bi.eof = hi) {s s' : St E}
    (h : checkBlock o.enableVarScope clear prog bi s = .ok s') :
    ∃ cur res, s.ctx.cur.setBounds ⟨lo, hi⟩ = .ok cur ∧ res.errors = s.res.errors ∧
      checkGroups gs ⟨⟨cur, enterEnv o clear s.ctx.env⟩, res⟩ = .ok s' := by
  unfold checkBlock at h
  have hr : bi.range = .ok ⟨lo, hi⟩ ∨ ∃ e, bi.range = .error e := by
    unfold BlockInfo.range Rng.new
    rw [h1, h2]
    simp only [Option.getD_some]
    split
    · left; rfl
    · right; exact ⟨_, rfl⟩
  have hkey : ∀ s0 : St E, s0.ctx = s.ctx → s0.res.errors = s.res.errors →
      (if bi.start.isNone = true then Except.ok s0 else do
        let r ← bi.range
        let cur ← s0.ctx.cur.setBounds r
        checkSections prog bi.sections { s0 with ctx := ⟨cur, if o.enableVarScope then clear s0.ctx.env else s0.ctx.env⟩ })
        = .ok s' →
      ∃ cur res, s.ctx.cur.setBounds ⟨lo, hi⟩ = .ok cur ∧ res.errors = s.res.errors ∧
      checkGroups gs ⟨⟨cur, enterEnv o clear s.ctx.env⟩, res⟩ = .ok s' := by
    intro s0 hs0 he0 h
    rw [h1] at h
    simp only [Option.isNone_some, Bool.false_eq_true, if_false] at h
    obtain ⟨r, hrr, h⟩ := bind_ok.1 h
    obtain ⟨cur, hcur, h⟩ := bind_ok.1 h
    rcases hr with hr | ⟨e, hr⟩
    · rw [hr] at hrr
      simp at hrr
      rw [← hrr, hs0] at hcur
      rw [hgs, hs0] at h
      exact ⟨cur, s0.res, hcur, he0, h⟩
    · rw [hr] at hrr; simp at hrr
  cases hl : bi.label with
  | none => rw [hl] at h; exact hkey s rfl rfl h
  | some info => rw [hl] at h; exact hkey { s with res := s.res.addMatched info } rfl rfl h

theorem checkBlocks_err {vs : Bool} {clear : E → E} {prog : List (Section E)} {L : List BlockInfo} {s s' : St E}
    (hL : ∀ bi ∈ L, ∀ s s' : St E, checkBlock vs clear prog bi s = .ok s' → ErrLe s s')
    (h : checkBlocks vs clear prog L s = .ok s') : ErrLe s s' := by
  induction L generalizing s with
  | nil => simp [checkBlocks] at h; rw [h]; exact ErrLe.refl _
  | cons bi L ih =>
    unfold checkBlocks at h
    obtain ⟨s1, h1, h2⟩ := bind_ok.1 h
    exact (hL bi (by simp) _ _ h1).trans (ih (fun bi hb => hL bi (by simp [hb])) h2)

theorem checkGroupSections_err {ss : List (Section E)} {s s' : St E} (h : checkGroupSections ss s = .ok s') : ErrLe s s' := by
  induction ss generalizing s with
  | nil => simp [checkGroupSections] at h; rw [h]; exact ErrLe.refl _
  | cons x ss ih =>
    cases x with
    | block => simp [checkGroupSections] at h
    | group g =>
      unfold checkGroupSections at h
      obtain ⟨s1, h1, h2⟩ := bind_ok.1 h
      exact (checkOne_err h1).trans (ih h2)

theorem checkSections_err {prog : List (Section E)} {r : Rng} {s s' : St E}
    (h : checkSections prog r s = .ok s') : ErrLe s s' := by
  unfold checkSections at h
  split at h
  · simp at h; rw [h]; exact ErrLe.refl _
  · obtain ⟨n, _, h⟩ := bind_ok.1 h
    split at h
    · exact checkGroupSections_err h
    · split at h
      · exact checkGroups_err h
      · exact checkGroupSections_err h
      · simp at h

theorem checkBlock_err {vs : Bool} {clear : E → E} {prog : List (Section E)} {bi : BlockInfo} {s s' : St E}
    (h : checkBlock vs clear prog bi s = .ok s') : ErrLe s s' := by
  unfold checkBlock at h
  have hkey : ∀ s0 : St E, s0.res.errors = s.res.errors →
      (if bi.start.isNone = true then Except.ok s0 else do
        let r ← bi.range
        let cur ← s0.ctx.cur.setBounds r
        checkSections prog bi.sections { s0 with ctx := ⟨cur, if vs then clear s0.ctx.env else s0.ctx.env⟩ })
        = .ok s' → ErrLe s s' := by
    intro s0 he h
    split at h
    · simp at h; rw [← h]; simp [ErrLe, he]
    · obtain ⟨r, _, h⟩ := bind_ok.1 h
      obtain ⟨cur, _, h⟩ := bind_ok.1 h
      have := checkSections_err h
      simp only [ErrLe] at this ⊢
      rw [← he]; exact this
  cases hl : bi.label with
  | none => rw [hl] at h; exact hkey s rfl h
  | some info => rw [hl] at h; exact hkey { s with res := s.res.addMatched info } rfl h

/-- The groups of a block all pass when the block is empty and at the start of the input: then there are
only `CHECK-NOT`s. -/
theorem checkGroups_degenerate {gs : List (Group E)} {ds : List (Directive E)} (hd : GroupsDen gs ds)
    (hf : FirstAbsolute ds) (hn : NonEmptyAll ds) {s s' : St E} (hg : Degenerate s.ctx.cur)
    (h : checkGroups gs s = .ok s') (he : s'.res.errors = s.res.errors) :
    s'.ctx = s.ctx ∧ ∃ μs, ds = μs.map (⟨.not, ·⟩) ∧ AllAbsent μs s.ctx.cur.buf 0 0 := by
  obtain ⟨dss, hF, rfl⟩ := hd
  induction hF generalizing s with
  | nil =>
    simp [checkGroups] at h; subst h
    exact ⟨rfl, [], rfl, AllAbsent.nil⟩
  | @cons g d gs dss hg1 _ ih =>
    unfold checkGroups at h
    obtain ⟨s1, h1, h2⟩ := bind_ok.1 h
    obtain ⟨q1, q2⟩ := ErrLe.squeeze (checkOne_err h1) (checkGroups_err h2) he
    obtain ⟨gr, s2, h3, hc, hctx⟩ := checkOne_clean h1 q1
    rw [List.flatten_cons] at hf hn ⊢
    cases hg1 with
    | proper hgd =>
      exact absurd hc (checkGroup_degenerate g hgd hf.left (fun d hd => hn d (by simp [hd])) hg h3)
    | @never p μs hp =>
      rw [checkGroup, checkNever, hg.search] at h3
      simp only [bind, Except.bind] at h3
      cases hnn : checkNot p ⟨0, 0⟩ s with
      | error e => rw [hnn] at h3; simp at h3
      | ok x =>
        obtain ⟨nr, s3⟩ := x
        rw [hnn] at h3
        simp only at h3
        cases nr with
        | found i =>
          simp at h3
          have := hc.ok [notFoundFailure] (by rw [← h3.1]; simp [GR.matches])
          simp [Matches.isOk, notFoundFailure, MatchResult.failed, MatchResult.isOk, MatchType.isOk] at this
        | err => simp at h3; exact absurd h3.1.symm (hc.noErr _)
        | passed n =>
          simp at h3
          unfold checkNot at hnn
          split at hnn
          · simp at hnn
          · rename_i m env' hrun
            dsimp only at hnn
            split at hnn
            · simp at hnn
            · simp at hnn
            · rename_i hm
              simp at hnn
              obtain ⟨hee, ha⟩ := hp _ _ _ _ _ hrun hm
              have hctx2 : s1.ctx = s.ctx := by rw [hctx, ← h3.2, pass_ctx, ← hnn.2]; simp [hee]
              obtain ⟨k1, μs', k2, k3⟩ := ih (by rw [hctx2]; exact hg) h2 q2 hf.nots
                (fun d hd => hn d (by simp only [List.mem_append]; exact Or.inr hd))
              rw [hctx2] at k1 k3
              refine ⟨k1, μs ++ μs', by rw [k2, List.map_append], AllAbsent.append.2 ⟨ha, k3⟩⟩


theorem checkSections_block {prog : List (Section E)} {i : Nat} {p : Pat E} {gs : List (Group E)}
    (h : prog[i]? = some (.block p gs)) (s : St E) : checkSections prog ⟨i, i + 1⟩ s = checkGroups gs s := by
  unfold checkSections
  simp [Rng.isEmpty, Rng.len, h, bind, Except.bind]

theorem checkGroupSections_groups (gs : List (Group E)) (s : St E) :
    checkGroupSections (gs.map .group) s = checkGroups gs s := by
  induction gs generalizing s with
  | nil => rfl
  | cons g gs ih =>
    rw [List.map_cons, checkGroupSections, checkGroups]
    cases checkOne g s with
    | error e => rfl
    | ok s1 => exact ih s1

theorem checkSections_head {gs : List (Group E)} {rest : List (Section E)} (s : St E) :
    checkSections (gs.map .group ++ rest) ⟨0, gs.length⟩ s = checkGroups gs s := by
  unfold checkSections
  match gs with
  | [] => simp [Rng.isEmpty, checkGroups]
  | [g] =>
    simp only [Rng.isEmpty, Rng.len, bind, Except.bind, List.map_cons, List.map_nil, List.length_cons, List.length_nil]
    exact checkGroupSections_groups [g] s
  | g :: g' :: gs =>
    simp only [Rng.isEmpty, Rng.len, bind, Except.bind, List.length_cons]
    simp only [sectionsOf]
    rw [← checkGroupSections_groups]
    simp

/-- The open block can be entered: it starts at the end of a label's line, or it is the block before the
first label. -/
def Enterable (b : Buf) (lo : Nat) (ds : List (Directive E)) : Prop :=
  (lo = b.length ∨ IsLF b lo) ∨ (lo = 0 ∧ FirstAbsolute ds ∧ NonEmptyAll ds)

theorem checkGroups_frame {gs : List (Group E)} {ds : List (Directive E)} (hd : GroupsDen gs ds) {s s' : St E}
    (w : s.ctx.cur.WF) (h : checkGroups gs s = .ok s') (he : s'.res.errors = s.res.errors) :
    s'.ctx.cur.crlf = false ∧ s'.ctx.cur.buf = s.ctx.cur.buf := by
  have := checkGroups_ok hd w h he
  exact ⟨this.wf.lf, this.buf⟩

theorem found_blocks {o : CheckOpts} {clear : E → E} {b : Buf} {env0 : E} {cb : BlockInfo} {i lo : Nat}
    {bs : List (Pat E × List (Group E))} {dbs : List (Meaning E × List (Directive E))} {L : List BlockInfo}
    (hF : Found b env0 cb i lo bs dbs L) {prog pre : List (Section E)} (hprog : prog = pre ++ bs.map blockSection)
    (hpre : pre.length = i) (hcb : cb.start = some lo) (heof : cb.eof = b.length) {gs : List (Group E)}
    {ds : List (Directive E)} (hgs : GroupsDen gs ds)
    (hsec : ∀ s : St E, checkSections prog cb.sections s = checkGroups gs s) (hlo : lo ≤ b.length)
    (hent : bs ≠ [] → Enterable b lo ds) {s s' : St E} (hlf : s.ctx.cur.crlf = false) (hb : s.ctx.cur.buf = b)
    (h : checkBlocks o.enableVarScope clear prog L s = .ok s') (he : s'.res.errors = s.res.errors) :
    Blocks b (enterEnv o clear) env0 lo s.ctx.env ds dbs := by
  induction hF generalizing pre gs ds s with
  | nil hstop =>
    rw [checkBlocks] at h
    obtain ⟨s1, h1, h2⟩ := bind_ok.1 h
    simp [checkBlocks] at h2
    subst h2
    obtain ⟨cur, res, hcur, hres, hrun⟩ := checkBlock_run hsec hcb rfl h1
    rw [hstop, heof] at hcur
    simp only [Option.getD_none] at hcur
    obtain ⟨cur', hcur', w, k1, k2, k3⟩ := Cursor.setBounds_wf hlf (s := _) (e := b.length) hlo (by rw [hb]; exact Nat.le_refl _)
      (Or.inl (by rw [hb]))
    rw [hcur] at hcur'
    simp at hcur'
    subst hcur'
    have := (checkGroups_ok hgs w hrun (by rw [he]; exact hres.symm)).run
    simp only at this
    rw [k1, k2, k3, hb] at this
    exact .last this
  | @cons cb i lo p gs1 bs μ ds1 dbs info pe eol L hlab hpe heol hgs1 hF ih =>
    rw [checkBlocks] at h
    obtain ⟨s1, h1, h2⟩ := bind_ok.1 h
    have e1 := checkBlock_err h1
    have e2 := checkBlocks_err (fun bi _ s s' h => checkBlock_err h) h2
    obtain ⟨q1, q2⟩ := ErrLe.squeeze e1 e2 he
    obtain ⟨cur, res, hcur, hres, hrun⟩ := checkBlock_run (bi := { cb with stop := some pe }) hsec hcb rfl h1
    simp only [Option.getD_some] at hcur
    have hsl := hlab.2.1
    have hel := hlab.2.2.1
    have hpel := hpe.le (by omega)
    obtain ⟨hl1, hl2⟩ := heol.le (by omega)
    have hnext : ∀ {pos' env'}, s1.ctx.cur.crlf = false → s1.ctx.cur.buf = b → s1.ctx.env = env' → lo ≤ pe →
        Run b pe lo (enterEnv o clear s.ctx.env) [] ds pos' env' →
        Blocks b (enterEnv o clear) env0 lo s.ctx.env ds ((μ, ds1) :: dbs) := by
      intro pos' env' g1 g2 g3 g4 g5
      subst g3
      refine .label hlab hpe g4 g5 heol ?_
      refine ih (pre := pre ++ [blockSection (p, gs1)]) (by rw [hprog]; simp) (by simp [hpre]) rfl rfl hgs1 ?_ hl2 ?_ g1 g2 h2 q2
      · intro s
        refine checkSections_block (p := p) ?_ s
        rw [hprog, ← hpre]
        simp
      · intro _
        left
        rcases heol with ⟨_, hh, _⟩ | ⟨_, hh⟩
        · exact Or.inr hh
        · exact Or.inl hh
    have hregular : LastLF b info.start pe → lo ≤ pe → Blocks b (enterEnv o clear) env0 lo s.ctx.env ds ((μ, ds1) :: dbs) := by
      intro hlast hle
      obtain ⟨cur', hcur', w, k1, k2, k3⟩ := Cursor.setBounds_wf hlf (s := lo) (e := pe) hle (by rw [hb]; exact hpel)
        (Or.inr (by rw [hb]; exact block_bend hlab hlast))
      rw [hcur] at hcur'
      simp at hcur'
      subst hcur'
      have hok := checkGroups_ok hgs w hrun (by rw [q1]; exact hres.symm)
      have hr := hok.run
      simp only at hr
      rw [k1, k2, k3, hb] at hr
      exact hnext hok.wf.lf (by rw [hok.buf]; simp only; rw [k3, hb]) rfl hle hr
    rcases hent (by simp) with hent | ⟨rfl, hfa, hne⟩
    · obtain ⟨hlast, hle⟩ := next_label_after hlab hent hpe
      exact hregular hlast hle
    · rcases hpe with hlast | ⟨hno, rfl⟩
      · exact hregular hlast (Nat.zero_le _)
      · -- the label is on the first line
        have hcurf : Degenerate cur ∧ cur.crlf = false ∧ cur.buf = b := by
          unfold Cursor.setBounds at hcur
          rw [bounded_ok (Nat.le_refl _) (Nat.zero_le _)] at hcur
          simp only [bind, Except.bind] at hcur
          split at hcur
          · simp at hcur
          · simp at hcur; subst hcur; exact ⟨⟨rfl, rfl⟩, hlf, hb⟩
        obtain ⟨k1, μs, k2, k3⟩ := checkGroups_degenerate hgs hfa hne (s := ⟨⟨cur, enterEnv o clear s.ctx.env⟩, res⟩)
          hcurf.1 hrun (by rw [q1]; exact hres.symm)
        simp only at k3
        rw [hcurf.2.2] at k3
        have hr := Run.nots (b := b) (hi := 0) (pos := 0) (env := enterEnv o clear s.ctx.env) (nots := []) (ds := []) μs
          (.done (by simpa using k3))
        rw [List.append_nil, ← k2] at hr
        refine hnext (by rw [k1]; exact hcurf.2.1) (by rw [k1]; exact hcurf.2.2) (by rw [k1]) (Nat.le_refl _) hr

/-- Soundness of `check_input`: if the result has no errors, the input satisfies the directives. -/
theorem checkInput_sound {o : CheckOpts} {clear : E → E} {gs : List (Group E)} {ds : List (Directive E)}
    {bs : List (Pat E × List (Group E))} {dbs : List (Meaning E × List (Directive E))} (hgs : GroupsDen gs ds)
    (hemp : gs = [] → ds = []) (hdne : gs ≠ [] → ds ≠ [])
    (hbs : List.Forall₂ BlockDen bs dbs) (hfa : FirstAbsolute ds) (hne : bs ≠ [] → NonEmptyAll ds)
    (hprog : gs ≠ [] ∨ bs ≠ [])
    {env : E} {b : Buf} (hlf : LFMode b ∨ Lineless (gs.map .group ++ bs.map blockSection)) {tr : TestResult}
    (h : checkInput o clear (gs.map .group ++ bs.map blockSection) env b = .ok tr) (hok : tr.errors = []) :
    (o.allowEmpty = true ∨ b ≠ []) ∧ Satisfied b (enterEnv o clear) env ds dbs := by
  obtain ⟨cur0, hnew, w0, hb0, hs0, hst0⟩ := checkInput_readable o clear env hlf
  rw [hnew] at h
  unfold checkInputFrom at h
  rw [hb0] at h
  simp only [bind, Except.bind] at h
  split at h
  · simp at h; rw [← h] at hok; simp [TestResult.fromErrors] at hok
  · rename_i hne0
    refine ⟨by simp at hne0; rcases Classical.em (o.allowEmpty = true) with h | h; exact Or.inl h; right; exact hne0 (by simpa using h), ?_⟩
    have hdisc : ∀ x, discoverBlocks (gs.map .group ++ bs.map blockSection) ⟨cur0, env⟩ = .ok x →
        ∀ L c, x = (.ok L, c) → c.env = env ∧ c.cur.crlf = false ∧ c.cur.buf = b ∧
        ((gs = [] ∧ ∃ μ ds1 dbs1 p gs1 bs1 info eol L1, bs = (p, gs1) :: bs1 ∧ dbs = (μ, ds1) :: dbs1 ∧
            LabelAt μ env b 0 info.start info.stop ∧ LineEnd b info.start eol ∧ GroupsDen gs1 ds1 ∧
            Found b env ⟨some info, ⟨0, 1⟩, some eol, none, b.length⟩ 1 eol bs1 dbs1 L1 ∧ L = L1) ∨
         (gs ≠ [] ∧ Found b env ⟨none, ⟨0, gs.length⟩, some 0, none, b.length⟩ gs.length 0 bs dbs L)) := by
      intro x hx L c hxe
      subst hxe
      unfold discoverBlocks at hx
      simp only [hb0] at hx
      obtain ⟨⟨acc, errs⟩, hloop, hx1⟩ := bind_ok.1 hx
      obtain ⟨cur', hreset, hx2⟩ := bind_ok.1 hx1
      obtain ⟨c2, hc2, k1, k2⟩ := Cursor.reset_frame cur0
      rw [hreset] at hc2
      simp only [Except.ok.injEq] at hc2
      rw [← hc2] at k1 k2
      clear hx hx1
      dsimp only at hx2
      split at hx2
      · rename_i herr
        have herr : errs = [] := by simpa using herr
        subst herr
        simp only [Except.ok.injEq, Prod.mk.injEq] at hx2
        obtain ⟨hx3, hx4⟩ := hx2
        subst hx3
        subst hx4
        refine ⟨rfl, by rw [k1]; exact w0.lf, by rw [k2, hb0], ?_⟩
        cases gs with
        | nil =>
          left
          refine ⟨rfl, ?_⟩
          cases hbs with
          | nil => simp at hprog
          | @cons x y bs1 dbs1 hxy hrest =>
            simp only [List.map_nil, List.nil_append, List.map_cons] at hloop
            obtain ⟨info, pe, c3, h1, h2, h3, w3, hb3, hst3, hloop⟩ := discover_step hxy.label w0 hb0 hst0 hloop
            rw [setPrevEnd] at hloop
            obtain ⟨L, hL, hacc⟩ := discover_found hrest w3 hb3 hst3 (by simp) rfl hloop
            rw [hs0] at h1
            exact ⟨y.1, y.2, dbs1, x.1, x.2, bs1, info, c3.start, L, rfl, rfl, h1, h3, hxy.body, hL, by simpa using hacc⟩
        | cons g gs =>
          right
          refine ⟨by simp, ?_⟩
          have htw : (((g :: gs).map Section.group ++ bs.map blockSection).takeWhile (fun s => !s.isBlock)).length = (g :: gs).length := by
            rw [List.takeWhile_append_of_pos]
            · cases bs with
              | nil => simp
              | cons x xs => simp [List.takeWhile_cons, Section.isBlock]
            · intro a ha
              obtain ⟨g', _, rfl⟩ := List.mem_map.1 ha
              rfl
          have hskip : ∀ (gs : List (Group E)) (i : Nat) (acc : List BlockInfo),
              discoverLoop b.length env (gs.map .group ++ bs.map blockSection) i cur0 acc [] =
              discoverLoop b.length env (bs.map blockSection) (i + gs.length) cur0 acc [] := by
            intro gs
            induction gs with
            | nil => intro i acc; rfl
            | cons g gs ih =>
              intro i acc
              rw [List.map_cons, List.cons_append, discoverLoop, ih]
              simp only [List.length_cons]
              congr 1
              omega
          have himp : ∀ (x : List BlockInfo), x = [⟨none, ⟨0, (g :: gs).length⟩, some 0, none, b.length⟩] →
              discoverLoop b.length env ((g :: gs).map .group ++ bs.map blockSection) 0 cur0 x [] = .ok (acc, []) →
              Found b env ⟨none, ⟨0, (g :: gs).length⟩, some 0, none, b.length⟩ (g :: gs).length 0 bs dbs acc.reverse := by
            intro x hx hl
            subst hx
            rw [hskip, Nat.zero_add] at hl
            obtain ⟨L, hL, hacc⟩ := discover_found hbs w0 hb0 hst0 (by simp) rfl hl
            rw [hs0] at hL
            simp only [List.reverse_nil, List.nil_append] at hacc
            rw [hacc]; exact hL
          refine himp _ ?_ hloop
          rw [htw]
          rfl
      · simp at hx2
    cases hd : discoverBlocks (gs.map .group ++ bs.map blockSection) ⟨cur0, env⟩ with
    | error e => rw [hd] at h; simp at h
    | ok x =>
      obtain ⟨d, c⟩ := x
      rw [hd] at h
      simp only at h
      cases d with
      | error errs =>
        simp at h
        -- a failed discovery reports at least one error
        exfalso
        unfold discoverBlocks at hd
        simp only [hb0] at hd
        obtain ⟨⟨acc, errs'⟩, hloop, hd⟩ := bind_ok.1 hd
        obtain ⟨cur', hreset, hd⟩ := bind_ok.1 hd
        dsimp only at hd
        split at hd
        · simp at hd
        · rename_i hee
          simp at hd
          rw [hd.1] at hee
          rw [← h] at hok
          simp [TestResult.fromErrors] at hok
          simp [hok] at hee
      | ok L =>
        simp only at h
        split at h
        · simp at h
        · rename_i s' hcb
          simp at h
          have herr : s'.res.errors = [] := by rw [h]; exact hok
          obtain ⟨henv, hclf, hcb', hcase⟩ := hdisc _ hd L c rfl
          rcases hcase with ⟨hgsn, μ, ds1, dbs1, p, gs1, bs1, info, eol, L1, hbs1, hdbs1, hlab, heol, hden, hF, hL⟩ | ⟨hgsn, hF⟩
          · subst hL
            rw [hemp hgsn, hdbs1]
            refine .noHead hlab heol ?_
            obtain ⟨hl1, hl2⟩ := heol.le (by have := hlab.2.1; have := hlab.2.2.1; omega)
            have := found_blocks hF (o := o) (clear := clear) (pre := [blockSection (p, gs1)]) (prog := gs.map .group ++ bs.map blockSection)
              (by rw [hgsn, hbs1]; simp) rfl rfl rfl hden
              (fun s => checkSections_block (p := p) (by rw [hgsn, hbs1]; simp) s) hl2
              (fun _ => Or.inl (by
                rcases heol with ⟨_, hh, _⟩ | ⟨_, hh⟩
                · exact Or.inr hh
                · exact Or.inl hh)) hclf hcb' hcb (by simp [herr, TestResult.new])
            simp only [henv] at this
            exact this
          · refine .head (hdne hgsn) ?_
            have hpre : bs ≠ [] → Enterable b 0 ds := fun hbn => Or.inr ⟨rfl, hfa, hne hbn⟩
            have := found_blocks hF (o := o) (clear := clear) (pre := gs.map .group) (prog := gs.map .group ++ bs.map blockSection)
              rfl (by simp) rfl rfl hgs
              (fun s => checkSections_head s) (Nat.zero_le _) hpre hclf hcb' hcb (by simp [herr, TestResult.new])
            simp only [henv] at this
            exact this

end Litcheck
