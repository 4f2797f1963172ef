import Verif.Proofs.ExactBody

/-!
# Labels and blocks, exactly
-/

namespace Litcheck
open Spec
variable {E : Type}

/-! ## The empty block before a label on the first line -/

/-- The meaning of a check: every first match in some range is a match. -/
def Spec.Check.dir (d : Check E) : Directive E :=
  ⟨d.kind, if d.kind = .not then d.mean else fun env b s e env' => ∃ lo hi, d.first env b lo hi s e env'⟩

theorem Pat.Finds.sound {p : Pat E} {F : Finder E} (h : p.Finds F) :
    p.Sound (fun env b s e env' => ∃ lo hi, F env b lo hi s e env') where
  found := by
    intro b r env m env' h1 h2 h3 h4
    obtain ⟨i, hi, hF⟩ := h.found b r env m env' h1 h2 h3 h4
    obtain ⟨k1, k2, k3⟩ := h.range _ _ _ _ _ _ _ hF
    exact ⟨i, hi, k1, k2, k3, _, _, hF⟩
  related := h.related

theorem dir_nots {nd : List (Check E)} (hk : ∀ d ∈ nd, d.kind = .not) :
    nd.map Check.dir = (nd.map Check.mean).map (⟨.not, ·⟩) := by
  rw [List.map_map]
  apply List.map_congr_left
  intro d hd
  simp [Check.dir, hk d hd]

theorem Rule.Exact.sound {r : Rule E} {d : Check E} (h : Rule.Exact r d) : Rule.Sound r d.dir := by
  cases h with
  | plain hk hp =>
    have : d.dir = ⟨.plain, fun env b s e env' => ∃ lo hi, d.first env b lo hi s e env'⟩ := by simp [Check.dir, hk]
    rw [this]; exact .plain hp.sound
  | next hk hp _ =>
    have : d.dir = ⟨.next, fun env b s e env' => ∃ lo hi, d.first env b lo hi s e env'⟩ := by simp [Check.dir, hk]
    rw [this]; exact .next hp.sound
  | same hk hp _ =>
    have : d.dir = ⟨.same, fun env b s e env' => ∃ lo hi, d.first env b lo hi s e env'⟩ := by simp [Check.dir, hk]
    rw [this]; exact .same hp.sound
  | empty hk =>
    have : d.dir = ⟨.empty, fun env b s e env' => ∃ lo hi, d.first env b lo hi s e env'⟩ := by simp [Check.dir, hk]
    rw [this]; exact .empty

mutual
theorem GDen.sound : ∀ (g : Group E) {ds : List (Check E)}, GDen g ds → GroupDen g (ds.map Check.dir)
  | .never p, _, h => by cases h
  | .ordered rules, _, h => by
    cases h with
    | ordered hne hr =>
      refine .ordered hne ?_
      clear hne
      induction hr with
      | nil => exact .nil
      | cons h _ ih => exact .cons h.sound ih
  | .repeated rule n, _, h => by
    cases h with
    | @repeated p d n hk hp hn =>
      have : d.dir = ⟨.count n, fun env b s e env' => ∃ lo hi, d.first env b lo hi s e env'⟩ := by simp [Check.dir, hk]
      rw [List.map_cons, List.map_nil, this]
      exact .repeated hp.sound hn
  | .unordered d, _, h => by cases h
  | .bounded d g, _, h => by cases h
  | .tree t, _, h => by
    cases h with
    | tree ht => exact .tree (TDen.sound t ht)
theorem TDen.sound : ∀ (t : Tree E) {ds : List (Check E)}, TDen t ds → TreeDen t (ds.map Check.dir)
  | .matchAll g, _, h => by
    cases h with
    | matchAll hg => exact .matchAll (GDen.sound g hg)
  | .matchBefore root left, _, h => by cases h
  | .matchAround root left right, _, h => by
    cases h with
    | matchAround hk hr hl hrr =>
      rw [List.map_append, List.map_append, dir_nots hk]
      exact .matchAround hr.complete (TDen.sound left hl) (TDen.sound right hrr)
  | .matchAfter root right, _, h => by
    cases h with
    | matchAfter hk hr hrr =>
      rw [List.map_append, dir_nots hk]
      exact .matchAfter hr.complete (TDen.sound right hrr)
end

mutual
/-- A group has a check which is not a `CHECK-NOT`. -/
theorem GDen.positive : ∀ (g : Group E) {ds : List (Check E)}, GDen g ds → ∃ d ∈ ds, d.kind ≠ .not
  | .never p, _, h => by cases h
  | .ordered rules, _, h => by
    cases h with
    | ordered hne hr =>
      cases hr with
      | nil => simp at hne
      | @cons a b _ _ h _ => exact ⟨b, by simp, by cases h <;> rename_i hk <;> simp_all⟩
  | .repeated rule n, _, h => by
    cases h with
    | @repeated p d n hk hp hn => exact ⟨d, by simp, by simp [hk]⟩
  | .unordered d, _, h => by cases h
  | .bounded d g, _, h => by cases h
  | .tree t, _, h => by
    cases h with
    | tree ht => exact TDen.positive t ht
theorem TDen.positive : ∀ (t : Tree E) {ds : List (Check E)}, TDen t ds → ∃ d ∈ ds, d.kind ≠ .not
  | .matchAll g, _, h => by
    cases h with
    | matchAll hg => exact GDen.positive g hg
  | .matchBefore root left, _, h => by cases h
  | .matchAround root left right, _, h => by
    cases h with
    | matchAround hk hr hl hrr =>
      obtain ⟨d, hd, hn⟩ := TDen.positive left hl
      exact ⟨d, by simp [hd], hn⟩
  | .matchAfter root right, _, h => by
    cases h with
    | matchAfter hk hr hrr =>
      obtain ⟨d, hd, hn⟩ := TDen.positive right hrr
      exact ⟨d, by simp [hd], hn⟩
end

theorem BodyDen.sound {gs : List (Group E)} {ds : List (Check E)} (h : BodyDen gs ds) : GroupsDen gs (ds.map Check.dir) := by
  induction h with
  | nil => exact GroupsDen.nil
  | cons hg _ ih =>
    obtain ⟨dss, hf, he⟩ := ih
    exact ⟨_ :: dss, .cons (.proper (GDen.sound _ hg)) hf, by simp [he]⟩
  | never hk _ hp =>
    rw [dir_nots hk]
    exact ⟨[_], .cons (.never hp.complete) .nil, by simp⟩
  | before hk hp ht =>
    rw [List.map_append, dir_nots hk]
    exact ⟨[_], .cons (.proper (.tree (.matchBefore hp.complete (TDen.sound _ ht)))) .nil, by simp⟩

/-- What is assumed of the checks before the first label. -/
structure HeadOk (ds : List (Check E)) : Prop where
  absolute : FirstAbsolute (ds.map Check.dir)
  solid : ∀ d ∈ ds, d.kind ≠ .empty → d.kind ≠ .not → Solid d.first

theorem HeadOk.nonEmpty {ds : List (Check E)} (h : HeadOk ds) : NonEmptyAll (ds.map Check.dir) := by
  intro d hd hk1 hk2 env b s e env' hm
  obtain ⟨c, hc, rfl⟩ := List.mem_map.1 hd
  simp only [Check.dir] at hk1 hk2 hm
  rw [if_neg hk2] at hm
  obtain ⟨lo, hi, hF⟩ := hm
  exact h.solid c hc hk1 hk2 _ _ _ _ _ _ _ hF

theorem body_degenerate_back {gs : List (Group E)} {ds : List (Check E)} (hd : BodyDen gs ds) (hh : HeadOk ds)
    {s s' : St E} (hg : Degenerate s.ctx.cur) (h : checkGroups gs s = .ok s') (he : s'.res.errors = s.res.errors) :
    s'.ctx = s.ctx ∧ BlockPasses s.ctx.cur.buf 0 0 s.ctx.env ds s'.ctx.env := by
  obtain ⟨k1, μs, k2, k3⟩ := checkGroups_degenerate hd.sound hh.absolute hh.nonEmpty hg h he
  have hk : ∀ d ∈ ds, d.kind = .not := by
    intro d hd
    have : d.dir ∈ μs.map (⟨.not, ·⟩) := by rw [← k2]; exact List.mem_map_of_mem hd
    obtain ⟨μ, _, hμ⟩ := List.mem_map.1 this
    have := congrArg Directive.kind hμ
    simpa [Check.dir] using this.symm
  have hμ : μs = ds.map Check.mean := by
    rw [dir_nots hk] at k2
    have := congrArg (List.map Directive.mean) k2
    simpa [List.map_map, Function.comp_def] using this.symm
  refine ⟨k1, 0, ds.map Check.mean, ?_, ?_⟩
  · rw [k1]; exact Greedy.only_nots hk
  · rw [← hμ]; exact k3

/-- In an empty block, only `CHECK-NOT`s pass. -/
theorem HeadOk.only_nots {b : Buf} {ds : List (Check E)} (hh : HeadOk ds)
    (hr : ∀ d ∈ ds, d.kind ≠ .empty → d.kind ≠ .not → ∀ env lo hi s e env', d.first env b lo hi s e env' → lo ≤ s ∧ s ≤ e ∧ e ≤ hi)
    (hcz : ∀ d ∈ ds, d.kind ≠ .count 0) {env env' : E} {nots nots' : List (Meaning E)} {pos : Nat}
    (h : Greedy b 0 0 env nots ds pos env' nots') : ∀ d ∈ ds, d.kind = .not := by
  obtain ⟨ha, hs⟩ := hh
  induction ds generalizing nots with
  | nil => simp
  | cons d ds ih =>
    rw [List.map_cons] at ha
    unfold FirstAbsolute at ha
    cases h with
    | not hk h =>
      have hk' : (Check.dir d).kind = .not := hk
      rw [hk'] at ha
      have := ih (fun x hx => hr x (by simp [hx])) (fun x hx => hcz x (by simp [hx])) h ha (fun x hx => hs x (by simp [hx]))
      intro x hx
      rcases List.mem_cons.1 hx with rfl | hx
      · exact hk
      · exact this x hx
    | take ht _ _ =>
      exfalso
      have hdk : (Check.dir d).kind = d.kind := rfl
      rw [hdk] at ha
      have hr := hr d (by simp)
      have hs := hs d (by simp)
      unfold Takes at ht
      cases hk : d.kind with
      | plain =>
        rw [hk] at ht
        simp only at ht
        have h1 := hr (by simp [hk]) (by simp [hk]) _ _ _ _ _ _ ht
        have h2 := hs (by simp [hk]) (by simp [hk]) _ _ _ _ _ _ _ ht
        omega
      | count n =>
        rw [hk] at ht
        simp only at ht
        have h1 := hr (by simp [hk]) (by simp [hk])
        have h2 := hs (by simp [hk]) (by simp [hk])
        cases ht with
        | one hF => have := h1 _ _ _ _ _ _ hF; have := h2 _ _ _ _ _ _ _ hF; omega
        | more hF _ => have := h1 _ _ _ _ _ _ hF; have := h2 _ _ _ _ _ _ _ hF; omega
      | next => rw [hk] at ha; exact ha
      | same => rw [hk] at ha; exact ha
      | empty => rw [hk] at ha; exact ha
      | label => rw [hk] at ha; exact ha
      | not => rw [hk] at ht; exact ht
      | dag => rw [hk] at ht; exact ht

theorem body_degenerate_fwd {gs : List (Group E)} {ds : List (Check E)} (hd : BodyDen gs ds)
    (hk : ∀ d ∈ ds, d.kind = .not) {s : St E} (hg : Degenerate s.ctx.cur) {env' : E}
    (h : BlockPasses s.ctx.cur.buf 0 0 s.ctx.env ds env') :
    ∃ s', checkGroups gs s = .ok s' ∧ s'.res.errors = s.res.errors ∧ s'.ctx = s.ctx ∧ s.ctx.env = env' := by
  obtain ⟨pos, nots, h, hab⟩ := h
  obtain ⟨rfl, rfl, rfl⟩ := h.only_nots_inv hk
  cases hd with
  | nil => exact ⟨s, rfl, rfl, rfl, rfl⟩
  | cons hg' _ =>
    obtain ⟨d, hd, hn⟩ := GDen.positive _ hg'
    exact absurd (hk d (by simp [hd])) hn
  | @never p nd _ _ hp =>
    obtain ⟨m, hrun, hm⟩ := hp.absent s.ctx.cur.buf 0 0 s.ctx.env (Nat.le_refl _) (Nat.zero_le _) (by simpa using hab)
    have hgr : checkGroup (.never p) s = .ok (.matched [], s.pass p.len) := by
      rw [checkGroup]
      simp only [checkNever, hg.search, checkNot, hrun, hm, bind, Except.bind]
    obtain ⟨s2, hone, he2, hctx⟩ := checkOne_matched hgr (by simp) (pass_errors _ _)
    exact ⟨s2, by simp only [checkGroups, hone, bind, Except.bind], he2, by rw [hctx, pass_ctx], rfl⟩
  | @before p t dl nd _ hp ht =>
    obtain ⟨d, hd, hn⟩ := TDen.positive _ ht
    exact absurd (hk d (by simp [hd])) hn

/-! ## Discovering labels -/

/-- A label matcher finds what the finder says, on one line, and never the empty string. -/
structure Pat.LabelExact (p : Pat E) (F : Finder E) : Prop where
  finds : p.Finds F
  info : ∀ b r env m i, (p.run b r env).1 = some m → m.info = some i → m.isOk = true
  solid : Solid F
  line : ∀ env b lo hi s e env', F env b lo hi s e env' → NoLF b s e

theorem Pat.Finds.unique {p : Pat E} {F : Finder E} (h : p.Finds F) {env : E} {b : Buf} {lo hi s e s' e' : Nat} {env1 env2 : E}
    (h1 : lo ≤ hi) (h2 : hi ≤ b.length) (hF : F env b lo hi s e env1) (hF' : F env b lo hi s' e' env2) :
    s = s' ∧ e = e' ∧ env1 = env2 := by
  obtain ⟨m, i, k1, _, k3, k4, k5⟩ := h.first _ _ _ _ _ _ _ h1 h2 hF
  obtain ⟨m', i', k1', _, k3', k4', k5'⟩ := h.first _ _ _ _ _ _ _ h1 h2 hF'
  rw [k1] at k1'
  simp at k1'
  obtain ⟨rfl, rfl⟩ := k1'
  rw [k3] at k3'
  simp at k3'
  subst k3'
  exact ⟨by rw [← k4, k4'], by rw [← k5, k5'], rfl⟩

/-- One iteration of `discover_blocks` on a label which can be found. -/
theorem discover_fwd {b : Buf} {env : E} {label : Pat E} {F : Finder E} (hl : label.LabelExact F) (body : List (Group E))
    (ss : List (Section E)) (i : Nat) {cur : Cursor} (w : cur.WF) (hb : cur.buf = b) (hst : cur.stop = b.length)
    {s e : Nat} {env1 : E} (hF : F env b cur.start b.length s e env1) (acc : List BlockInfo) (errs : List Failure) :
    ∃ info prevEnd cur', info.start = s ∧ info.stop = e ∧ PrevLineEnd b s prevEnd ∧ LineEnd b s cur'.start ∧
      cur'.WF ∧ cur'.buf = b ∧ cur'.stop = b.length ∧
      discoverLoop b.length env (.block label body :: ss) i cur acc errs =
      discoverLoop b.length env ss (i + 1) cur'
        (⟨some info, ⟨i, i + 1⟩, some cur'.start, none, b.length⟩ :: setPrevEnd prevEnd acc) errs := by
  have hlo : cur.start ≤ b.length := by have := w.lo; omega
  obtain ⟨m, info, k1, k2, k3, k4, k5⟩ := hl.finds.first _ _ _ _ _ _ _ hlo (Nat.le_refl _) hF
  obtain ⟨r1, r2, r3⟩ := hl.finds.range _ _ _ _ _ _ _ hF
  have r4 := hl.solid _ _ _ _ _ _ _ hF
  have hrng : cur.searchToEof = .ok ⟨cur.start, b.length⟩ := by
    rw [← hb]; exact bounded_from_ok (by rw [hb]; exact hlo)
  obtain ⟨nl, hnl, hnl'⟩ := Cursor.nextNewlineFrom_ok w.lf (s := s) (by rw [hb]; omega)
  obtain ⟨pl, hpl⟩ := Cursor.prevNewlineFrom_ok (c := cur) (e := s) (by rw [hb]; omega)
  have hpl' := (Cursor.prevNewlineFrom_inv w.lf hpl).2
  rw [hb] at hnl' hpl'
  have hle := lineEnd_of_nextNL hnl'
  obtain ⟨hl1, hl2⟩ := hle.le (by omega)
  obtain ⟨c2, hc2, w2, hs2, hst2, hb2⟩ := Cursor.setStart_wf w (s := nl.getD b.length) (by omega)
  have hse : c2.start = nl.getD b.length := by rw [hs2, hst]; omega
  refine ⟨info, pl.getD 0, c2, k4, k5, prevLineEnd_of_prevNL hpl', by rw [hse]; exact hle, w2, by rw [hb2, hb], by rw [hst2, hst], ?_⟩
  rw [discoverLoop]
  simp only [hrng, bind, Except.bind, hb, k1, k3, k4, hnl, hpl, hc2]

theorem discoverLoop_errs {eof : Nat} {env : E} {acc' : List BlockInfo} : ∀ (ss : List (Section E)) i cur acc errs f,
    discoverLoop eof env ss i cur acc (errs ++ [f]) ≠ .ok (acc', []) := by
  intro ss
  induction ss with
  | nil => intro i cur acc errs f h; simp [discoverLoop] at h
  | cons sec ss ih =>
    intro i cur acc errs f h
    cases sec with
    | group g => unfold discoverLoop at h; exact ih _ _ _ _ _ h
    | block l bd =>
      unfold discoverLoop at h
      obtain ⟨r, _, h⟩ := bind_ok.1 h
      split at h
      · split at h
        · obtain ⟨nl, _, h⟩ := bind_ok.1 h
          obtain ⟨pl, _, h⟩ := bind_ok.1 h
          obtain ⟨c, _, h⟩ := bind_ok.1 h
          exact ih _ _ _ _ _ h
        · exact ih _ _ _ _ _ h
      · exact ih _ _ _ _ _ h

/-- If the discovery succeeds, the label can be found. -/
theorem discover_back {b : Buf} {env : E} {label : Pat E} {F : Finder E} (hl : label.LabelExact F) {body : List (Group E)}
    {ss : List (Section E)} {i : Nat} {cur : Cursor} (w : cur.WF) (hb : cur.buf = b) (hst : cur.stop = b.length)
    {acc acc' : List BlockInfo} {errs : List Failure}
    (h : discoverLoop b.length env (.block label body :: ss) i cur acc errs = .ok (acc', [])) :
    ∃ s e env1, F env b cur.start b.length s e env1 := by
  unfold discoverLoop at h
  obtain ⟨r, hr, h⟩ := bind_ok.1 h
  obtain ⟨rfl, _⟩ := bounded_from_inv hr
  split at h
  · rename_i m hm
    split at h
    · rename_i info hinfo
      cases hrun : label.run cur.buf ⟨cur.start, cur.buf.length⟩ env with
      | mk mo env' =>
        have hok := hl.info _ _ _ _ _ hm hinfo
        rw [hrun] at hm
        simp only at hm
        subst hm
        obtain ⟨i', _, hF⟩ := hl.finds.found _ ⟨cur.start, cur.buf.length⟩ _ _ _ (by have := w.lo; simp only; rw [hb]; omega) (Nat.le_refl _) hrun hok
        simp only [hb] at hF
        exact ⟨_, _, _, hF⟩
    · exact absurd h (discoverLoop_errs _ _ _ _ _ _)
  · exact absurd h (discoverLoop_errs _ _ _ _ _ _)

/-- A labelled block of the compiled program and its checks. -/
structure BlockX (x : Pat E × List (Group E)) (y : Check E × List (Check E)) : Prop where
  label : x.1.LabelExact y.1.first
  body : BodyDen x.2 y.2

/-- The blocks which `discover_blocks` returns, in order: `cb` is the open block. -/
inductive FoundX (b : Buf) (env : E) : BlockInfo → Nat → Nat → List (Pat E × List (Group E)) →
    List (Check E × List (Check E)) → List BlockInfo → Prop
  | nil {cb i lo} : cb.stop = none → FoundX b env cb i lo [] [] [cb]
  | cons {cb i lo x y bs dbs info prevEnd eol L env1} : BlockX x y → y.1.first env b lo b.length info.start info.stop env1 →
      PrevLineEnd b info.start prevEnd → LineEnd b info.start eol →
      FoundX b env ⟨some info, ⟨i, i + 1⟩, some eol, none, b.length⟩ (i + 1) eol bs dbs L →
      FoundX b env cb i lo (x :: bs) (y :: dbs) ({ cb with stop := some prevEnd } :: L)

theorem discover_foundX_back {b : Buf} {env : E} {bs : List (Pat E × List (Group E))}
    {dbs : List (Check E × List (Check E))} (hd : List.Forall₂ BlockX bs dbs) {i : Nat} {cur : Cursor}
    (w : cur.WF) (hb : cur.buf = b) (hst : cur.stop = b.length) {cb : BlockInfo} (hcb : cb.start.isSome)
    (hcs : cb.stop = none) {acc acc' : List BlockInfo} {errs : List Failure}
    (h : discoverLoop b.length env (bs.map blockSection) i cur (cb :: acc) errs = .ok (acc', [])) :
    ∃ L, FoundX b env cb i cur.start bs dbs L ∧ acc'.reverse = acc.reverse ++ L := by
  induction hd generalizing i cur cb acc with
  | nil =>
    simp [discoverLoop] at h
    exact ⟨[cb], .nil hcs, by rw [← h.1]; simp⟩
  | @cons x y bs dbs hxy _ ih =>
    obtain ⟨s, e, env1, hF⟩ := discover_back hxy.label w hb hst h
    obtain ⟨info, pe, cur', rfl, rfl, h2, h3, w', hb', hst', heq⟩ :=
      discover_fwd hxy.label x.2 (bs.map blockSection) i w hb hst hF (cb :: acc) errs
    have hm : (x :: bs).map blockSection = .block x.1 x.2 :: bs.map blockSection := rfl
    rw [hm, heq, setPrevEnd, if_pos hcb] at h
    obtain ⟨L, hL, hacc⟩ := ih w' hb' hst' (by simp) rfl h
    exact ⟨{ cb with stop := some pe } :: L, .cons hxy hF h2 h3 hL, by rw [hacc]; simp⟩

/-- The labels can be found, one after the other. -/
inductive LabelsX (b : Buf) (env : E) : Nat → List (Check E × List (Check E)) → Prop
  | nil {lo} : LabelsX b env lo []
  | cons {lo y dbs s e env1 eol} : y.1.first env b lo b.length s e env1 → LineEnd b s eol → LabelsX b env eol dbs →
      LabelsX b env lo (y :: dbs)

theorem Spec.BlocksPass.labels {b : Buf} {enter : E → E} {env0 env : E} {lo : Nat} {ds : List (Check E)}
    {dbs : List (Check E × List (Check E))} (h : BlocksPass b enter env0 lo env ds dbs) : LabelsX b env0 lo dbs := by
  induction h with
  | last => exact .nil
  | label h1 _ _ h2 _ ih => exact .cons h1 h2 ih

theorem discover_foundX_fwd {b : Buf} {env : E} {bs : List (Pat E × List (Group E))}
    {dbs : List (Check E × List (Check E))} (hd : List.Forall₂ BlockX bs dbs) {i : Nat} {cur : Cursor}
    (w : cur.WF) (hb : cur.buf = b) (hst : cur.stop = b.length) {cb : BlockInfo} (hcb : cb.start.isSome)
    (hcs : cb.stop = none) {acc : List BlockInfo} {errs : List Failure} (h : LabelsX b env cur.start dbs) :
    ∃ acc' L, discoverLoop b.length env (bs.map blockSection) i cur (cb :: acc) errs = .ok (acc', errs) ∧
      FoundX b env cb i cur.start bs dbs L ∧ acc'.reverse = acc.reverse ++ L := by
  induction hd generalizing i cur cb acc with
  | nil => exact ⟨cb :: acc, [cb], rfl, .nil hcs, by simp⟩
  | @cons x y bs dbs hxy _ ih =>
    cases h with
    | @cons _ _ _ s e env1 eol hF heol hrest =>
      obtain ⟨info, pe, cur', rfl, rfl, h2, h3, w', hb', hst', heq⟩ :=
        discover_fwd hxy.label x.2 (bs.map blockSection) i w hb hst hF (cb :: acc) errs
      have hm : (x :: bs).map blockSection = .block x.1 x.2 :: bs.map blockSection := rfl
      rw [heol.unique h3] at hrest
      rw [setPrevEnd, if_pos hcb] at heq
      obtain ⟨acc', L, hl, hL, hacc⟩ := ih (i := i + 1) w' hb' hst' (cb := ⟨some info, ⟨i, i + 1⟩, some cur'.start, none, b.length⟩) (by simp) rfl
        (acc := { cb with stop := some pe } :: acc) hrest
      exact ⟨acc', { cb with stop := some pe } :: L, by rw [hm, heq, hl], .cons hxy hF h2 h3 hL, by rw [hacc]; simp⟩

/-! ## Checking blocks -/

theorem checkBlock_fwd {o : CheckOpts} {clear : E → E} {prog : List (Section E)} {bi : BlockInfo} {gs : List (Group E)}
    (hgs : ∀ s : St E, checkSections prog bi.sections s = checkGroups gs s) {lo hi : Nat}
    (h1 : bi.start = some lo) (h2 : bi.stop.getD bi.eof = hi) (hle : lo ≤ hi) {s : St E} {cur : Cursor}
    (hcur : s.ctx.cur.setBounds ⟨lo, hi⟩ = .ok cur) {Q : St E → Prop}
    (h : ∀ res, res.errors = s.res.errors → ∃ s', checkGroups gs ⟨⟨cur, enterEnv o clear s.ctx.env⟩, res⟩ = .ok s' ∧
      s'.res.errors = res.errors ∧ Q s') :
    ∃ s', checkBlock o.enableVarScope clear prog bi s = .ok s' ∧ s'.res.errors = s.res.errors ∧ Q s' := by
  have hr : bi.range = .ok ⟨lo, hi⟩ := by
    unfold BlockInfo.range Rng.new
    rw [h1, h2]
    simp only [Option.getD_some]
    rw [if_pos hle]
  have hkey : ∀ s0 : St E, s0.ctx = s.ctx → s0.res.errors = s.res.errors →
      ∃ s', (if bi.start.isNone = true then Except.ok s0 else do
        let r ← bi.range
        let cur ← s0.ctx.cur.setBounds r
        checkSections prog bi.sections { s0 with ctx := ⟨cur, if o.enableVarScope then clear s0.ctx.env else s0.ctx.env⟩ })
        = .ok s' ∧ s'.res.errors = s.res.errors ∧ Q s' := by
    intro s0 hs0 he0
    obtain ⟨s', h3, h4, h5⟩ := h s0.res he0
    refine ⟨s', ?_, by rw [h4, he0], h5⟩
    rw [h1]
    simp only [Option.isNone_some, Bool.false_eq_true, if_false, hr, bind, Except.bind, hs0, hcur, hgs]
    exact h3
  unfold checkBlock
  cases hl : bi.label with
  | none => exact hkey s rfl rfl
  | some info => exact hkey { s with res := s.res.addMatched info } rfl rfl

/-- The open block can be entered: it starts at the end of a label's line, or it is the block before the
first label. -/
def EnterX (b : Buf) (lo : Nat) (ds : List (Check E)) : Prop :=
  (lo = b.length ∨ IsLF b lo) ∨
  (lo = 0 ∧ HeadOk ds ∧ (∀ d ∈ ds, d.kind ≠ .count 0) ∧
    ∀ d ∈ ds, d.kind ≠ .empty → d.kind ≠ .not → ∃ p : Pat E, p.Finds d.first)

theorem FoundX.labelAt {x : Pat E × List (Group E)} {y : Check E × List (Check E)} (hx : BlockX x y) {env env1 : E} {b : Buf}
    {lo s e : Nat} (h : y.1.first env b lo b.length s e env1) : LabelAt (fun _ _ _ _ _ => True) env b lo s e := by
  obtain ⟨h1, _, h3⟩ := hx.label.finds.range _ _ _ _ _ _ _ h
  exact ⟨h1, hx.label.solid _ _ _ _ _ _ _ h, h3, hx.label.line _ _ _ _ _ _ _ h, env, trivial⟩

theorem LineEnd.enter {b : Buf} {s e : Nat} (h : LineEnd b s e) : e = b.length ∨ IsLF b e := by
  rcases h with ⟨_, hh, _⟩ | ⟨_, hh⟩
  · exact Or.inr hh
  · exact Or.inl hh

theorem Spec.PrevLineEnd.unique {b : Buf} {s e e' : Nat} (h : PrevLineEnd b s e) (h' : PrevLineEnd b s e') : e = e' := by
  rcases h with ⟨h1, h2, h3⟩ | ⟨h, rfl⟩
  · rcases h' with ⟨k1, k2, k3⟩ | ⟨h', rfl⟩
    · rcases Nat.lt_trichotomy e e' with hlt | heq | hlt
      · exact absurd k2 (h3 _ hlt k1)
      · exact heq
      · exact absurd h2 (k3 _ hlt h1)
    · exact absurd h2 (h' _ (Nat.zero_le _) h1)
  · rcases h' with ⟨k1, k2, k3⟩ | ⟨h', rfl⟩
    · exact absurd k2 (h _ (Nat.zero_le _) k1)
    · rfl

theorem degenerate_bounds {c cur : Cursor} (h : c.setBounds ⟨0, 0⟩ = .ok cur) :
    Degenerate cur ∧ cur.crlf = c.crlf ∧ cur.buf = c.buf := by
  unfold Cursor.setBounds at h
  rw [bounded_ok (Nat.le_refl _) (Nat.zero_le _)] at h
  simp only [bind, Except.bind] at h
  split at h
  · simp at h
  · simp at h; subst h; exact ⟨⟨rfl, rfl⟩, rfl, rfl⟩

theorem degenerate_bounds_ok (c : Cursor) (hlf : c.crlf = false) : ∃ cur, c.setBounds ⟨0, 0⟩ = .ok cur := by
  unfold Cursor.setBounds
  rw [bounded_ok (Nat.le_refl _) (Nat.zero_le _)]
  obtain ⟨r, hr, _⟩ := Cursor.nextNewlineFrom_ok (c := { c with start := 0, stop := 0 }) hlf (s := 0) (Nat.zero_le _)
  simp only [bind, Except.bind, hr]
  exact ⟨_, rfl⟩

theorem foundX_back {o : CheckOpts} {clear : E → E} {b : Buf} {env0 : E} {cb : BlockInfo} {i lo : Nat}
    {bs : List (Pat E × List (Group E))} {dbs : List (Check E × List (Check E))} {L : List BlockInfo}
    (hF : FoundX b env0 cb i lo bs dbs L) {prog pre : List (Section E)} (hprog : prog = pre ++ bs.map blockSection)
    (hpre : pre.length = i) (hcb : cb.start = some lo) (heof : cb.eof = b.length) {gs : List (Group E)}
    {ds : List (Check E)} (hgs : BodyDen gs ds)
    (hsec : ∀ s : St E, checkSections prog cb.sections s = checkGroups gs s) (hlo : lo ≤ b.length)
    (hent : bs ≠ [] → EnterX b lo ds) {s s' : St E} (hlf : s.ctx.cur.crlf = false) (hb : s.ctx.cur.buf = b)
    (h : checkBlocks o.enableVarScope clear prog L s = .ok s') (he : s'.res.errors = s.res.errors) :
    BlocksPass b (enterEnv o clear) env0 lo s.ctx.env ds dbs := by
  induction hF generalizing pre gs ds s with
  | nil hstop =>
    rw [checkBlocks] at h
    obtain ⟨s1, h1, h2⟩ := bind_ok.1 h
    simp [checkBlocks] at h2
    subst h2
    obtain ⟨cur, res, hcur, hres, hrun⟩ := checkBlock_run hsec hcb rfl h1
    rw [hstop, heof] at hcur
    simp only [Option.getD_none] at hcur
    obtain ⟨cur', hcur', w, k1, k2, k3⟩ := Cursor.setBounds_wf hlf (s := _) (e := b.length) hlo (by rw [hb]; exact Nat.le_refl _)
      (Or.inl (by rw [hb]))
    rw [hcur] at hcur'
    simp at hcur'
    subst hcur'
    have := (body_back hgs w hrun (by rw [he]; exact hres.symm)).2.2
    simp only at this
    rw [k1, k2, k3, hb] at this
    exact .last this
  | @cons cb i lo x y bs dbs info pe eol L env1 hx hlab hpe heol hF ih =>
    rw [checkBlocks] at h
    obtain ⟨s1, h1, h2⟩ := bind_ok.1 h
    have e1 := checkBlock_err h1
    have e2 := checkBlocks_err (fun bi _ s s' h => checkBlock_err h) h2
    obtain ⟨q1, q2⟩ := ErrLe.squeeze e1 e2 he
    obtain ⟨cur, res, hcur, hres, hrun⟩ := checkBlock_run (bi := { cb with stop := some pe }) hsec hcb rfl h1
    simp only [Option.getD_some] at hcur
    have hla := FoundX.labelAt hx hlab
    have hsl := hla.2.1
    have hel := hla.2.2.1
    have hpel := hpe.le (by omega)
    obtain ⟨hl1, hl2⟩ := heol.le (by omega)
    have hnext : ∀ {env'}, s1.ctx.cur.crlf = false → s1.ctx.cur.buf = b → s1.ctx.env = env' →
        BlockPasses b lo pe (enterEnv o clear s.ctx.env) ds env' →
        BlocksPass b (enterEnv o clear) env0 lo s.ctx.env ds (y :: dbs) := by
      intro env' g1 g2 g3 g5
      subst g3
      refine .label hlab hpe g5 heol ?_
      refine ih (pre := pre ++ [blockSection x]) (by rw [hprog]; simp) (by simp [hpre]) rfl rfl hx.body ?_ hl2 ?_ g1 g2 h2 q2
      · intro s
        refine checkSections_block (p := x.1) ?_ s
        rw [hprog, ← hpre]
        simp
      · exact fun _ => Or.inl (LineEnd.enter heol)
    have hregular : LastLF b info.start pe → lo ≤ pe → BlocksPass b (enterEnv o clear) env0 lo s.ctx.env ds (y :: dbs) := by
      intro hlast hle
      obtain ⟨cur', hcur', w, k1, k2, k3⟩ := Cursor.setBounds_wf hlf (s := lo) (e := pe) hle (by rw [hb]; exact hpel)
        (Or.inr (by rw [hb]; exact block_bend hla hlast))
      rw [hcur] at hcur'
      simp at hcur'
      subst hcur'
      obtain ⟨w', hb', hr⟩ := body_back hgs w hrun (by rw [q1]; exact hres.symm)
      simp only at hr hb'
      rw [k1, k2, k3, hb] at hr
      exact hnext w'.lf (by rw [hb', k3, hb]) rfl hr
    rcases hent (by simp) with hent | ⟨rfl, hh, _⟩
    · obtain ⟨hlast, hle⟩ := next_label_after hla hent hpe
      exact hregular hlast hle
    · rcases hpe with hlast | ⟨hno, rfl⟩
      · exact hregular hlast (Nat.zero_le _)
      · obtain ⟨hdeg, hc1, hc2⟩ := degenerate_bounds hcur
        obtain ⟨k1, k2⟩ := body_degenerate_back hgs hh (s := ⟨⟨cur, enterEnv o clear s.ctx.env⟩, res⟩)
          hdeg hrun (by rw [q1]; exact hres.symm)
        simp only at k2
        rw [hc2, hb] at k2
        exact hnext (by rw [k1]; simp only; rw [hc1, hlf]) (by rw [k1]; simp only; rw [hc2, hb]) rfl k2

theorem foundX_fwd {o : CheckOpts} {clear : E → E} {b : Buf} {env0 : E} {cb : BlockInfo} {i lo : Nat}
    {bs : List (Pat E × List (Group E))} {dbs : List (Check E × List (Check E))} {L : List BlockInfo}
    (hF : FoundX b env0 cb i lo bs dbs L) {prog pre : List (Section E)} (hprog : prog = pre ++ bs.map blockSection)
    (hpre : pre.length = i) (hcb : cb.start = some lo) (heof : cb.eof = b.length) {gs : List (Group E)}
    {ds : List (Check E)} (hgs : BodyDen gs ds)
    (hsec : ∀ s : St E, checkSections prog cb.sections s = checkGroups gs s) (hlo : lo ≤ b.length)
    (hent : bs ≠ [] → EnterX b lo ds) {s : St E} (hlf : s.ctx.cur.crlf = false) (hb : s.ctx.cur.buf = b)
    (h : BlocksPass b (enterEnv o clear) env0 lo s.ctx.env ds dbs) :
    ∃ s', checkBlocks o.enableVarScope clear prog L s = .ok s' ∧ s'.res.errors = s.res.errors := by
  induction hF generalizing pre gs ds s with
  | @nil cb i lo hstop =>
    cases h with
    | last h =>
      obtain ⟨cur, hcur, w, k1, k2, k3⟩ := Cursor.setBounds_wf hlf (s := lo) (e := b.length) hlo (by rw [hb]; exact Nat.le_refl _)
        (Or.inl (by rw [hb]))
      obtain ⟨s1, h1, he1, _⟩ := checkBlock_fwd (o := o) (clear := clear) (Q := fun _ => True) hsec hcb (hi := b.length)
        (by rw [hstop, heof]; rfl) hlo hcur (by
          intro res _
          obtain ⟨s', g1, g2, _⟩ := body_fwd hgs (s := ⟨⟨cur, enterEnv o clear s.ctx.env⟩, res⟩) w
            (by simp only; rw [k1, k2, k3, hb]; exact h)
          exact ⟨s', g1, g2, trivial⟩)
      exact ⟨s1, by simp only [checkBlocks, h1, bind, Except.bind], he1⟩
  | @cons cb i lo x y bs dbs info pe eol L env1 hx hlab hpe heol hF ih =>
    have hla := FoundX.labelAt hx hlab
    have hsl := hla.2.1
    have hel := hla.2.2.1
    have hpel := hpe.le (by omega)
    obtain ⟨hl1, hl2⟩ := heol.le (by omega)
    cases h with
    | @label _ _ _ _ _ _ s0 e0 hi eol' _ env' hF' hpe' hpass heol' hrest =>
      obtain ⟨rfl, rfl, _⟩ := hx.label.finds.unique hlo (Nat.le_refl _) hF' hlab
      obtain rfl := heol'.unique heol
      obtain rfl := hpe'.unique hpe
      have hnext : (∃ s1, checkBlock o.enableVarScope clear prog { cb with stop := some hi } s = .ok s1 ∧
          s1.res.errors = s.res.errors ∧ (s1.ctx.cur.crlf = false ∧ s1.ctx.cur.buf = b ∧ s1.ctx.env = env')) →
          ∃ s', checkBlocks o.enableVarScope clear prog ({ cb with stop := some hi } :: L) s = .ok s' ∧
            s'.res.errors = s.res.errors := by
        rintro ⟨s1, h1, he1, g1, g2, rfl⟩
        obtain ⟨s2, h2, he2⟩ := ih (pre := pre ++ [blockSection x]) (by rw [hprog]; simp) (by simp [hpre]) rfl rfl hx.body
          (fun s => checkSections_block (p := x.1) (by rw [hprog, ← hpre]; simp) s) hl2
          (fun _ => Or.inl (LineEnd.enter heol)) g1 g2 hrest
        exact ⟨s2, by simp only [checkBlocks, h1, bind, Except.bind, h2], by rw [he2, he1]⟩
      have hregular : LastLF b info.start hi → lo ≤ hi →
          ∃ s', checkBlocks o.enableVarScope clear prog ({ cb with stop := some hi } :: L) s = .ok s' ∧
            s'.res.errors = s.res.errors := by
        intro hlast hle
        obtain ⟨cur, hcur, w, k1, k2, k3⟩ := Cursor.setBounds_wf hlf (s := lo) (e := hi) hle (by rw [hb]; exact hpel)
          (Or.inr (by rw [hb]; exact block_bend hla hlast))
        refine hnext (checkBlock_fwd (bi := { cb with stop := some hi }) hsec hcb rfl hle hcur ?_)
        intro res _
        obtain ⟨s', g1, g2, w', g3, g4⟩ := body_fwd hgs (s := ⟨⟨cur, enterEnv o clear s.ctx.env⟩, res⟩) w
            (by simp only; rw [k1, k2, k3, hb]; exact hpass)
        exact ⟨s', g1, g2, w'.lf, by rw [g3]; simp only; rw [k3, hb], g4⟩
      rcases hent (by simp) with hent | ⟨rfl, hh, hcz, hr⟩
      · obtain ⟨hlast, hle⟩ := next_label_after hla hent hpe
        exact hregular hlast hle
      · rcases hpe with hlast | ⟨hno, rfl⟩
        · exact hregular hlast (Nat.zero_le _)
        · obtain ⟨cur, hcur⟩ := degenerate_bounds_ok s.ctx.cur hlf
          obtain ⟨hdeg, hc1, hc2⟩ := degenerate_bounds hcur
          have hk : ∀ d ∈ ds, d.kind = .not := by
            obtain ⟨pos, nots, hg, _⟩ := hpass
            refine hh.only_nots (b := b) ?_ hcz hg
            intro d hd k1 k2 env lo hi s e env' hFd
            obtain ⟨p, hp⟩ := hr d hd k1 k2
            exact hp.range _ _ _ _ _ _ _ hFd
          refine hnext (checkBlock_fwd (bi := { cb with stop := some 0 }) hsec hcb rfl (Nat.le_refl _) hcur ?_)
          intro res _
          obtain ⟨s', g1, g2, g3, g4⟩ := body_degenerate_fwd hgs hk (s := ⟨⟨cur, enterEnv o clear s.ctx.env⟩, res⟩) hdeg
            (env' := env') (by simp only; rw [hc2, hb]; exact hpass)
          exact ⟨s', g1, g2, by rw [g3]; simp only; rw [hc1, hlf], by rw [g3]; simp only; rw [hc2, hb], by rw [g3]; exact g4⟩

end Litcheck
