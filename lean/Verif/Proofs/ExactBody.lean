import Verif.Proofs.ExactGroups
import Verif.Proofs.Program

/-!
# The blocks of a check file take first matches, exactly
-/

namespace Litcheck
open Spec
variable {E : Type}

/-- The checks which a list of groups stands for. -/
def GsDen (gs : List (Group E)) (ds : List (Check E)) : Prop :=
  ∃ dss, List.Forall₂ GDen gs dss ∧ ds = dss.flatten

/-- The checks which the groups of a block stand for: only the last group may end with `CHECK-NOT`s. -/
inductive BodyDen : List (Group E) → List (Check E) → Prop
  | nil : BodyDen [] []
  | cons {g d gs ds} : GDen g d → BodyDen gs ds → BodyDen (g :: gs) (d ++ ds)
  | never {p nd} : (∀ d ∈ nd, d.kind = .not) → nd ≠ [] → p.Decides (nd.map Check.mean) → BodyDen [.never p] nd
  | before {p t dl nd} : (∀ d ∈ nd, d.kind = .not) → p.Decides (nd.map Check.mean) → TDen t dl →
      BodyDen [.tree (.matchBefore p t)] (dl ++ nd)

theorem GsDen.nil : GsDen ([] : List (Group E)) [] := ⟨[], .nil, rfl⟩

theorem GsDen.snoc {gs : List (Group E)} {ds dg : List (Check E)} {g : Group E} (h : GsDen gs ds)
    (hg : GDen g dg) : GsDen (gs ++ [g]) (ds ++ dg) := by
  obtain ⟨dss, hf, rfl⟩ := h
  exact ⟨dss ++ [dg], List.rel_append hf (.cons hg .nil), by simp⟩

theorem GsDen.unsnoc {gs : List (Group E)} {g : Group E} {ds : List (Check E)} (h : GsDen (gs ++ [g]) ds) :
    ∃ d1 d2, GsDen gs d1 ∧ GDen g d2 ∧ ds = d1 ++ d2 := by
  obtain ⟨dss, hf, rfl⟩ := h
  induction gs generalizing dss with
  | nil =>
    cases hf with
    | cons h1 h2 => cases h2; exact ⟨[], _, GsDen.nil, h1, by simp⟩
  | cons x xs ih =>
    cases hf with
    | cons h1 h2 =>
      obtain ⟨d1, d2, ⟨e, he, hee⟩, h4, h5⟩ := ih _ h2
      exact ⟨_, d2, ⟨_ :: e, .cons h1 he, rfl⟩, h4, by simp [hee, h5]⟩

theorem GsDen.body {gs gs' : List (Group E)} {ds ds' : List (Check E)} (h : GsDen gs ds) (h' : BodyDen gs' ds') :
    BodyDen (gs ++ gs') (ds ++ ds') := by
  obtain ⟨dss, hf, rfl⟩ := h
  induction hf with
  | nil => simpa using h'
  | cons hg _ ih => rw [List.flatten_cons, List.append_assoc]; exact .cons hg ih

theorem popLeft_gs {gs : List (Group E)} {ds : List (Check E)} (h : GsDen gs ds) :
    (∃ d1 t d2, (popLeft gs).2 = some t ∧ GsDen (popLeft gs).1 d1 ∧ TDen t d2 ∧ ds = d1 ++ d2) ∨
    ((popLeft gs).2 = none ∧ (popLeft gs).1 = gs) := by
  unfold popLeft
  split
  · rename_i t ht
    left
    obtain ⟨ys, rfl⟩ := List.getLast?_eq_some_iff.1 ht
    obtain ⟨d1, d2, h1, h2, h3⟩ := h.unsnoc
    refine ⟨d1, t, d2, rfl, by simpa using h1, ?_, h3⟩
    cases h2 with
    | tree h2 => exact h2
  · rename_i d hd
    obtain ⟨ys, rfl⟩ := List.getLast?_eq_some_iff.1 hd
    obtain ⟨d1, d2, h1, h2, h3⟩ := h.unsnoc
    cases h2
  · right; exact ⟨rfl, rfl⟩

/-- The checks of the groups compiled so far, with the `CHECK-NOT`s which wait for their right-hand side. -/
def PendGs (gs : List (Group E)) (p : Pending E) (ds : List (Check E)) : Prop :=
  match p with
  | none => GsDen gs ds
  | some (none, root) => ∃ d1 nd, GsDen gs d1 ∧ (∀ d ∈ nd, d.kind = .not) ∧ root.Decides (nd.map Check.mean) ∧ ds = d1 ++ nd
  | some (some t, root) => ∃ d1 d2 nd, GsDen gs d1 ∧ TDen t d2 ∧ (∀ d ∈ nd, d.kind = .not) ∧
      root.Decides (nd.map Check.mean) ∧ ds = d1 ++ (d2 ++ nd)

theorem pushGroup_gs {gs : List (Group E)} {p : Pending E} {ds dg : List (Check E)} {g : Group E}
    (h : PendGs gs p ds) (hg : GDen g dg) : GsDen (pushGroup gs p g) (ds ++ dg) := by
  match p, h with
  | none, h => exact GsDen.snoc h hg
  | some (none, root), h =>
    obtain ⟨d1, nd, h1, hk, h2, rfl⟩ := h
    rw [List.append_assoc]
    exact h1.snoc (.tree (.matchAfter hk h2 (.matchAll hg)))
  | some (some t, root), h =>
    obtain ⟨d1, d2, nd, h1, ht, hk, h2, rfl⟩ := h
    rw [List.append_assoc, List.append_assoc]
    exact h1.snoc (.tree (.matchAround hk h2 ht (.matchAll hg)))

/-- The check of a line. -/
def Line.check (first : Line E → Finder E) (mean : Line E → Meaning E) (l : Line E) : Check E := ⟨l.kind, first l, mean l⟩

/-- What is assumed of the patterns of a check file.  `good` is a property of lists of consecutive lines. -/
structure Exactly (sc : SetCompiler E) (first : Line E → Finder E) (mean : Line E → Meaning E)
    (good : List (Line E) → Prop) : Prop where
  ofInfix : ∀ a b c, good (a ++ b ++ c) → good b
  pat : ∀ l : Line E, good [l] → l.kind ≠ .empty → l.kind ≠ .not → l.pat.Finds (first l)
  solid : ∀ l : Line E, good [l] → l.kind = .next ∨ l.kind = .same ∨ l.kind = .label → Solid (first l)
  nots : ∀ ls p, good ls → (∀ l ∈ ls, l.kind = .not) → sc.nots ls = .ok (some p) → p.Decides (ls.map mean)

section
variable {sc : SetCompiler E} {first : Line E → Finder E} {mean : Line E → Meaning E} {good : List (Line E) → Prop}

theorem Exactly.ofPrefix (hc : Exactly sc first mean good) {a b : List (Line E)} (h : good (a ++ b)) : good a :=
  hc.ofInfix [] a b (by simpa using h)

theorem Exactly.ofSuffix (hc : Exactly sc first mean good) {a b : List (Line E)} (h : good (a ++ b)) : good b :=
  hc.ofInfix a b [] (by simpa using h)

theorem Exactly.mem (hc : Exactly sc first mean good) {ls : List (Line E)} (h : good ls) {l : Line E} (hl : l ∈ ls) :
    good [l] := by
  obtain ⟨a, c, rfl⟩ := List.append_of_mem hl
  exact hc.ofInfix a [l] c (by simpa using h)

theorem compileRule_exact (hc : Exactly sc first mean good) {l : Line E} (hg : good [l])
    (hk : l.kind = .plain ∨ l.kind = .next ∨ l.kind = .same ∨ l.kind = .empty) :
    Rule.Exact (compileRule l) (l.check first mean) := by
  have hp := hc.pat l hg
  have hs := hc.solid l hg
  unfold compileRule
  rcases hk with h | h | h | h <;> simp only [h] at hp hs ⊢
  · exact .plain (by simp [Line.check, h]) (hp (by simp) (by simp))
  · exact .next (by simp [Line.check, h]) (hp (by simp) (by simp)) (hs (by simp))
  · exact .same (by simp [Line.check, h]) (hp (by simp) (by simp)) (hs (by simp))
  · exact .empty (by simp [Line.check, h])

/-- The groups of a block without `CHECK-DAG` stand for its lines, in order. -/
theorem compileBody_exact (hc : Exactly sc first mean good) :
    ∀ (fuel : Nat) (body : List (Line E)) (gs : List (Group E)) (p : Pending E) (ds : List (Check E))
      (gs' : List (Group E)),
      good body → (∀ l ∈ body, l.kind ≠ .label) → (∀ l ∈ body, l.kind ≠ .count 0) → (∀ l ∈ body, l.kind ≠ .dag) →
      PendGs gs p ds → compileBody sc fuel body gs p = .ok (.ok (gs', none)) →
      BodyDen gs' (ds ++ body.map (Line.check first mean)) := by
  intro fuel
  have hnil : ∀ (fuel : Nat) (gs : List (Group E)) (p : Pending E) (ds : List (Check E)) (gs' : List (Group E)),
      PendGs gs p ds → compileBody sc fuel [] gs p = .ok (.ok (gs', none)) → BodyDen gs' ds := by
    intro fuel gs p ds gs' hd h
    simp [compileBody] at h
    obtain ⟨rfl, rfl⟩ := h
    have := GsDen.body hd (BodyDen.nil)
    simpa using this
  induction fuel with
  | zero =>
    intro body gs p ds gs' hgood hl hcz hdg hd h
    cases body with
    | nil => simpa using hnil _ _ _ _ _ hd h
    | cons l ls => simp [compileBody] at h
  | succ fuel ih =>
    intro body gs p ds gs' hgood hl hcz hdg hd h
    cases body with
    | nil => simpa using hnil _ _ _ _ _ hd h
    | cons line body =>
      have hlb : ∀ l ∈ body, l.kind ≠ .label := fun l h => hl l (by simp [h])
      have hcb : ∀ l ∈ body, l.kind ≠ .count 0 := fun l h => hcz l (by simp [h])
      have hdb : ∀ l ∈ body, l.kind ≠ .dag := fun l h => hdg l (by simp [h])
      unfold compileBody at h
      split at h
      · -- CHECK-NOT
        rename_i hk
        split at h
        · simp at h
        · rename_i hpn
          have hpn : p = none := by cases p <;> simp_all
          subst hpn
          split at h
          · simp at h
          · simp at h
          · rename_i matcher hm
            have hsplit : line :: body = (line :: body.takeWhile Line.isNot) ++ body.dropWhile Line.isNot := by
              simp [List.takeWhile_append_dropWhile]
            have hnk : ∀ l ∈ line :: body.takeWhile Line.isNot, l.kind = .not := by
              intro l hl'
              rcases List.mem_cons.1 hl' with rfl | hl'
              · exact hk
              · have := mem_takeWhile hl'; simpa [Line.isNot] using this
            have hsub : ∀ l ∈ body.dropWhile Line.isNot, l ∈ body := fun l h => (List.dropWhile_suffix _).mem h
            have hcomp := hc.nots _ _ (hc.ofPrefix (hsplit ▸ hgood)) hnk hm
            have hgrest := hc.ofSuffix (hsplit ▸ hgood)
            have hpop := popLeft_gs hd
            have hmm : (line :: body.takeWhile Line.isNot).map mean =
                ((line :: body.takeWhile Line.isNot).map (Line.check first mean)).map Check.mean := by
              rw [List.map_map]; rfl
            have hnk' : ∀ d ∈ (line :: body.takeWhile Line.isNot).map (Line.check first mean), d.kind = .not := by
              intro d hd
              obtain ⟨l, hl, rfl⟩ := List.mem_map.1 hd
              exact hnk l hl
            have hnn : (line :: body.takeWhile Line.isNot).map (Line.check first mean) ≠ [] := by simp
            rw [hmm] at hcomp
            rw [hsplit, List.map_append, ← List.append_assoc]
            generalize (line :: List.takeWhile Line.isNot body).map (Line.check first mean) = nd at *
            dsimp only at h
            split at h
            · -- nothing follows
              rename_i hemp
              have hrest : List.dropWhile Line.isNot body = [] := by simpa using hemp
              rw [hrest] at h ⊢
              simp only [List.map_nil, List.append_nil]
              rcases hpop with ⟨d1, t, d2, hp2, hp1, ht, rfl⟩ | ⟨hp2, hp1⟩
              · rw [hp2] at h
                simp [compileBody] at h
                subst h
                rw [List.append_assoc]
                exact hp1.body (.before hnk' hcomp ht)
              · rw [hp2] at h
                simp [compileBody] at h
                subst h
                rw [hp1]
                exact GsDen.body hd (.never hnk' hnn hcomp)
            · refine ih _ _ _ _ _ hgrest (fun l h => hlb l (hsub l h)) (fun l h => hcb l (hsub l h)) (fun l h => hdb l (hsub l h)) ?_ h
              rcases hpop with ⟨d1, t, d2, hp2, hp1, ht, rfl⟩ | ⟨hp2, hp1⟩
              · rw [hp2]; exact ⟨d1, d2, _, hp1, ht, hnk', hcomp, by simp⟩
              · rw [hp2, hp1]; exact ⟨ds, _, hd, hnk', hcomp, rfl⟩
      · -- CHECK-DAG
        rename_i hk
        exact absurd hk (hdg line (by simp))
      · -- CHECK-COUNT
        rename_i n hk
        have hn : 1 ≤ n := by
          rcases Nat.eq_zero_or_pos n with h0 | h0
          · subst h0; exact absurd hk (hcz line (by simp))
          · exact h0
        have hcr : compileRule line = .plain line.pat := by unfold compileRule; rw [hk]
        have hg : GDen (.repeated (compileRule line) n) [line.check first mean] := by
          rw [hcr]
          exact .repeated (by simp [Line.check, hk]) (hc.pat line (hc.mem hgood (by simp)) (by simp [hk]) (by simp [hk])) hn
        have := ih _ _ _ _ _ (hc.ofSuffix (a := [line]) (by simpa using hgood)) hlb hcb hdb (show PendGs _ none _ from pushGroup_gs hd hg) h
        simpa using this
      · -- CHECK, CHECK-NEXT, CHECK-SAME, CHECK-EMPTY
        rename_i hk1 hk2 hk3
        have hsplit : line :: body = (line :: body.takeWhile (fun l => !l.endsOrdered)) ++
            body.dropWhile (fun l => !l.endsOrdered) := by
          simp [List.takeWhile_append_dropWhile]
        have hnk : ∀ l ∈ line :: body.takeWhile (fun l => !l.endsOrdered),
            l.kind = .plain ∨ l.kind = .next ∨ l.kind = .same ∨ l.kind = .empty := by
          intro l hl'
          have hlab : l.kind ≠ .label := by
            rcases List.mem_cons.1 hl' with rfl | hl'
            · exact hl _ (by simp)
            · exact hlb l ((List.takeWhile_prefix _).mem hl')
          rcases List.mem_cons.1 hl' with rfl | hl'
          · revert hlab hk1 hk2 hk3
            generalize l.kind = k
            cases k <;> simp
          · have := mem_takeWhile hl'
            unfold Line.endsOrdered at this
            revert hlab this
            generalize l.kind = k
            cases k <;> simp
        have hsub : ∀ l ∈ body.dropWhile (fun l => !l.endsOrdered), l ∈ body :=
          fun l h => (List.dropWhile_suffix _).mem h
        dsimp only at h
        have hg : GDen (.ordered ((line :: body.takeWhile (fun l => !l.endsOrdered)).map compileRule))
            ((line :: body.takeWhile (fun l => !l.endsOrdered)).map (Line.check first mean)) := by
          refine .ordered (by simp) (forall2_map ?_)
          intro l hl'
          exact compileRule_exact hc (hc.mem hgood (by rw [hsplit]; exact List.mem_append_left _ hl')) (hnk l hl')
        have := ih _ _ _ _ _ (hc.ofSuffix (hsplit ▸ hgood)) (fun l h => hlb l (hsub l h)) (fun l h => hcb l (hsub l h))
          (fun l h => hdb l (hsub l h)) (show PendGs _ none _ from pushGroup_gs hd hg) h
        rw [hsplit, List.map_append, ← List.append_assoc]
        exact this

end

/-! ## Checking the groups of a block -/

theorem checkOne_matched {g : Group E} {s s1 : St E} {ms : List Matches} (h : checkGroup g s = .ok (.matched ms, s1))
    (hok : ∀ m ∈ ms, Matches.isOk m = true) (he : s1.res.errors = s.res.errors) :
    ∃ s', checkOne g s = .ok s' ∧ s'.res.errors = s.res.errors ∧ s'.ctx = s1.ctx := by
  refine ⟨{ s1 with res := s1.res.appendAll ms }, by simp only [checkOne, h, bind, Except.bind], ?_, rfl⟩
  dsimp only
  rw [appendAll_errors, he]
  have : ms.flatten.filterMap MatchResult.failure? = [] := by
    rw [List.filterMap_eq_nil_iff]
    intro x hx
    obtain ⟨m, hm, hx⟩ := List.mem_flatten.1 hx
    have := hok m hm
    unfold Matches.isOk at this
    rw [List.all_eq_true] at this
    exact failure?_none.2 (this x hx)
  simp [this]

theorem Spec.Greedy.only_nots {b : Buf} {hi pos : Nat} {env : E} {nd : List (Check E)} (hk : ∀ d ∈ nd, d.kind = .not) :
    Greedy b hi pos env [] nd pos env (nd.map Check.mean) := by
  have := (Greedy.nots_iff (b := b) (hi := hi) (pos := pos) (env := env) (nots := []) (nd := nd) (ds := [])
    (pos' := pos) (env' := env) (nots' := nd.map Check.mean) hk).2 (by simpa using Greedy.nil)
  simpa using this

theorem Spec.Greedy.only_nots_inv {b : Buf} {hi pos pos' : Nat} {env env' : E} {nots nots' : List (Meaning E)}
    {nd : List (Check E)} (hk : ∀ d ∈ nd, d.kind = .not) (h : Greedy b hi pos env nots nd pos' env' nots') :
    pos' = pos ∧ env' = env ∧ nots' = nots ++ nd.map Check.mean := by
  have := (Greedy.nots_iff (nd := nd) (ds := []) hk).1 (by simpa using h)
  exact this.nil_inv

theorem body_back {gs : List (Group E)} {ds : List (Check E)} (hd : BodyDen gs ds) {s s' : St E} (w : s.ctx.cur.WF)
    (h : checkGroups gs s = .ok s') (he : s'.res.errors = s.res.errors) :
    s'.ctx.cur.WF ∧ s'.ctx.cur.buf = s.ctx.cur.buf ∧
      BlockPasses s.ctx.cur.buf s.ctx.cur.start s.ctx.cur.stop s.ctx.env ds s'.ctx.env := by
  induction hd generalizing s with
  | nil =>
    simp [checkGroups] at h
    subst h
    exact ⟨w, rfl, _, _, .nil, AllAbsent.nil⟩
  | cons hg _ ih =>
    unfold checkGroups at h
    obtain ⟨s1, h1, h2⟩ := bind_ok.1 h
    obtain ⟨q1, q2⟩ := ErrLe.squeeze (checkOne_err h1) (checkGroups_err h2) he
    obtain ⟨gr, s2, h3, hc, hctx⟩ := checkOne_clean h1 q1
    obtain ⟨ms, a, rfl, g⟩ := checkGroup_back _ hg w h3 hc
    obtain ⟨w', hb, pos, nots, hgr, hab⟩ := ih (by rw [hctx]; exact g.wf) h2 q2
    rw [hctx] at hb hgr hab
    rw [g.buf] at hb hgr hab
    rw [g.stop] at hgr hab
    exact ⟨w', hb, pos, nots, (g.run [] AllAbsent.nil).append hgr, hab⟩
  | @never p nd hk _ hp =>
    unfold checkGroups at h
    obtain ⟨s1, h1, h2⟩ := bind_ok.1 h
    simp [checkGroups] at h2
    subst h2
    obtain ⟨gr, s2, h3, hc, hctx⟩ := checkOne_clean h1 he
    rw [checkGroup] at h3
    unfold checkNever at h3
    rw [Cursor.searchBlock_wf w] at h3
    simp only [bind, Except.bind] at h3
    cases hn : checkNot p ⟨s.ctx.cur.start, s.ctx.cur.stop⟩ s with
    | error e => rw [hn] at h3; simp at h3
    | ok x =>
      obtain ⟨nr, s3⟩ := x
      rw [hn] at h3
      simp only at h3
      cases nr with
      | found i =>
        simp at h3
        have := hc.ok [notFoundFailure] (by rw [← h3.1]; simp [GR.matches])
        simp [Matches.isOk, notFoundFailure, MatchResult.failed, MatchResult.isOk, MatchType.isOk] at this
      | err => simp at h3; exact absurd h3.1.symm (hc.noErr _)
      | passed n =>
        simp at h3
        unfold checkNot at hn
        split at hn
        · simp at hn
        · rename_i m env' hrun
          dsimp only at hn
          split at hn
          · simp at hn
          · simp at hn
          · rename_i hm
            simp at hn
            obtain ⟨he, ha⟩ := hp.complete _ _ _ _ _ hrun hm
            have hctx : s1.ctx = s.ctx := by rw [hctx, ← h3.2, pass_ctx, ← hn.2]; simp [he]
            rw [hctx]
            exact ⟨w, rfl, _, _, Greedy.only_nots hk, ha⟩
  | @before p t dl nd hk hp ht =>
    unfold checkGroups at h
    obtain ⟨s1, h1, h2⟩ := bind_ok.1 h
    simp [checkGroups] at h2
    subst h2
    obtain ⟨gr, s2, h3, hc, hctx⟩ := checkOne_clean h1 he
    rw [checkGroup] at h3
    obtain ⟨gl, s3, h4, hcl⟩ := before_left_clean h3 hc
    obtain ⟨lms, a, rfl, g⟩ := checkTree_back t ht w h4 hcl
    rw [checkTree, h4] at h3
    obtain ⟨_, hq, h3⟩ := bind_ok.1 h3
    cases hq
    obtain ⟨_, hq, h3⟩ := bind_ok.1 h3
    rw [show expectNoErr (GR.matched lms, s3) = .ok (true, lms, s3) from rfl] at hq
    cases hq
    simp only [afterBefore] at h3
    obtain ⟨_, _, h3⟩ := bind_ok.1 h3
    rw [Cursor.searchBlock_wf g.wf] at h3
    obtain ⟨_, hq, h3⟩ := bind_ok.1 h3
    cases hq
    obtain ⟨⟨ex, s4⟩, hex, h3⟩ := bind_ok.1 h3
    simp only [Except.ok.injEq, Prod.mk.injEq] at h3
    obtain ⟨hgr, hs2⟩ := h3
    obtain ⟨_, hctx4, hab⟩ := excl_ok hp.complete hex (by
      intro m hm
      exact hc.ok m (by rw [← hgr]; simp [GR.matches, hm]))
    have hcc : s1.ctx = s3.ctx := by rw [hctx, ← hs2, hctx4]
    rw [hcc]
    dsimp only at hab
    rw [g.buf, g.stop] at hab
    refine ⟨g.wf, g.buf, _, _, (g.run [] AllAbsent.nil).append ?_, hab⟩
    exact Greedy.only_nots hk

theorem body_fwd {gs : List (Group E)} {ds : List (Check E)} (hd : BodyDen gs ds) {s : St E} (w : s.ctx.cur.WF)
    {env' : E} (h : BlockPasses s.ctx.cur.buf s.ctx.cur.start s.ctx.cur.stop s.ctx.env ds env') :
    ∃ s', checkGroups gs s = .ok s' ∧ s'.res.errors = s.res.errors ∧ s'.ctx.cur.WF ∧ s'.ctx.cur.buf = s.ctx.cur.buf ∧
      s'.ctx.env = env' := by
  obtain ⟨pos, nots, h, hab⟩ := h
  induction hd generalizing s with
  | nil =>
    obtain ⟨rfl, rfl, rfl⟩ := h.nil_inv
    exact ⟨s, rfl, rfl, w, rfl, rfl⟩
  | cons hg _ ih =>
    obtain ⟨p1, env1, n1, h1, h2⟩ := h.split
    obtain ⟨ms, s1, a, hrun, g, -, rfl, rfl, rfl⟩ := checkGroup_fwd _ hg w h1
    obtain ⟨s2, hone, he2, hctx⟩ := checkOne_matched hrun g.oks g.errs
    rw [← g.buf, ← g.stop, ← hctx] at h2 hab
    obtain ⟨s3, hrest, he3, w3, hb3, henv⟩ := ih (by rw [hctx]; exact g.wf) h2 hab
    refine ⟨s3, ?_, by rw [he3, he2], w3, by rw [hb3, hctx, g.buf], henv⟩
    simp only [checkGroups, hone, bind, Except.bind, hrest]
  | @never p nd hk _ hp =>
    obtain ⟨rfl, rfl, rfl⟩ := h.only_nots_inv hk
    obtain ⟨m, hrun, hm⟩ := hp.absent s.ctx.cur.buf s.ctx.cur.start s.ctx.cur.stop s.ctx.env w.lo w.hi (by simpa using hab)
    have hg : checkGroup (.never p) s = .ok (.matched [], s.pass p.len) := by
      rw [checkGroup]
      simp only [checkNever, Cursor.searchBlock_wf w, checkNot, hrun, hm, bind, Except.bind]
    obtain ⟨s2, hone, he2, hctx⟩ := checkOne_matched hg (by simp) (pass_errors _ _)
    refine ⟨s2, by simp only [checkGroups, hone, bind, Except.bind], he2, ?_, ?_, ?_⟩ <;> rw [hctx, pass_ctx]
    exact w
  | @before p t dl nd hk hp ht =>
    obtain ⟨p1, env1, n1, h1, h2⟩ := h.split
    obtain ⟨lms, s1, a, hrun, g, -, rfl, rfl, rfl⟩ := checkTree_fwd t ht w h1
    obtain ⟨rfl, rfl, rfl⟩ := h2.only_nots_inv hk
    have hasn : assertNonEmpty lms = .ok () := by
      unfold assertNonEmpty; rw [if_neg (by simpa using g.ext.ne_nil)]
    have hex : excl p ⟨s1.ctx.cur.start, s1.ctx.cur.stop⟩ s1 = .ok ([], s1.pass p.len) :=
      excl_fwd hp g.wf.lo g.wf.hi (by rw [g.buf, g.stop]; simpa using hab)
    have hg : checkGroup (.tree (.matchBefore p t)) s = .ok (.matched (lms ++ []), s1.pass p.len) := by
      rw [checkGroup, checkTree, hrun]
      simp only [bind, Except.bind, expectNoErr, hasn, afterBefore, Cursor.searchBlock_wf g.wf, hex]
    rw [List.append_nil] at hg
    obtain ⟨s2, hone, he2, hctx⟩ := checkOne_matched hg g.oks (by rw [pass_errors, g.errs])
    refine ⟨s2, by simp only [checkGroups, hone, bind, Except.bind], he2, ?_, ?_, ?_⟩ <;> rw [hctx, pass_ctx]
    · exact g.wf
    · exact g.buf

end Litcheck
