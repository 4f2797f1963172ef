import Verif.Proofs.Sequence

/-!
# A clean group starts with an ok match (whatever the cursor)
-/

namespace Litcheck
open Spec
variable {E : Type}

theorem around_left_clean {root : Pat E} {left right : Tree E} {s s' : St E} {gr : GR}
    (h : checkTree (.matchAround root left right) s = .ok (gr, s')) (hc : Clean s gr s') :
    ∃ gl s1, checkTree left s = .ok (gl, s1) ∧ Clean s gl s1 := by
  rw [checkTree] at h
  obtain ⟨lr, hlt, h⟩ := bind_ok.1 h
  obtain ⟨⟨ok, lms, s1⟩, hx, h⟩ := bind_ok.1 h
  dsimp only at h
  rw [expectNoErr_inv hx] at hlt
  have e1 := checkTree_err left hlt
  refine ⟨_, s1, hlt, ?_⟩
  have hleft : ∀ {rr}, checkTree right s1 = .ok rr → ∀ ok2 rms s2, expectNoErr rr = .ok (ok2, rms, s2) →
      ErrLe s2 s' → (∀ m ∈ lms, m ∈ gr.matches) → Clean s (if ok then GR.matched lms else GR.unmatched lms) s1 := by
    intro rr hrt ok2 rms s2 hx2 e3 hsub
    rw [expectNoErr_inv hx2] at hrt
    have e2 := checkTree_err right hrt
    obtain ⟨q1, q2⟩ := ErrLe.squeeze e1 (e2.trans e3) hc.errs
    refine ⟨q1, by intro f; split <;> simp, ?_⟩
    intro ms hms
    have : ms ∈ lms := by revert hms; split <;> exact id
    exact hc.ok ms (hsub ms this)
  cases ok with
  | false =>
    simp only [Bool.false_eq_true, if_false] at h
    obtain ⟨rr, hrt, h⟩ := bind_ok.1 h
    obtain ⟨⟨ok2, rms, s2⟩, hx2, h⟩ := bind_ok.1 h
    have e3 := aroundNoLeft_err h
    refine hleft hrt ok2 rms s2 hx2 e3 ?_
    intro m hm
    cases ok2 with
    | true =>
      simp only [aroundNoLeft] at h
      obtain ⟨_, _, h⟩ := bind_ok.1 h
      obtain ⟨_, _, h⟩ := bind_ok.1 h
      obtain ⟨_, _, h⟩ := bind_ok.1 h
      obtain ⟨⟨ex, s3⟩, he, h⟩ := bind_ok.1 h
      simp at h; rw [← h.1]; simp [GR.matches, hm]
    | false => simp [aroundNoLeft] at h; rw [← h.1]; simp [GR.matches, hm]
  | true =>
    simp only [if_true] at h
    obtain ⟨_, hne, h⟩ := bind_ok.1 h
    obtain ⟨le, hle, h⟩ := bind_ok.1 h
    obtain ⟨rr, hrt, h⟩ := bind_ok.1 h
    obtain ⟨⟨ok2, rms, s2⟩, hx2, h⟩ := bind_ok.1 h
    have e3 := aroundAfterLeft_err h
    refine hleft hrt ok2 rms s2 hx2 e3 ?_
    intro m hm
    cases ok2 with
    | true =>
      simp only [aroundAfterLeft] at h
      obtain ⟨_, _, h⟩ := bind_ok.1 h
      obtain ⟨_, _, h⟩ := bind_ok.1 h
      obtain ⟨_, _, h⟩ := bind_ok.1 h
      obtain ⟨⟨ex, s3⟩, he, h⟩ := bind_ok.1 h
      simp at h; rw [← h.1]; simp [GR.matches, hm]
    | false => simp [aroundAfterLeft] at h; rw [← h.1]; simp [GR.matches, hm]

theorem before_left_clean {root : Pat E} {left : Tree E} {s s' : St E} {gr : GR}
    (h : checkTree (.matchBefore root left) s = .ok (gr, s')) (hc : Clean s gr s') :
    ∃ gl s1, checkTree left s = .ok (gl, s1) ∧ Clean s gl s1 := by
  rw [checkTree] at h
  obtain ⟨lr, hlt, h⟩ := bind_ok.1 h
  obtain ⟨⟨ok, lms, s1⟩, hx, h⟩ := bind_ok.1 h
  rw [expectNoErr_inv hx] at hlt
  obtain ⟨q1, q2⟩ := ErrLe.squeeze (checkTree_err left hlt) (afterBefore_err h) hc.errs
  refine ⟨_, s1, hlt, q1, by intro f; split <;> simp, ?_⟩
  intro m hm
  replace hm : m ∈ lms := by revert hm; split <;> exact id
  apply hc.ok
  cases ok <;> simp only [afterBefore] at h
  · obtain ⟨_, _, h⟩ := bind_ok.1 h
    obtain ⟨⟨ex, s3⟩, he, h⟩ := bind_ok.1 h
    simp at h; rw [← h.1]; simp [GR.matches, hm]
  · obtain ⟨_, _, h⟩ := bind_ok.1 h
    obtain ⟨_, _, h⟩ := bind_ok.1 h
    obtain ⟨⟨ex, s3⟩, he, h⟩ := bind_ok.1 h
    simp at h; rw [← h.1]; simp [GR.matches, hm]

theorem after_right_clean {root : Pat E} {right : Tree E} {s s' : St E} {gr : GR}
    (h : checkTree (.matchAfter root right) s = .ok (gr, s')) (hc : Clean s gr s') :
    ∃ gl s1, checkTree right s = .ok (gl, s1) ∧ Clean s gl s1 := by
  rw [checkTree] at h
  obtain ⟨lr, hrt, h⟩ := bind_ok.1 h
  obtain ⟨⟨ok, rms, s1⟩, hx, h⟩ := bind_ok.1 h
  rw [expectNoErr_inv hx] at hrt
  obtain ⟨q1, q2⟩ := ErrLe.squeeze (checkTree_err right hrt) (afterAfter_err h) hc.errs
  refine ⟨_, s1, hrt, q1, by intro f; split <;> simp, ?_⟩
  intro m hm
  replace hm : m ∈ rms := by revert hm; split <;> exact id
  apply hc.ok
  cases ok <;> simp only [afterAfter] at h
  · simp at h; rw [← h.1]; simp [GR.matches, hm]
  · obtain ⟨_, _, h⟩ := bind_ok.1 h
    obtain ⟨_, _, h⟩ := bind_ok.1 h
    obtain ⟨_, _, h⟩ := bind_ok.1 h
    obtain ⟨⟨ex, s3⟩, he, h⟩ := bind_ok.1 h
    simp at h; rw [← h.1]; simp [GR.matches, hm]

theorem bounded_left_ok {left : Option Matches} {right : GR} {s s' : St E} {gr : GR}
    (h : combineBounded left right s = .ok (gr, s')) (hc : Clean s gr s') :
    ∃ lms, left = some lms ∧ Matches.isOk lms = true := by
  obtain ⟨hss, hrne, hrok, lms, hleft, hm⟩ := combineBounded_clean h hc
  subst hleft
  refine ⟨lms, rfl, ?_⟩
  unfold combineBounded at h
  split at h
  · rename_i rms
    obtain ⟨r0, rest, rr, lms', _, hr0, _, hok', lr, hlr, hl'⟩ := hm rms rfl
    cases lr with
    | none => simp at hl'; rw [← hl']; exact hok'
    | some lr =>
      simp only at hl'
      split_ifs at hl' with hov
      · rw [hl'] at hok'
        unfold Matches.isOk at *
        rw [List.all_eq_true] at hok' ⊢
        intro m hm'
        have := hok' (discardOverlap rr.start m) (List.mem_map_of_mem hm')
        rw [discardOverlap_isOk this] at this; exact this
      · rw [← hl']; exact hok'
  · obtain ⟨lr, hlr, h⟩ := bind_ok.1 h
    have hgr : lms ∈ gr.matches := by
      split at h <;> (simp at h; rw [← h.1]; simp [GR.matches])
    exact hc.ok lms hgr
  · exact absurd rfl (hrne _)

/-- The first directive which is not a `CHECK-NOT`, if there is one, is not relative to a previous match. -/
def FirstAbsolute : List (Directive E) → Prop
  | [] => True
  | d :: ds =>
    match d.kind with
    | .not => FirstAbsolute ds
    | .plain | .count _ | .dag => True
    | _ => False

/-- The patterns do not match the empty string. -/
def NonEmptyAll (ds : List (Directive E)) : Prop :=
  ∀ d ∈ ds, d.kind ≠ .empty → d.kind ≠ .not → ∀ env b s e env', d.mean env b s e env' → s < e

theorem FirstAbsolute.nots {μs : List (Meaning E)} {ds : List (Directive E)}
    (h : FirstAbsolute (μs.map (⟨.not, ·⟩) ++ ds)) : FirstAbsolute ds := by
  induction μs with
  | nil => simpa using h
  | cons m ms ih => exact ih (by simpa [FirstAbsolute] using h)

theorem FirstAbsolute.left {a b : List (Directive E)} (h : FirstAbsolute (a ++ b)) : FirstAbsolute a := by
  induction a with
  | nil => trivial
  | cons d ds ih =>
    rw [List.cons_append] at h
    unfold FirstAbsolute at h ⊢
    revert h
    cases d.kind <;> (simp; try exact ih)

/-- The cursor of an empty block at the start of the input. -/
structure Degenerate (c : Cursor) : Prop where
  start : c.start = 0
  stop : c.stop = 0

theorem Degenerate.search {c : Cursor} (h : Degenerate c) : c.searchBlock = .ok ⟨0, 0⟩ := by
  unfold Cursor.searchBlock Cursor.searchRange
  rw [h.start, h.stop]
  exact bounded_ok (Nat.le_refl _) (Nat.zero_le _)

theorem applyPlain_degenerate {p : Pat E} {μ : Meaning E} (hp : p.Sound μ)
    (hne : ∀ env b s e env', μ env b s e env' → s < e) {c c' : Ctx E} {m : MatchResult} (hd : Degenerate c.cur)
    (h : Rule.applyPlain p c = .ok (some m, c')) : m.isOk = false := by
  unfold Rule.applyPlain at h
  rw [hd.search] at h
  simp only [bind, Except.bind] at h
  cases htp : p.tryProtected c.cur.buf ⟨0, 0⟩ c.env with
  | mk mo env' =>
    rw [htp] at h
    cases mo with
    | none => simp [Rule.finish] at h
    | some m' =>
      by_contra hok
      simp only [Bool.not_eq_false] at hok
      have hmm : m' = m := by
        simp only [Rule.finish] at h
        split at h
        · obtain ⟨cur', _, h⟩ := bind_ok.1 h
          simp at h; exact h.1
        · simp at h; exact h.1
      subst hmm
      obtain ⟨i, _, h1, h2, h3, h4⟩ := hp.found _ ⟨0, 0⟩ _ _ _ (Nat.le_refl _) (Nat.zero_le _) (tryProtected_ok htp hok) hok
      have := hne _ _ _ _ _ h4
      simp only at h3
      omega

theorem spans_nonempty {μs : List (Meaning E)} (hne : ∀ μ ∈ μs, ∀ env b s e env', μ env b s e env' → s < e)
    {b : Buf} {lo hi : Nat} {spans : List (Nat × Nat)}
    (hf : List.Forall₂ (fun m sp => lo ≤ sp.1 ∧ sp.1 ≤ sp.2 ∧ sp.2 ≤ hi ∧ ∃ env env', m env b sp.1 sp.2 env') μs spans) :
    ∀ sp ∈ spans, sp.1 < sp.2 ∧ sp.2 ≤ hi := by
  induction hf with
  | nil => intro sp h; simp at h
  | cons h1 _ ih =>
    intro sp h
    rcases List.mem_cons.1 h with rfl | h
    · obtain ⟨_, _, h3, env, env', hm⟩ := h1
      exact ⟨hne _ (by simp) _ _ _ _ _ hm, h3⟩
    · exact ih (fun μ hμ => hne μ (by simp [hμ])) sp h

theorem dag_degenerate {d : Dag E} {μs : List (Meaning E)} (hd : d.Sound μs)
    (hne : ∀ μ ∈ μs, ∀ env b s e env', μ env b s e env' → s < e) {c c' : Ctx E} {ms : Matches}
    (hdg : Degenerate c.cur) (h : d.apply c = .ok (some ms, c')) : Matches.isOk ms = false := by
  unfold Dag.apply at h
  rw [hdg.search] at h
  simp only [bind, Except.bind] at h
  split at h
  · simp at h
  · rename_i ms' pos env' hrun
    by_contra hok
    simp only [Bool.not_eq_false] at hok
    have hmm : ms' = ms := by
      split at h
      · split at h
        · simp at h
        · split at h <;> (simp at h; exact h.1)
      · split at h <;> (simp at h; exact h.1)
    subst hmm
    obtain ⟨s, e, _, _, h1, h2, h3, ⟨spans, hf, _, hall, _, ⟨y, hy, hye⟩, _⟩⟩ := hd _ _ _ _ _ _ hrun hok
    simp only at h3
    have hb := spans_nonempty hne hf
    have := hb y hy
    omega

mutual
theorem checkGroup_degenerate : ∀ (g : Group E) {ds : List (Directive E)} {s s' : St E} {gr : GR}, GroupDen g ds →
    FirstAbsolute ds → NonEmptyAll ds → Degenerate s.ctx.cur → checkGroup g s = .ok (gr, s') → ¬ Clean s gr s'
  | .never p, _, _, _, _, hd, _, _, _, _ => by cases hd
  | .ordered rules, _, s, s', gr, hd, hf, hn, hg, h => by
    intro hc
    cases hd with
    | ordered hne hr =>
    rw [checkGroup, checkOrdered] at h
    obtain ⟨⟨d, acc, s1⟩, h1, h2⟩ := bind_ok.1 h
    dsimp only at h2
    have hs1 : s1 = s' := by
      split at h2
      · obtain ⟨x, _, h3⟩ := bind_ok.1 h2
        split at h3 <;> (simp at h3; exact h3.2)
      · simp at h2; exact h2.2
    subst hs1
    cases hr with
    | nil => exact hne rfl
    | @cons r dd rs ds hrd _ =>
    unfold orderedLoop at h1
    obtain ⟨⟨m, ctx⟩, h3, h4⟩ := bind_ok.1 h1
    dsimp only at h4
    cases hrd with
    | plain hp =>
      cases m with
      | none =>
        simp only at h4
        have e := orderedLoop_err h4
        exact fail_ne (s := ({ctx := ctx, res := s.res} : St E)) e hc.errs
      | some m =>
        have hbad := applyPlain_degenerate hp (hn _ List.mem_cons_self (by simp) (by simp)) hg h3
        simp only [Matches.isOk, List.all_cons, List.all_nil, hbad, Bool.false_and] at h4
        simp only [Bool.false_eq_true, if_false] at h4
        split at h4 <;>
        · simp at h4
          exact absurd hc.errs (by rw [← h4.2.2]; exact fail_ne (ErrLe.refl (({ctx := ctx, res := s.res} : St E).fail _)))
    | next => simp [FirstAbsolute] at hf
    | same => simp [FirstAbsolute] at hf
    | empty => simp [FirstAbsolute] at hf
  | .repeated rule n, _, s, s', gr, hd, hf, hn, hg, h => by
    intro hc
    cases hd with
    | @repeated p μ _ hp hn1 =>
    rw [checkGroup, checkRepeated] at h
    obtain ⟨⟨d, acc, s1⟩, h1, h2⟩ := bind_ok.1 h
    dsimp only at h2
    have hs1 : s1 = s' := by
      split at h2 <;> (simp at h2; exact h2.2)
    subst hs1
    obtain ⟨k, rfl⟩ : ∃ k, n = k + 1 := ⟨n - 1, by omega⟩
    unfold repeatedLoop at h1
    obtain ⟨⟨m, ctx⟩, h3, h4⟩ := bind_ok.1 h1
    dsimp only at h4
    cases m with
    | none =>
      simp at h4
      exact absurd hc.errs (by rw [← h4.2.2]; exact fail_ne (ErrLe.refl (({ctx := ctx, res := s.res} : St E).fail _)))
    | some m =>
      have hbad := applyPlain_degenerate hp (hn ⟨.count (k + 1), μ⟩ (by simp) (by simp) (by simp)) hg h3
      simp only at h4
      split at h4
      · rename_i f hff
        have hrel := applyPlain_related hp h3 hff
        simp only [hrel, if_true] at h4
        simp at h4
        exact absurd hc.errs (by rw [← h4.2.2]; exact fail_ne (ErrLe.refl (({ctx := ctx, res := s.res} : St E).fail _)))
      · rename_i hnf
        unfold MatchResult.isOk at hbad
        cases hty : m.ty with
        | found => rw [hty] at hbad; simp [MatchType.isOk] at hbad
        | excluded => rw [hty] at hbad; simp [MatchType.isOk] at hbad
        | failed f => exact hnf f hty
  | .unordered d, _, s, s', gr, hd, hf, hn, hg, h => by
    intro hc
    cases hd with
    | @unordered _ μs hd hne =>
    rw [checkGroup, checkUnordered] at h
    obtain ⟨⟨m, ctx⟩, h1, h2⟩ := bind_ok.1 h
    dsimp only at h2
    split at h2
    · rename_i ms
      obtain ⟨x, hx, h3⟩ := bind_ok.1 h2
      have hgr : ms ∈ gr.matches := by
        split at h3 <;> (simp at h3; rw [← h3.1]; simp [GR.matches])
      have := dag_degenerate hd (fun μ hμ => hn ⟨.dag, μ⟩ (by simp [hμ]) (by simp) (by simp)) hg h1
      rw [hc.ok ms hgr] at this
      simp at this
    · simp at h2
      exact absurd hc.errs (by rw [← h2.2]; exact fail_ne (ErrLe.refl (({ctx := ctx, res := s.res} : St E).fail _)))
  | .bounded d g, _, s, s', gr, hd, hf, hn, hg, h => by
    intro hc
    cases hd with
    | @bounded _ μs _ ds hd hne hgd =>
    rw [checkGroup] at h
    obtain ⟨⟨left, ctx⟩, h1, h⟩ := bind_ok.1 h
    obtain ⟨⟨right, s1⟩, h2, h⟩ := bind_ok.1 h
    dsimp only at h2 h
    obtain ⟨hs1, hs2⟩ := ErrLe.squeeze (s1 := {ctx := ctx, res := s.res}) (checkGroup_err g h2) (combineBounded_err h) hc.errs
    obtain ⟨lms, hl, hok⟩ := bounded_left_ok h ⟨hs2, hc.noErr, hc.ok⟩
    subst hl
    have := dag_degenerate hd (fun μ hμ => hn ⟨.dag, μ⟩ (by simp [hμ]) (by simp) (by simp)) hg h1
    rw [hok] at this
    simp at this
  | .tree t, _, _, _, _, hd, hf, hn, hg, h => by
    cases hd with
    | tree ht => rw [checkGroup] at h; exact checkTree_degenerate t ht hf hn hg h

theorem checkTree_degenerate : ∀ (t : Tree E) {ds : List (Directive E)} {s s' : St E} {gr : GR}, TreeDen t ds →
    FirstAbsolute ds → NonEmptyAll ds → Degenerate s.ctx.cur → checkTree t s = .ok (gr, s') → ¬ Clean s gr s'
  | .matchAll g, _, _, _, _, hd, hf, hn, hg, h => by
    cases hd with
    | matchAll hgd => rw [checkTree] at h; exact checkGroup_degenerate g hgd hf hn hg h
  | .matchAround root left right, _, s, s', gr, hd, hf, hn, hg, h => by
    intro hc
    cases hd with
    | @matchAround _ μs _ _ dl dr hroot hl hr =>
    obtain ⟨gl, s1, h1, hc1⟩ := around_left_clean h hc
    exact checkTree_degenerate left hl hf.left (fun d hd => hn d (by simp [hd])) hg h1 hc1
  | .matchBefore root left, _, s, s', gr, hd, hf, hn, hg, h => by
    intro hc
    cases hd with
    | @matchBefore _ μs _ dl hroot hl =>
    obtain ⟨gl, s1, h1, hc1⟩ := before_left_clean h hc
    exact checkTree_degenerate left hl hf.left (fun d hd => hn d (by simp [hd])) hg h1 hc1
  | .matchAfter root right, _, s, s', gr, hd, hf, hn, hg, h => by
    intro hc
    cases hd with
    | @matchAfter _ μs _ dr hroot hr =>
    obtain ⟨gl, s1, h1, hc1⟩ := after_right_clean h hc
    exact checkTree_degenerate right hr hf.nots (fun d hd => hn d (by simp [hd])) hg h1 hc1
end

end Litcheck
