import Verif.Proofs.Groups

/-!
# Sequences of groups
-/

namespace Litcheck
open Spec
variable {E : Type}

/-- The failure of a failed match result. -/
def MatchResult.failure? (m : MatchResult) : Option Failure :=
  match m.ty with
  | .failed f => some f
  | _ => none

theorem appendOne_errors (t : TestResult) (m : MatchResult) :
    (t.appendOne m).errors = t.errors ++ m.failure?.toList := by
  unfold TestResult.appendOne MatchResult.intoResult MatchResult.failure?
  cases m.ty with
  | found => cases m.info <;> simp [TestResult.addMatched, TestResult.addPassed]
  | excluded => cases m.info <;> simp [TestResult.addMatched, TestResult.addPassed]
  | failed f => simp [TestResult.addFailed]

theorem append_errors (t : TestResult) (ms : Matches) :
    (t.append ms).errors = t.errors ++ ms.filterMap MatchResult.failure? := by
  unfold TestResult.append
  induction ms generalizing t with
  | nil => simp
  | cons m ms ih =>
    rw [List.foldl_cons, ih, appendOne_errors]
    cases h : m.failure? <;> simp [h]

theorem appendAll_errors (t : TestResult) (mss : List Matches) :
    (t.appendAll mss).errors = t.errors ++ mss.flatten.filterMap MatchResult.failure? := by
  unfold TestResult.appendAll
  induction mss generalizing t with
  | nil => simp
  | cons m ms ih => rw [List.foldl_cons, ih, append_errors]; simp

theorem failure?_none {m : MatchResult} : m.failure? = none ↔ m.isOk = true := by
  unfold MatchResult.failure? MatchResult.isOk
  cases m.ty <;> simp [MatchType.isOk]

theorem checkOne_err {g : Group E} {s s' : St E} (h : checkOne g s = .ok s') : ErrLe s s' := by
  unfold checkOne at h
  obtain ⟨⟨r, s1⟩, h1, h2⟩ := bind_ok.1 h
  have e1 := checkGroup_err g h1
  cases r with
  | matched ms =>
    simp at h2; rw [← h2]
    exact e1.trans (by simp only [ErrLe]; rw [appendAll_errors]; simp)
  | unmatched ms =>
    simp at h2; rw [← h2]
    exact e1.trans (by simp only [ErrLe]; rw [appendAll_errors]; simp)
  | err f => simp at h2; rw [← h2]; exact e1.trans (ErrLe.fail _ _)

theorem checkGroups_err {gs : List (Group E)} {s s' : St E} (h : checkGroups gs s = .ok s') : ErrLe s s' := by
  induction gs generalizing s with
  | nil => simp [checkGroups] at h; rw [h]; exact ErrLe.refl _
  | cons g gs ih =>
    unfold checkGroups at h
    obtain ⟨s1, h1, h2⟩ := bind_ok.1 h
    exact (checkOne_err h1).trans (ih h2)

/-- If processing a group recorded no error, the group was clean. -/
theorem checkOne_clean {g : Group E} {s s' : St E} (h : checkOne g s = .ok s')
    (he : s'.res.errors = s.res.errors) :
    ∃ gr s1, checkGroup g s = .ok (gr, s1) ∧ Clean s gr s1 ∧ s'.ctx = s1.ctx := by
  unfold checkOne at h
  obtain ⟨⟨gr, s1⟩, h1, h2⟩ := bind_ok.1 h
  have e1 := checkGroup_err g h1
  refine ⟨gr, s1, h1, ?_⟩
  have key : ∀ ms : List Matches, s' = { s1 with res := s1.res.appendAll ms } →
      s1.res.errors = s.res.errors ∧ ∀ m ∈ ms, Matches.isOk m = true := by
    intro ms hs
    have hl := e1.length_le
    rw [hs] at he
    simp only at he
    rw [appendAll_errors] at he
    have hlen := congrArg List.length he
    rw [List.length_append] at hlen
    have hnil : ms.flatten.filterMap MatchResult.failure? = [] := List.length_eq_zero_iff.1 (by omega)
    refine ⟨by simpa [hnil] using he, ?_⟩
    intro m hm
    unfold Matches.isOk
    rw [List.all_eq_true]
    intro x hx
    rw [List.filterMap_eq_nil_iff] at hnil
    exact failure?_none.1 (hnil x (List.mem_flatten.2 ⟨m, hm, hx⟩))
  cases gr with
  | matched ms =>
    simp only [Except.ok.injEq] at h2
    obtain ⟨k1, k2⟩ := key ms h2.symm
    exact ⟨⟨k1, by simp, k2⟩, by rw [← h2]⟩
  | unmatched ms =>
    simp only [Except.ok.injEq] at h2
    obtain ⟨k1, k2⟩ := key ms h2.symm
    exact ⟨⟨k1, by simp, k2⟩, by rw [← h2]⟩
  | err f =>
    simp only [Except.ok.injEq] at h2
    rw [← h2] at he
    exact absurd (ErrLe.squeeze e1 (ErrLe.fail s1 f) he).2 (fail_ne (ErrLe.refl _))

/-- The directives of a group of a block (a block may also end with a bare `CHECK-NOT` group). -/
inductive TopDen : Group E → List (Directive E) → Prop
  | proper {g ds} : GroupDen g ds → TopDen g ds
  | never {p μs} : p.Complete μs → TopDen (.never p) (μs.map (⟨.not, ·⟩))

/-- The result of checking a sequence of groups. -/
structure SeqOk (ds : List (Directive E)) (c c' : Ctx E) : Prop where
  wf : c'.cur.WF
  buf : c'.cur.buf = c.cur.buf
  stop : c'.cur.stop = c.cur.stop
  run : Run c.cur.buf c.cur.stop c.cur.start c.env [] ds c'.cur.start c'.env

theorem checkNever_ok {p : Pat E} {μs : List (Meaning E)} (hp : p.Complete μs) {s s' : St E} {gr : GR}
    (w : s.ctx.cur.WF) (h : checkNever p s = .ok (gr, s')) (hc : Clean s gr s') :
    SeqOk (μs.map (⟨.not, ·⟩)) s.ctx s'.ctx := by
  unfold checkNever at h
  rw [Cursor.searchBlock_wf w] at h
  simp only [bind, Except.bind] at h
  cases hn : checkNot p ⟨s.ctx.cur.start, s.ctx.cur.stop⟩ s with
  | error e => rw [hn] at h; simp at h
  | ok x =>
    obtain ⟨nr, s1⟩ := x
    rw [hn] at h
    simp only at h
    cases nr with
    | found i =>
      simp at h
      have := hc.ok [notFoundFailure] (by rw [← h.1]; simp [GR.matches])
      simp [Matches.isOk, notFoundFailure, MatchResult.failed, MatchResult.isOk, MatchType.isOk] at this
    | err => simp at h; exact absurd h.1.symm (hc.noErr _)
    | passed n =>
      simp at h
      unfold checkNot at hn
      split at hn
      · simp at hn
      · rename_i m env' hrun
        dsimp only at hn
        split at hn
        · simp at hn
        · simp at hn
        · rename_i hm
          simp at hn
          obtain ⟨he, ha⟩ := hp _ _ _ _ _ hrun hm
          have hctx : s'.ctx = s.ctx := by rw [← h.2, pass_ctx, ← hn.2]; simp [he]
          rw [hctx]
          refine ⟨w, rfl, rfl, ?_⟩
          have := Run.nots (b := s.ctx.cur.buf) (hi := s.ctx.cur.stop) (env := s.ctx.env) (nots := []) (ds := []) μs
            (.done (by simpa using ha))
          simpa using this

theorem checkTop_ok {g : Group E} {ds : List (Directive E)} (hd : TopDen g ds) {s s' : St E}
    (w : s.ctx.cur.WF) (h : checkOne g s = .ok s') (he : s'.res.errors = s.res.errors) :
    SeqOk ds s.ctx s'.ctx := by
  obtain ⟨gr, s1, h1, hc, hctx⟩ := checkOne_clean h he
  rw [hctx]
  cases hd with
  | proper hd =>
    obtain ⟨w', hb, hs, ms, a, _, _, _, _, hrun⟩ := checkGroup_ok g hd w h1 hc
    exact ⟨w', hb, hs, hrun [] AllAbsent.nil⟩
  | never hp => rw [checkGroup] at h1; exact checkNever_ok hp w h1 hc

/-- The directives of a list of groups. -/
def GroupsDen (gs : List (Group E)) (ds : List (Directive E)) : Prop :=
  ∃ dss, List.Forall₂ TopDen gs dss ∧ dss.flatten = ds

theorem checkGroups_ok {gs : List (Group E)} {ds : List (Directive E)} (hd : GroupsDen gs ds) {s s' : St E}
    (w : s.ctx.cur.WF) (h : checkGroups gs s = .ok s') (he : s'.res.errors = s.res.errors) :
    SeqOk ds s.ctx s'.ctx := by
  obtain ⟨dss, hf, rfl⟩ := hd
  induction hf generalizing s with
  | nil =>
    simp [checkGroups] at h; subst h
    exact ⟨w, rfl, rfl, .done AllAbsent.nil⟩
  | cons hg _ ih =>
    unfold checkGroups at h
    obtain ⟨s1, h1, h2⟩ := bind_ok.1 h
    obtain ⟨q1, q2⟩ := ErrLe.squeeze (checkOne_err h1) (checkGroups_err h2) he
    obtain ⟨w1, hb1, hs1, hr1⟩ := checkTop_ok hg w h1 q1
    obtain ⟨w2, hb2, hs2, hr2⟩ := ih w1 h2 q2
    refine ⟨w2, by rw [hb2, hb1], by rw [hs2, hs1], ?_⟩
    rw [List.flatten_cons]
    rw [hb1, hs1] at hr2
    exact Run.append hr1 hr2

end Litcheck
