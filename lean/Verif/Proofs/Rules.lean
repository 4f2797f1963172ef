import Verif.Proofs.Contracts

/-!
# Soundness of the single rules
-/

namespace Litcheck
open Spec
variable {E : Type}

theorem tryProtected_ok {p : Pat E} {b : Buf} {r : Rng} {env env' : E} {m : MatchResult}
    (h : p.tryProtected b r env = (some m, env')) (hm : m.isOk = true) : p.run b r env = (some m, env') := by
  unfold Pat.tryProtected at h
  split at h
  · rename_i m' e' heq
    split at h
    · simp at h; rw [heq, h.1, h.2]
    · rename_i hno
      simp at h
      rw [h.1] at hno
      simp [hm] at hno
  · simp at h

theorem tryProtected_failed {p : Pat E} {b : Buf} {r : Rng} {env env' : E} {m : MatchResult}
    (h : p.tryProtected b r env = (some m, env')) (hm : m.isOk = false) :
    env' = env ∧ ∃ env1, p.run b r env = (some m, env1) := by
  unfold Pat.tryProtected at h
  split at h
  · rename_i m' e' heq
    split at h
    · rename_i hno
      simp at h
      rw [h.1] at hno
      simp [hm] at hno
    · simp at h
      exact ⟨h.2.symm, e', by rw [heq, h.1]⟩
  · simp at h

/-- Everything the proofs need to know about one ok application of a rule. -/
structure RuleOk (d : Directive E) (c : Ctx E) (m : MatchResult) (c' : Ctx E) : Prop where
  wf : c'.cur.WF
  buf : c'.cur.buf = c.cur.buf
  stop : c'.cur.stop = c.cur.stop
  step : ∃ i, m.info = some i ∧ Step d c.cur.buf c.cur.stop c.cur.start c.env i.start i.stop c'.env ∧
    c'.cur.start = i.stop

theorem finish_ok {c c' : Ctx E} (w : c.cur.WF) {p : Pat E} {μ : Meaning E} (hp : p.Sound μ)
    {lo hi : Nat} (hlo : c.cur.start ≤ lo) (hlh : lo ≤ hi) (hhi : hi ≤ c.cur.stop) {m : MatchResult}
    (h : Rule.finish c (p.tryProtected c.cur.buf ⟨lo, hi⟩ c.env) = .ok (some m, c')) (hm : m.isOk = true) :
    c'.cur.WF ∧ c'.cur.buf = c.cur.buf ∧ c'.cur.stop = c.cur.stop ∧
    ∃ i, m.info = some i ∧ lo ≤ i.start ∧ i.start ≤ i.stop ∧ i.stop ≤ hi ∧
      μ c.env c.cur.buf i.start i.stop c'.env ∧ c'.cur.start = i.stop := by
  cases htp : p.tryProtected c.cur.buf ⟨lo, hi⟩ c.env with
  | mk mo env' =>
    rw [htp] at h
    cases mo with
    | none => simp [Rule.finish] at h
    | some m' =>
      cases hok : m'.isOk with
      | false =>
        cases hi' : m'.info with
        | none =>
          simp [Rule.finish, hok, hi'] at h
          rw [← h.1] at hm; simp [hok] at hm
        | some i =>
          simp [Rule.finish, hok, hi'] at h
          rw [← h.1] at hm; simp [hok] at hm
      | true =>
        obtain ⟨i, h1, h2, h3, h4, h5⟩ := hp.found _ ⟨lo, hi⟩ _ _ _ hlh (Nat.le_trans hhi w.hi) (tryProtected_ok htp hok) hok
        obtain ⟨cur', hs, hw, hst, hsp, hb⟩ := Cursor.setStart_wf w (s := i.stop) (by simp at h2; omega)
        simp [Rule.finish, hok, h1, hs, bind, Except.bind] at h
        obtain ⟨rfl, rfl⟩ := h
        refine ⟨hw, hb, hsp, i, h1, h2, h3, h4, h5, ?_⟩
        simp only [hst]
        simp at h4
        omega

theorem applyPlain_ok {c c' : Ctx E} (w : c.cur.WF) {p : Pat E} {μ : Meaning E} (hp : p.Sound μ)
    {m : MatchResult} (h : Rule.applyPlain p c = .ok (some m, c')) (hm : m.isOk = true) :
    RuleOk ⟨.plain, μ⟩ c m c' := by
  simp only [Rule.applyPlain, Cursor.searchBlock_wf w, bind, Except.bind] at h
  obtain ⟨hw, hb, hs, i, h1, h2, h3, h4, h5, h6⟩ := finish_ok w hp (Nat.le_refl _) w.lo (Nat.le_refl _) h hm
  exact ⟨hw, hb, hs, i, h1, ⟨h2, h3, h4, h5⟩, h6⟩

theorem applyNext_ok {c c' : Ctx E} (w : c.cur.WF) {p : Pat E} {μ : Meaning E} (hp : p.Sound μ)
    {m : MatchResult} (h : Rule.applyNext p c = .ok (some m, c')) (hm : m.isOk = true) :
    RuleOk ⟨.next, μ⟩ c m c' := by
  obtain ⟨st, hst, hnext⟩ := Cursor.startOfNextLine_wf w
  simp only [Rule.applyNext, hst, bind, Except.bind] at h
  cases hnl : c.cur.nextNewlineFrom st with
  | error e => rw [hnl] at h; simp at h
  | ok nl =>
    obtain ⟨hle, hnlp⟩ := Cursor.nextNewlineFrom_inv w.lf hnl
    rw [hnl] at h
    simp only at h
    by_cases hge : st ≥ c.cur.stop
    · rw [if_pos hge] at h
      split at h
      · simp at h
      · simp at h
        rw [← h.1] at hm
        simp [matchNone, MatchResult.failed, MatchResult.isOk, MatchType.isOk] at hm
    · rw [if_neg hge] at h
      cases hsr : c.cur.searchRange st (nl.getD c.cur.stop) with
      | error e => rw [hsr] at h; simp at h
      | ok r =>
        obtain ⟨rfl, hlh, _⟩ := bounded_inv hsr
        rw [hsr] at h
        simp only at h
        have hno : nl.getD c.cur.stop ≤ c.cur.stop ∧ NoLF c.cur.buf st (nl.getD c.cur.stop) := by
          rcases hnlp with ⟨n, rfl, hn1, hn2, hn3, hn4⟩ | ⟨rfl, hno⟩
          · refine ⟨?_, hn4⟩
            simp
            rcases w.bend with hb | hb
            · omega
            · by_contra hc
              exact hn4 _ (by omega) (by omega) hb.1
          · refine ⟨by simp, ?_⟩
            intro i hi1 hi2
            have := w.hi
            exact hno i hi1 (by simp at hi2; omega)
        have hlo : c.cur.start ≤ st := by
          rcases hnext with ⟨n, hf, rfl⟩ | ⟨_, rfl⟩
          · have := hf.1; omega
          · have := w.lo; have := w.hi; omega
        obtain ⟨hw, hb, hs, i, h1, h2, h3, h4, h5, h6⟩ := finish_ok w hp hlo hlh hno.1 h hm
        refine ⟨hw, hb, hs, i, h1, ⟨by omega, h3, by omega, h5, ?_⟩, h6⟩
        rcases hnext with ⟨n, hf, rfl⟩ | ⟨hnolf, rfl⟩
        · refine ⟨n, hf, by omega, ?_⟩
          intro j hj1 hj2
          exact hno.2 j hj1 (by omega)
        · have := w.hi; omega

theorem applySame_ok {c c' : Ctx E} (w : c.cur.WF) {p : Pat E} {μ : Meaning E} (hp : p.Sound μ)
    {m : MatchResult} (h : Rule.applySame p c = .ok (some m, c')) (hm : m.isOk = true) :
    RuleOk ⟨.same, μ⟩ c m c' := by
  simp only [Rule.applySame, Cursor.searchLine_wf w, bind, Except.bind] at h
  cases htp : p.tryProtected c.cur.buf ⟨c.cur.start, c.cur.eol⟩ c.env with
  | mk mo env' =>
    rw [htp] at h
    cases mo with
    | none => simp at h
    | some m' =>
      cases hok : m'.isOk with
      | true =>
        obtain ⟨i, h1, h2, h3, h4, h5⟩ := hp.found _ ⟨c.cur.start, c.cur.eol⟩ _ _ _ w.eolLo (Nat.le_trans w.eolHi w.hi) (tryProtected_ok htp hok) hok
        obtain ⟨cur', hs, hw, hst, hsp, hb⟩ := Cursor.setStart_wf w (s := i.stop) (by simp at h2; omega)
        simp [hok, h1, hs] at h
        split_ifs at h
        simp at h
        obtain ⟨rfl, rfl⟩ := h
        simp at h4 h2
        have := w.eolHi
        refine ⟨hw, hb, hsp, i, h1, ⟨h2, h3, by omega, h5, ?_⟩, ?_⟩
        · intro j hj1 hj2
          exact w.eolNo j hj1 (by omega)
        · simp only [hst]
          omega
      | false =>
        cases hi' : m'.info with
        | some i =>
          simp [hok, hi'] at h
          rw [← h.1] at hm; simp [hok] at hm
        | none =>
          simp [hok, hi', Cursor.searchBlock_wf w] at h
          split at h
          · simp at h
          · split at h
            · simp at h
              rw [← h.1] at hm
              simp [MatchResult.isOk, MatchType.isOk] at hm
            · simp at h
              rw [← h.1] at hm; simp [hok] at hm

theorem isEndOfLine_iff {c : Cursor} (hlf : c.crlf = false) (i : Nat) :
    c.isEndOfLine i = true ↔ (i = c.buf.length ∨ IsLF c.buf i) := by
  unfold Cursor.isEndOfLine IsLF
  simp only [hlf]
  by_cases h : i = c.buf.length
  · simp [h]
  · simp [h]

theorem applyEmpty_ok {c c' : Ctx E} (w : c.cur.WF) {ps : Nat} (μ : Meaning E)
    {m : MatchResult} (h : Rule.applyEmpty ps c = .ok (some m, c')) (hm : m.isOk = true) :
    RuleOk ⟨.empty, μ⟩ c m c' := by
  obtain ⟨st, hst, hnext⟩ := Cursor.startOfNextLine_wf w
  simp only [Rule.applyEmpty, hst, bind, Except.bind] at h
  cases hnl : c.cur.nextNewlineFrom st with
  | error e => rw [hnl] at h; simp at h
  | ok nl =>
    obtain ⟨hle, hnlp⟩ := Cursor.nextNewlineFrom_inv w.lf hnl
    rw [hnl] at h
    simp only at h
    by_cases hc : (c.cur.atEndOfLine && !(decide (st < nl.getD c.cur.buf.length))) = true
    · rw [if_pos hc] at h
      simp only [Bool.and_eq_true, Bool.not_eq_true', decide_eq_false_iff_not] at hc
      obtain ⟨hend, hemp⟩ := hc
      rw [Cursor.atEndOfLine, isEndOfLine_iff w.lf] at hend
      have heol : nl.getD c.cur.buf.length = st ∧ (st = c.cur.buf.length ∨ IsLF c.cur.buf st) := by
        rcases hnlp with ⟨n, rfl, hn1, hn2, hn3, hn4⟩ | ⟨rfl, hno⟩
        · simp at hemp ⊢
          have : n = st := by omega
          subst this
          exact ⟨rfl, Or.inr hn3⟩
        · simp at hemp ⊢
          omega
      obtain ⟨heq, hst2⟩ := heol
      rw [heq] at h
      have hEN : EmptyNext c.cur.buf c.cur.start st := by
        rcases hend with he | he
        · right
          refine ⟨he, ?_⟩
          rcases hnext with ⟨n, hf, rfl⟩ | ⟨_, rfl⟩
          · have := hf.2.1.lt; have := hf.1; omega
          · exact he.symm
        · left
          refine ⟨he, ?_, hst2⟩
          rcases hnext with ⟨n, hf, rfl⟩ | ⟨hno, rfl⟩
          · have : n = c.cur.start := hf.unique ⟨Nat.le_refl _, he, fun j h1 h2 => by omega⟩
            omega
          · exact absurd he (hno _ (Nat.le_refl _) he.lt)
      have hge : c.cur.start ≤ st := by
        rcases hEN with ⟨_, h2, _⟩ | ⟨_, h2⟩ <;> omega
      have hstop : st ≤ c.cur.stop := by
        have := w.lo
        have := w.hi
        rcases w.bend with hb | ⟨hb1, hb2, hb3⟩
        · rcases hst2 with h3 | h3
          · omega
          · have := h3.lt; omega
        · rcases hEN with ⟨h1, h2, h3⟩ | ⟨h1, h2⟩
          · by_contra hcc
            have : c.cur.start = c.cur.stop := by omega
            rcases h3 with h3 | h3
            · omega
            · rw [h2, this] at h3; exact hb3 h3
          · omega
      obtain ⟨cur', hs, hw, hst', hsp, hb⟩ := Cursor.setStart_wf w (s := st) hge
      simp [hs] at h
      obtain ⟨rfl, rfl⟩ := h
      refine ⟨hw, hb, hsp, _, rfl, ⟨hge, Nat.le_refl _, hstop, hEN, rfl, rfl⟩, ?_⟩
      simp only [hst']
      omega
    · rw [if_neg hc] at h
      split at h
      · simp at h
      · simp at h
        rw [← h.1] at hm
        simp [matchNone, MatchResult.failed, MatchResult.isOk, MatchType.isOk] at hm

/-- A rule, the directive it was compiled from, and the contract of its pattern. -/
inductive Rule.Sound : Rule E → Directive E → Prop
  | plain {p μ} : p.Sound μ → Rule.Sound (.plain p) ⟨.plain, μ⟩
  | next {p μ} : p.Sound μ → Rule.Sound (.next p) ⟨.next, μ⟩
  | same {p μ} : p.Sound μ → Rule.Sound (.same p) ⟨.same, μ⟩
  | empty {s μ} : Rule.Sound (.empty s) ⟨.empty, μ⟩

theorem Rule.apply_ok {r : Rule E} {d : Directive E} (hr : r.Sound d) {c c' : Ctx E} (w : c.cur.WF)
    {m : MatchResult} (h : r.apply c = .ok (some m, c')) (hm : m.isOk = true) : RuleOk d c m c' := by
  cases hr with
  | plain hp => exact applyPlain_ok w hp h hm
  | next hp => exact applyNext_ok w hp h hm
  | same hp => exact applySame_ok w hp h hm
  | empty => exact applyEmpty_ok w _ h hm

theorem RuleOk.found {d : Directive E} {c c' : Ctx E} {m : MatchResult} (h : RuleOk d c m c') :
    ∃ i, m.info = some i := by
  obtain ⟨i, hi, _⟩ := h.step
  exact ⟨i, hi⟩

/-- `CheckDag::apply`, when all matches are ok. -/
theorem Dag.apply_ok {d : Dag E} {μs : List (Meaning E)} (hd : d.Sound μs) {c c' : Ctx E} (w : c.cur.WF)
    {ms : Matches} (h : d.apply c = .ok (some ms, c')) (hm : Matches.isOk ms = true) :
    c'.cur.WF ∧ c'.cur.buf = c.cur.buf ∧ c'.cur.stop = c.cur.stop ∧
    ∃ s e, Matches.range ms = .ok (some ⟨s, e⟩) ∧ c.cur.start ≤ s ∧ s ≤ e ∧ e ≤ c.cur.stop ∧
      c'.cur.start = e ∧ DagThreaded μs c.cur.buf c.cur.stop c.cur.start s e c.env c'.env := by
  simp only [Dag.apply, Cursor.searchBlock_wf w, bind, Except.bind] at h
  split at h
  · simp at h
  · rename_i ms' pos env' heq
    by_cases hok : Matches.isOk ms' = true
    · obtain ⟨s, e, hr, rfl, h1, h2, h3, h4⟩ := hd _ _ _ _ _ _ heq hok
      simp at h1 h3 h4
      obtain ⟨cur', hs, hw, hst', hsp, hb⟩ := Cursor.setStart_wf w (s := e) (by omega)
      simp [hs, hok] at h
      obtain ⟨rfl, rfl⟩ := h
      refine ⟨hw, hb, hsp, s, e, hr, h1, h2, h3, ?_, h4⟩
      simp only [hst']
      omega
    · exfalso
      cases pos with
      | none =>
        simp [hok] at h
        rw [h.1] at hok
        exact hok hm
      | some p =>
        cases hss : c.cur.setStart p with
        | error e => simp [hss] at h
        | ok cur' =>
          simp [hss, hok] at h
          rw [h.1] at hok
          exact hok hm

end Litcheck
