import Verif.Spec.FirstMatch
import Verif.Proofs.Blocks

/-!
# The single rules take first matches, exactly
-/

namespace Litcheck
open Spec
variable {E : Type}

/-- A positive matcher finds what the finder says, and nothing else. -/
structure Pat.Finds (p : Pat E) (F : Finder E) : Prop where
  found : ∀ b r env m env', r.start ≤ r.stop → r.stop ≤ b.length → p.run b r env = (some m, env') → m.isOk = true →
    ∃ i, m.info = some i ∧ F env b r.start r.stop i.start i.stop env'
  first : ∀ b lo hi env s e env', lo ≤ hi → hi ≤ b.length → F env b lo hi s e env' →
    ∃ m i, p.run b ⟨lo, hi⟩ env = (some m, env') ∧ m.isOk = true ∧ m.info = some i ∧ i.start = s ∧ i.stop = e
  range : ∀ b lo hi env s e env', F env b lo hi s e env' → lo ≤ s ∧ s ≤ e ∧ e ≤ hi
  related : ∀ b r env m env' f, p.run b r env = (some m, env') → m.ty = .failed f → f.related = true

/-- A matcher of excluded patterns decides whether one of them occurs. -/
structure Pat.Decides (p : Pat E) (μs : List (Meaning E)) : Prop where
  complete : p.Complete μs
  absent : ∀ b lo hi env, lo ≤ hi → hi ≤ b.length → AllAbsent μs b lo hi →
    ∃ m, p.run b ⟨lo, hi⟩ env = (some m, env) ∧ m.isOk = false

/-- A finder which never finds the empty string. -/
def Solid (F : Finder E) : Prop := ∀ env b lo hi s e env', F env b lo hi s e env' → s < e

/-- A rule, the check it was compiled from, and the contract of its pattern. -/
inductive Rule.Exact : Rule E → Check E → Prop
  | plain {p d} : d.kind = .plain → p.Finds d.first → Rule.Exact (.plain p) d
  | next {p d} : d.kind = .next → p.Finds d.first → Solid d.first → Rule.Exact (.next p) d
  | same {p d} : d.kind = .same → p.Finds d.first → Solid d.first → Rule.Exact (.same p) d
  | empty {s d} : d.kind = .empty → Rule.Exact (.empty s) d

/-- A check was taken. -/
structure Acts (d : Check E) (c : Ctx E) (m : MatchResult) (c' : Ctx E) (s e : Nat) : Prop where
  wf : c'.cur.WF
  buf : c'.cur.buf = c.cur.buf
  stop : c'.cur.stop = c.cur.stop
  ok : m.isOk = true
  range : Matches.range [m] = .ok (some ⟨s, e⟩)
  lo : c.cur.start ≤ s
  le : s ≤ e
  hi : e ≤ c.cur.stop
  pos : c'.cur.start = e
  takes : Takes d c.cur.buf c.cur.stop c.cur.start c.env s e c'.env

/-- The end of the line of the cursor. -/
theorem Cursor.WF.lineEnd {c : Cursor} (w : c.WF) : LineEnd c.buf c.start c.eol := by
  rcases w.eolIs with h | h
  · rcases w.bend with hb | hb
    · right
      have he : c.eol = c.buf.length := by rw [h, hb]
      exact ⟨by rw [← he]; exact w.eolNo, he⟩
    · left; exact ⟨w.eolLo, by rw [h]; exact hb.1, w.eolNo⟩
  · left; exact ⟨w.eolLo, h, w.eolNo⟩

theorem Spec.LineEnd.unique {b : Buf} {s e e' : Nat} (h : LineEnd b s e) (h' : LineEnd b s e') : e = e' := by
  rcases h with h | ⟨h, rfl⟩
  · rcases h' with h' | ⟨h', rfl⟩
    · exact h.unique h'
    · exact absurd h.2.1 (h' _ h.1 h.2.1.lt)
  · rcases h' with h' | ⟨h', rfl⟩
    · exact absurd h'.2.1 (h _ h'.1 h'.2.1.lt)
    · rfl

theorem tryProtected_of_ok {p : Pat E} {b : Buf} {r : Rng} {env env' : E} {m : MatchResult}
    (h : p.run b r env = (some m, env')) (hm : m.isOk = true) : p.tryProtected b r env = (some m, env') := by
  unfold Pat.tryProtected
  rw [h]
  simp [hm]

/-- An ok match, and the cursor moved to its end. -/
theorem finish_back {c c' : Ctx E} (w : c.cur.WF) {p : Pat E} {F : Finder E} (hp : p.Finds F)
    {lo hi : Nat} (hlo : c.cur.start ≤ lo) (hlh : lo ≤ hi) (hhi : hi ≤ c.cur.stop) {m : MatchResult}
    (h : Rule.finish c (p.tryProtected c.cur.buf ⟨lo, hi⟩ c.env) = .ok (some m, c')) (hm : m.isOk = true) :
    c'.cur.WF ∧ c'.cur.buf = c.cur.buf ∧ c'.cur.stop = c.cur.stop ∧
    ∃ i, m.info = some i ∧ lo ≤ i.start ∧ i.start ≤ i.stop ∧ i.stop ≤ hi ∧
      F c.env c.cur.buf lo hi i.start i.stop c'.env ∧ c'.cur.start = i.stop := by
  cases htp : p.tryProtected c.cur.buf ⟨lo, hi⟩ c.env with
  | mk mo env' =>
    rw [htp] at h
    cases mo with
    | none => simp [Rule.finish] at h
    | some m' =>
      cases hok : m'.isOk with
      | false =>
        cases hi' : m'.info with
        | none =>
          simp [Rule.finish, hok, hi'] at h
          rw [← h.1] at hm; simp [hok] at hm
        | some i =>
          simp [Rule.finish, hok, hi'] at h
          rw [← h.1] at hm; simp [hok] at hm
      | true =>
        obtain ⟨i, h1, h5⟩ := hp.found _ ⟨lo, hi⟩ _ _ _ hlh (Nat.le_trans hhi w.hi) (tryProtected_ok htp hok) hok
        obtain ⟨h2, h3, h4⟩ := hp.range _ _ _ _ _ _ _ h5
        dsimp only at h2 h4
        obtain ⟨cur', hs, hw, hst, hsp, hb⟩ := Cursor.setStart_wf w (s := i.stop) (by omega)
        simp [Rule.finish, hok, h1, hs, bind, Except.bind] at h
        obtain ⟨rfl, rfl⟩ := h
        refine ⟨hw, hb, hsp, i, h1, h2, h3, h4, h5, ?_⟩
        simp only [hst]
        omega

/-- Conversely. -/
theorem finish_fwd {c : Ctx E} (w : c.cur.WF) {p : Pat E} {F : Finder E} (hp : p.Finds F)
    {lo hi : Nat} (hlo : c.cur.start ≤ lo) (hlh : lo ≤ hi) (hhi : hi ≤ c.cur.stop) {s e : Nat} {env' : E}
    (h : F c.env c.cur.buf lo hi s e env') :
    ∃ m c', Rule.finish c (p.tryProtected c.cur.buf ⟨lo, hi⟩ c.env) = .ok (some m, c') ∧ m.isOk = true ∧ c'.env = env' ∧
      c'.cur.WF ∧ c'.cur.buf = c.cur.buf ∧ c'.cur.stop = c.cur.stop ∧ c'.cur.start = e ∧
      Matches.range [m] = .ok (some ⟨s, e⟩) := by
  obtain ⟨m, i, hrun, hok, hinfo, rfl, rfl⟩ := hp.first _ lo hi _ _ _ _ hlh (Nat.le_trans hhi w.hi) h
  obtain ⟨h2, h3, h4⟩ := hp.range _ _ _ _ _ _ _ h
  obtain ⟨cur', hs, hw, hst, hsp, hb⟩ := Cursor.setStart_wf w (s := i.stop) (by omega)
  refine ⟨m, ⟨cur', env'⟩, ?_, hok, rfl, hw, hb, hsp, ?_, range_single hinfo hok⟩
  · rw [tryProtected_of_ok hrun hok]
    simp [Rule.finish, hok, hinfo, hs, bind, Except.bind]
  · show cur'.start = i.stop
    rw [hst]; omega

theorem applyPlain_back {c c' : Ctx E} (w : c.cur.WF) {p : Pat E} {d : Check E} (hk : d.kind = .plain)
    (hp : p.Finds d.first) {m : MatchResult} (h : Rule.applyPlain p c = .ok (some m, c')) (hm : m.isOk = true) :
    ∃ s e, Acts d c m c' s e := by
  simp only [Rule.applyPlain, Cursor.searchBlock_wf w, bind, Except.bind] at h
  obtain ⟨hw, hb, hs, i, h1, h2, h3, h4, h5, h6⟩ := finish_back w hp (Nat.le_refl _) w.lo (Nat.le_refl _) h hm
  exact ⟨i.start, i.stop, hw, hb, hs, hm, range_single h1 hm, h2, h3, h4, h6, by simpa only [Takes, hk] using h5⟩

theorem applyPlain_fwd {c : Ctx E} (w : c.cur.WF) {p : Pat E} {F : Finder E} (hp : p.Finds F) {s e : Nat} {env' : E}
    (h : F c.env c.cur.buf c.cur.start c.cur.stop s e env') :
    ∃ m c', Rule.applyPlain p c = .ok (some m, c') ∧ m.isOk = true ∧ c'.env = env' ∧
      c'.cur.WF ∧ c'.cur.buf = c.cur.buf ∧ c'.cur.stop = c.cur.stop ∧ c'.cur.start = e ∧
      Matches.range [m] = .ok (some ⟨s, e⟩) := by
  simp only [Rule.applyPlain, Cursor.searchBlock_wf w, bind, Except.bind]
  exact finish_fwd w hp (Nat.le_refl _) w.lo (Nat.le_refl _) h

/-- The line after the next line feed, inside a block. -/
theorem next_line {c : Cursor} (w : c.WF) {n : Nat} (hf : FirstLF c.buf c.start n) (hlt : n + 1 < c.stop) :
    ∃ nl, c.nextNewlineFrom (n + 1) = .ok nl ∧ LineEnd c.buf (n + 1) (nl.getD c.stop) ∧ nl.getD c.stop ≤ c.stop := by
  have hlen : n + 1 ≤ c.buf.length := by have := w.hi; omega
  obtain ⟨nl, hnl, hN⟩ := Cursor.nextNewlineFrom_ok w.lf hlen
  refine ⟨nl, hnl, ?_⟩
  have hle := lineEnd_of_nextNL hN
  rcases hN with ⟨k, rfl, hk1, hk2, hk3, hk4⟩ | ⟨rfl, hno⟩
  · refine ⟨by simpa using hle, ?_⟩
    simp only [Option.getD_some]
    rcases w.bend with hb | hb
    · omega
    · by_contra hc
      exact hk4 _ (by omega) (by omega) hb.1
  · simp only [Option.getD_none] at hle ⊢
    refine ⟨?_, Nat.le_refl _⟩
    rcases w.bend with hb | hb
    · rw [hb]; exact hle
    · exact absurd hb.1 (hno _ (by omega) (by have := hb.2.1; omega))

theorem applyNext_back {c c' : Ctx E} (w : c.cur.WF) {p : Pat E} {d : Check E} (hk : d.kind = .next)
    (hp : p.Finds d.first) {m : MatchResult} (h : Rule.applyNext p c = .ok (some m, c')) (hm : m.isOk = true) :
    ∃ s e, Acts d c m c' s e := by
  obtain ⟨st, hst, hnext⟩ := Cursor.startOfNextLine_wf w
  simp only [Rule.applyNext, hst, bind, Except.bind] at h
  cases hnl : c.cur.nextNewlineFrom st with
  | error e => rw [hnl] at h; simp at h
  | ok nl =>
    rw [hnl] at h
    simp only at h
    by_cases hge : st ≥ c.cur.stop
    · rw [if_pos hge] at h
      split at h
      · simp at h
      · simp at h
        rw [← h.1] at hm
        simp [matchNone, MatchResult.failed, MatchResult.isOk, MatchType.isOk] at hm
    · rw [if_neg hge] at h
      rcases hnext with ⟨n, hf, rfl⟩ | ⟨_, rfl⟩
      · obtain ⟨nl', hnl', hle, hin⟩ := next_line w hf (by omega)
        rw [hnl] at hnl'
        simp only [Except.ok.injEq] at hnl'
        subst hnl'
        have hlh := (hle.le (by have := w.hi; omega)).1
        have hsr : c.cur.searchRange (n + 1) (nl.getD c.cur.stop) = .ok ⟨n + 1, nl.getD c.cur.stop⟩ :=
          bounded_ok hlh (Nat.le_trans hin w.hi)
        rw [hsr] at h
        simp only at h
        obtain ⟨hw, hb, hs, i, h1, h2, h3, h4, h5, h6⟩ :=
          finish_back w hp (by have := hf.1; omega) hlh hin h hm
        refine ⟨i.start, i.stop, hw, hb, hs, hm, range_single h1 hm, ?_, h3, by omega, h6, ?_⟩
        · have := hf.1; omega
        · simp only [Takes, hk]; exact ⟨n, _, hf, hle, hin, h5⟩
      · have := w.hi; omega

theorem applyNext_fwd {c : Ctx E} (w : c.cur.WF) {p : Pat E} {F : Finder E} (hp : p.Finds F) (hne : Solid F)
    {s e n eol : Nat} {env' : E} (hf : FirstLF c.cur.buf c.cur.start n) (hle : LineEnd c.cur.buf (n + 1) eol)
    (hin : eol ≤ c.cur.stop) (h : F c.env c.cur.buf (n + 1) eol s e env') :
    ∃ m c', Rule.applyNext p c = .ok (some m, c') ∧ m.isOk = true ∧ c'.env = env' ∧
      c'.cur.WF ∧ c'.cur.buf = c.cur.buf ∧ c'.cur.stop = c.cur.stop ∧ c'.cur.start = e ∧
      Matches.range [m] = .ok (some ⟨s, e⟩) := by
  obtain ⟨r1, r2, r3⟩ := hp.range _ _ _ _ _ _ _ h
  have hlt := hne _ _ _ _ _ _ _ h
  obtain ⟨st, hst, hnext⟩ := Cursor.startOfNextLine_wf w
  have hstn : st = n + 1 := by
    rcases hnext with ⟨k, hk, rfl⟩ | ⟨hno, _⟩
    · rw [hk.unique hf]
    · exact absurd hf.2.1 (hno _ hf.1 hf.2.1.lt)
  subst hstn
  obtain ⟨nl, hnl, hle', hin'⟩ := next_line w hf (by omega)
  have heq := hle.unique hle'
  subst heq
  have hsr : c.cur.searchRange (n + 1) (nl.getD c.cur.stop) = .ok ⟨n + 1, nl.getD c.cur.stop⟩ :=
    bounded_ok (by omega) (Nat.le_trans hin' w.hi)
  simp only [Rule.applyNext, hst, hnl, hsr, bind, Except.bind]
  rw [if_neg (by omega)]
  exact finish_fwd w hp (by have := hf.1; omega) (by omega) hin h

theorem applySame_back {c c' : Ctx E} (w : c.cur.WF) {p : Pat E} {d : Check E} (hk : d.kind = .same)
    (hp : p.Finds d.first) {m : MatchResult} (h : Rule.applySame p c = .ok (some m, c')) (hm : m.isOk = true) :
    ∃ s e, Acts d c m c' s e := by
  simp only [Rule.applySame, Cursor.searchLine_wf w, bind, Except.bind] at h
  cases htp : p.tryProtected c.cur.buf ⟨c.cur.start, c.cur.eol⟩ c.env with
  | mk mo env' =>
    rw [htp] at h
    cases mo with
    | none => simp at h
    | some m' =>
      cases hok : m'.isOk with
      | true =>
        obtain ⟨i, h1, h5⟩ := hp.found _ ⟨c.cur.start, c.cur.eol⟩ _ _ _ w.eolLo (Nat.le_trans w.eolHi w.hi) (tryProtected_ok htp hok) hok
        obtain ⟨h2, h3, h4⟩ := hp.range _ _ _ _ _ _ _ h5
        dsimp only at h2 h4
        obtain ⟨cur', hs, hw, hst, hsp, hb⟩ := Cursor.setStart_wf w (s := i.stop) (by omega)
        simp [hok, h1, hs] at h
        split_ifs at h
        simp at h
        obtain ⟨rfl, rfl⟩ := h
        have := w.eolHi
        refine ⟨i.start, i.stop, hw, hb, hsp, hm, range_single h1 hm, h2, h3, by omega, ?_, ?_⟩
        · simp only [hst]
          omega
        · simp only [Takes, hk]; exact ⟨_, w.lineEnd, w.eolHi, h5⟩
      | false =>
        cases hi' : m'.info with
        | some i =>
          simp [hok, hi'] at h
          rw [← h.1] at hm; simp [hok] at hm
        | none =>
          simp [hok, hi', Cursor.searchBlock_wf w] at h
          split at h
          · simp at h
          · split at h
            · simp at h
              rw [← h.1] at hm
              simp [MatchResult.isOk, MatchType.isOk] at hm
            · simp at h
              rw [← h.1] at hm; simp [hok] at hm

theorem applySame_fwd {c : Ctx E} (w : c.cur.WF) {p : Pat E} {F : Finder E} (hp : p.Finds F) (hne : Solid F)
    {s e eol : Nat} {env' : E} (hle : LineEnd c.cur.buf c.cur.start eol)
    (h : F c.env c.cur.buf c.cur.start eol s e env') :
    ∃ m c', Rule.applySame p c = .ok (some m, c') ∧ m.isOk = true ∧ c'.env = env' ∧
      c'.cur.WF ∧ c'.cur.buf = c.cur.buf ∧ c'.cur.stop = c.cur.stop ∧ c'.cur.start = e ∧
      Matches.range [m] = .ok (some ⟨s, e⟩) := by
  have heq := hle.unique w.lineEnd
  subst heq
  obtain ⟨r1, r2, r3⟩ := hp.range _ _ _ _ _ _ _ h
  have hlt := hne _ _ _ _ _ _ _ h
  obtain ⟨m, i, hrun, hok, hinfo, rfl, rfl⟩ := hp.first _ _ _ _ _ _ _ w.eolLo (Nat.le_trans w.eolHi w.hi) h
  obtain ⟨cur', hs, hw, hst, hsp, hb⟩ := Cursor.setStart_wf w (s := i.stop) (by omega)
  refine ⟨m, ⟨cur', env'⟩, ?_, hok, rfl, hw, hb, hsp, ?_, range_single hinfo hok⟩
  · simp only [Rule.applySame, Cursor.searchLine_wf w, tryProtected_of_ok hrun hok, hok, hinfo, hs, bind, Except.bind]
    rw [if_pos (by omega)]
  · show cur'.start = i.stop
    rw [hst]; have := w.eolHi; omega

theorem applyEmpty_back {c c' : Ctx E} (w : c.cur.WF) {ps : Nat} {d : Check E} (hk : d.kind = .empty)
    {m : MatchResult} (h : Rule.applyEmpty ps c = .ok (some m, c')) (hm : m.isOk = true) :
    ∃ s e, Acts d c m c' s e := by
  obtain ⟨hw, hb, hs, i, hi, ⟨h1, h2, h3, h4⟩, h5⟩ := applyEmpty_ok w d.mean h hm
  refine ⟨i.start, i.stop, hw, hb, hs, hm, range_single hi hm, h1, h2, h3, h5, ?_⟩
  dsimp only at h4
  simp only [Takes, hk]
  exact ⟨h4.1, by omega, h4.2⟩

theorem applyEmpty_fwd {c : Ctx E} (w : c.cur.WF) {ps : Nat} {s : Nat}
    (hE : EmptyNext c.cur.buf c.cur.start s) (hs : s ≤ c.cur.stop) :
    ∃ m c', Rule.applyEmpty ps c = .ok (some m, c') ∧ m.isOk = true ∧ c'.env = c.env ∧
      c'.cur.WF ∧ c'.cur.buf = c.cur.buf ∧ c'.cur.stop = c.cur.stop ∧ c'.cur.start = s ∧
      Matches.range [m] = .ok (some ⟨s, s⟩) := by
  obtain ⟨st, hst, hnext⟩ := Cursor.startOfNextLine_wf w
  have hsst : st = s := by
    rcases hE with ⟨h1, rfl, _⟩ | ⟨h1, rfl⟩
    · rcases hnext with ⟨n, hf, rfl⟩ | ⟨hno, _⟩
      · rw [hf.unique ⟨Nat.le_refl _, h1, fun j a b => by omega⟩]
      · exact absurd h1 (hno _ (Nat.le_refl _) h1.lt)
    · rcases hnext with ⟨n, hf, rfl⟩ | ⟨_, rfl⟩
      · have := hf.2.1.lt; have := hf.1; omega
      · exact h1.symm
  subst hsst
  obtain ⟨nl, hnl, hN⟩ := Cursor.nextNewlineFrom_ok w.lf (s := st) (by have := w.hi; omega)
  have hend : st = c.cur.buf.length ∨ IsLF c.cur.buf st := by
    rcases hE with ⟨_, _, h⟩ | ⟨h1, h2⟩
    · exact h
    · left; rw [h2, h1]
  have heol : nl.getD c.cur.buf.length = st := by
    rcases hN with ⟨n, rfl, hn1, hn2, hn3, hn4⟩ | ⟨rfl, hno⟩
    · simp only [Option.getD_some]
      rcases hend with h | h
      · omega
      · by_contra hc
        exact hn4 st (Nat.le_refl _) (by omega) h
    · simp only [Option.getD_none]
      rcases hend with h | h
      · exact h.symm
      · exact absurd h (hno _ (Nat.le_refl _) h.lt)
  have hat : c.cur.atEndOfLine = true := by
    rw [Cursor.atEndOfLine, isEndOfLine_iff w.lf]
    rcases hE with ⟨h1, _, _⟩ | ⟨h1, _⟩
    · exact Or.inr h1
    · exact Or.inl h1
  have hge : c.cur.start ≤ st := by rcases hE with ⟨_, h, _⟩ | ⟨_, h⟩ <;> omega
  obtain ⟨cur', hs', hw, hst', hsp, hb⟩ := Cursor.setStart_wf w (s := st) hge
  refine ⟨.ok ⟨st, st, 0, ps⟩, ⟨cur', c.env⟩, ?_, rfl, rfl, hw, hb, hsp, ?_, rfl⟩
  · simp only [Rule.applyEmpty, hst, hnl, heol, hat, hs', bind, Except.bind]
    rw [if_pos (by simp)]
  · show cur'.start = st
    rw [hst']; omega

theorem Rule.apply_back {r : Rule E} {d : Check E} (hr : r.Exact d) {c c' : Ctx E} (w : c.cur.WF)
    {m : MatchResult} (h : r.apply c = .ok (some m, c')) (hm : m.isOk = true) : ∃ s e, Acts d c m c' s e := by
  cases hr with
  | plain hk hp => exact applyPlain_back w hk hp h hm
  | next hk hp _ => exact applyNext_back w hk hp h hm
  | same hk hp _ => exact applySame_back w hk hp h hm
  | empty hk => exact applyEmpty_back w hk h hm

theorem Rule.apply_fwd {r : Rule E} {d : Check E} (hr : r.Exact d) {c : Ctx E} (w : c.cur.WF)
    {s e : Nat} {env' : E} (h : Takes d c.cur.buf c.cur.stop c.cur.start c.env s e env') :
    ∃ m c', r.apply c = .ok (some m, c') ∧ Acts d c m c' s e ∧ c'.env = env' := by
  have key : ∀ {m : MatchResult} {c' : Ctx E}, r.apply c = .ok (some m, c') → m.isOk = true → c'.env = env' →
      Matches.range [m] = .ok (some ⟨s, e⟩) → ∃ m c', r.apply c = .ok (some m, c') ∧ Acts d c m c' s e ∧ c'.env = env' := by
    intro m c' h1 h2 h3 h4
    obtain ⟨s', e', ha⟩ := Rule.apply_back hr w h1 h2
    have := ha.range
    rw [h4] at this
    simp only [Except.ok.injEq, Option.some.injEq, Rng.mk.injEq] at this
    obtain ⟨rfl, rfl⟩ := this
    exact ⟨m, c', h1, ha, h3⟩
  cases hr with
  | plain hk hp =>
    simp only [Takes, hk] at h
    obtain ⟨m, c', h1, h2, h3, _, _, _, _, h4⟩ := applyPlain_fwd w hp h
    exact key h1 h2 h3 h4
  | next hk hp hne =>
    simp only [Takes, hk] at h
    obtain ⟨n, eol, hf, hle, hin, h⟩ := h
    obtain ⟨m, c', h1, h2, h3, _, _, _, _, h4⟩ := applyNext_fwd w hp hne hf hle hin h
    exact key h1 h2 h3 h4
  | same hk hp hne =>
    simp only [Takes, hk] at h
    obtain ⟨eol, hle, hin, h⟩ := h
    obtain ⟨m, c', h1, h2, h3, _, _, _, _, h4⟩ := applySame_fwd w hp hne hle h
    exact key h1 h2 h3 h4
  | empty hk =>
    simp only [Takes, hk] at h
    obtain ⟨hE, hin, rfl, rfl⟩ := h
    obtain ⟨m, c', h1, h2, h3, _, _, _, _, h4⟩ := applyEmpty_fwd (ps := _) w hE hin
    exact key h1 h2 h3 h4

end Litcheck
