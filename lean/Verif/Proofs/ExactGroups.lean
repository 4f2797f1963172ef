import Verif.Proofs.ExactRules

/-!
# Groups take first matches, exactly

`checkGroup_back`: a clean group took the first matches of its checks.  `checkGroup_fwd`: if the checks of a
group can take their first matches, the group is clean.
-/

namespace Litcheck
open Spec
variable {E : Type}

/-! ## Properties of `Greedy` -/

theorem Spec.Greedy.append {b : Buf} {hi pos pos1 pos2 : Nat} {env env1 env2 : E} {nots nots1 nots2 : List (Meaning E)}
    {ds ds' : List (Check E)} (h : Greedy b hi pos env nots ds pos1 env1 nots1)
    (h' : Greedy b hi pos1 env1 nots1 ds' pos2 env2 nots2) : Greedy b hi pos env nots (ds ++ ds') pos2 env2 nots2 := by
  induction h with
  | nil => exact h'
  | not hk _ ih => exact .not hk (ih h')
  | take h1 h2 _ ih => exact .take h1 h2 (ih h')

theorem Spec.Greedy.split {b : Buf} {hi pos pos2 : Nat} {env env2 : E} {nots nots2 : List (Meaning E)}
    {ds ds' : List (Check E)} (h : Greedy b hi pos env nots (ds ++ ds') pos2 env2 nots2) :
    ∃ pos1 env1 nots1, Greedy b hi pos env nots ds pos1 env1 nots1 ∧ Greedy b hi pos1 env1 nots1 ds' pos2 env2 nots2 := by
  induction ds generalizing pos env nots with
  | nil => exact ⟨pos, env, nots, .nil, h⟩
  | cons d ds ih =>
    cases h with
    | not hk h =>
      obtain ⟨p, e, n, h1, h2⟩ := ih h
      exact ⟨p, e, n, .not hk h1, h2⟩
    | take h1 h2 h =>
      obtain ⟨p, e, n, h3, h4⟩ := ih h
      exact ⟨p, e, n, .take h1 h2 h3, h4⟩

theorem not_takes_not {d : Check E} (hk : d.kind = .not) {b : Buf} {hi pos : Nat} {env env' : E} {s e : Nat} :
    ¬ Takes d b hi pos env s e env' := by
  simp [Takes, hk]

/-- A list of `CHECK-NOT`s in front. -/
theorem Spec.Greedy.nots_iff {b : Buf} {hi pos pos' : Nat} {env env' : E} {nots nots' : List (Meaning E)}
    {nd ds : List (Check E)} (hk : ∀ d ∈ nd, d.kind = .not) :
    Greedy b hi pos env nots (nd ++ ds) pos' env' nots' ↔ Greedy b hi pos env (nots ++ nd.map Check.mean) ds pos' env' nots' := by
  induction nd generalizing nots with
  | nil => simp
  | cons d nd ih =>
    have hd := hk d (by simp)
    have := ih (nots := nots ++ [d.mean]) (fun x hx => hk x (by simp [hx]))
    rw [List.append_assoc] at this
    constructor
    · intro h
      cases h with
      | not _ h => simpa using this.1 h
      | take h _ _ => exact absurd h (not_takes_not hd)
    · intro h
      exact .not hd (this.2 (by simpa using h))

theorem Spec.Greedy.nil_inv {b : Buf} {hi pos pos' : Nat} {env env' : E} {nots nots' : List (Meaning E)}
    (h : Greedy b hi pos env nots [] pos' env' nots') : pos' = pos ∧ env' = env ∧ nots' = nots := by
  cases h; exact ⟨rfl, rfl, rfl⟩

/-! ## What a group means -/

mutual
/-- The checks which a group stands for (groups of `CHECK-DAG`s are left out). -/
inductive GDen : Group E → List (Check E) → Prop
  | ordered {rules ds} : rules ≠ [] → List.Forall₂ Rule.Exact rules ds → GDen (.ordered rules) ds
  | repeated {p d n} : d.kind = .count n → p.Finds d.first → 1 ≤ n → GDen (.repeated (.plain p) n) [d]
  | tree {t ds} : TDen t ds → GDen (.tree t) ds
/-- The checks which a tree stands for. -/
inductive TDen : Tree E → List (Check E) → Prop
  | matchAll {g ds} : GDen g ds → TDen (.matchAll g) ds
  | matchAround {root nd l r dl dr} : (∀ d ∈ nd, d.kind = .not) → root.Decides (nd.map Check.mean) → TDen l dl → TDen r dr →
      TDen (.matchAround root l r) (dl ++ (nd ++ dr))
  | matchAfter {root nd r dr} : (∀ d ∈ nd, d.kind = .not) → root.Decides (nd.map Check.mean) → TDen r dr →
      TDen (.matchAfter root r) (nd ++ dr)
end

/-- What is known of a clean group. -/
structure GOut (ds : List (Check E)) (s : St E) (ms : List Matches) (s' : St E) (a : Nat) : Prop where
  wf : s'.ctx.cur.WF
  buf : s'.ctx.cur.buf = s.ctx.cur.buf
  stop : s'.ctx.cur.stop = s.ctx.cur.stop
  errs : s'.res.errors = s.res.errors
  oks : ∀ m ∈ ms, Matches.isOk m = true
  ext : Extent ms a s'.ctx.cur.start
  lo : s.ctx.cur.start ≤ a
  le : a ≤ s'.ctx.cur.start
  run : ∀ nots, AllAbsent nots s.ctx.cur.buf s.ctx.cur.start a →
      Greedy s.ctx.cur.buf s.ctx.cur.stop s.ctx.cur.start s.ctx.env nots ds s'.ctx.cur.start s'.ctx.env []

theorem GOut.clean {ds : List (Check E)} {s s' : St E} {ms : List Matches} {a : Nat} (h : GOut ds s ms s' a) :
    Clean s (.matched ms) s' := ⟨h.errs, by simp, h.oks⟩

theorem Extent.ne_nil {ms : List Matches} {a z : Nat} (h : Extent ms a z) : ms ≠ [] := by
  rintro rfl
  obtain ⟨R, h1, _, ⟨r, hr, _⟩, _⟩ := h
  simp [rangesOf] at h1; subst h1; simp at hr

theorem Extent.le {ms : List Matches} {a z : Nat} (h : Extent ms a z) : allRangesNone ms = .ok false := by
  obtain ⟨R, h1, -, ⟨r, hr, -⟩, -⟩ := h
  induction ms generalizing R with
  | nil => simp [rangesOf] at h1; subst h1; simp at hr
  | cons m ms ih =>
    simp only [rangesOf] at h1
    obtain ⟨x, hx, h1⟩ := bind_ok.1 h1
    obtain ⟨xs, hxs, h1⟩ := bind_ok.1 h1
    cases x with
    | none =>
      simp at h1
      subst h1
      simp only [allRangesNone, hx, bind, Except.bind]
      exact ih _ hxs hr
    | some x => simp [allRangesNone, hx, bind, Except.bind]

/-! ## Ordered groups -/

theorem Acts.isOk_single {d : Check E} {c c' : Ctx E} {m : MatchResult} {s e : Nat} (h : Acts d c m c' s e) :
    Matches.isOk [m] = true := by simp [Matches.isOk, h.ok]

/-- One more taken check in front of the rest of an ordered group. -/
theorem GOut.cons {d : Check E} {ds : List (Check E)} {s : St E} {m : MatchResult} {c : Ctx E} {x e : Nat}
    (ha : Acts d s.ctx m c x e) {ms : List Matches} {s' : St E} {a : Nat}
    (h : GOut ds ⟨c, s.res⟩ ms s' a) : GOut (d :: ds) s ([m] :: ms) s' x := by
  have hlo := h.lo
  dsimp only at hlo
  rw [ha.pos] at hlo
  refine ⟨h.wf, by rw [h.buf]; exact ha.buf, by rw [h.stop]; exact ha.stop, h.errs, ?_, ?_, ha.lo, ?_, ?_⟩
  · intro y hy
    rcases List.mem_cons.1 hy with rfl | hy
    · exact ha.isOk_single
    · exact h.oks y hy
  · exact Extent.cons ha.range h.ext (by have := ha.le; omega) (by have := h.le; omega)
  · have := h.le; have := ha.le; omega
  · intro nots hn
    refine .take ha.takes hn ?_
    have := h.run [] AllAbsent.nil
    dsimp only at this
    rw [ha.buf, ha.stop, ha.pos] at this
    exact this

/-- The last taken check of an ordered group. -/
theorem GOut.one {d : Check E} {s : St E} {m : MatchResult} {c : Ctx E} {x e : Nat}
    (ha : Acts d s.ctx m c x e) : GOut [d] s [[m]] ⟨c, s.res⟩ x := by
  refine ⟨ha.wf, ha.buf, ha.stop, rfl, ?_, ?_, ha.lo, ?_, ?_⟩
  · intro y hy
    simp at hy; subst hy; exact ha.isOk_single
  · dsimp only; rw [ha.pos]; exact Extent.one ha.range
  · dsimp only; rw [ha.pos]; exact ha.le
  · intro nots hn
    dsimp only
    rw [ha.pos]
    exact .take ha.takes hn .nil

theorem orderedLoop_back {rules : List (Rule E)} {ds : List (Check E)} (hr : List.Forall₂ Rule.Exact rules ds)
    {acc acc' : List Matches} {s s' : St E} {d : Bool} (w : s.ctx.cur.WF)
    (h : orderedLoop rules acc s = .ok (d, acc', s')) (he : s'.res.errors = s.res.errors) :
    d = true ∧ ∃ new, acc' = acc ++ new ∧ (rules = [] → new = [] ∧ s' = s) ∧
      (rules ≠ [] → ∃ a, GOut ds s new s' a) := by
  induction hr generalizing acc s with
  | nil =>
    simp [orderedLoop] at h
    obtain ⟨rfl, rfl, rfl⟩ := h
    exact ⟨rfl, [], by simp, by simp, by simp⟩
  | @cons r dd rs ds hrd hrest ih =>
    unfold orderedLoop at h
    obtain ⟨⟨m, ctx⟩, h1, h2⟩ := bind_ok.1 h
    dsimp only at h2
    split at h2
    · rename_i m
      split at h2
      · rename_i hok
        have hmok : m.isOk = true := by simpa [Matches.isOk] using hok
        obtain ⟨x, e, ha⟩ := Rule.apply_back hrd w h1 hmok
        obtain ⟨hd, new, hacc, hnil, hne⟩ := ih (s := ⟨ctx, s.res⟩) ha.wf h2 he
        refine ⟨hd, [m] :: new, by simp [hacc], by simp, ?_⟩
        intro _
        by_cases hrs : rs = []
        · obtain ⟨rfl, rfl⟩ := hnil hrs
          subst hrs
          cases hrest
          exact ⟨x, GOut.one ha⟩
        · obtain ⟨a, hg⟩ := hne hrs
          exact ⟨x, GOut.cons ha hg⟩
      · split at h2
        · simp at h2
          exact absurd he (by rw [← h2.2.2]; exact fail_ne (ErrLe.refl (({ctx := ctx, res := s.res} : St E).fail _)))
        · simp at h2
          exact absurd he (by rw [← h2.2.2]; exact fail_ne (ErrLe.refl (({ctx := ctx, res := s.res} : St E).fail _)))
    · have e := orderedLoop_err h2
      exact absurd he (fail_ne (s := ({ctx := ctx, res := s.res} : St E)) e)

/-- The kinds of the checks of an ordered group. -/
theorem Rule.Exact.not_not {r : Rule E} {d : Check E} (h : r.Exact d) : d.kind ≠ .not := by
  cases h <;> simp_all

theorem orderedLoop_fwd {rules : List (Rule E)} {ds : List (Check E)} (hr : List.Forall₂ Rule.Exact rules ds)
    (hne : rules ≠ []) (acc : List Matches) {s : St E} (w : s.ctx.cur.WF) {nots nots' : List (Meaning E)} {pos' : Nat} {env' : E}
    (h : Greedy s.ctx.cur.buf s.ctx.cur.stop s.ctx.cur.start s.ctx.env nots ds pos' env' nots') :
    ∃ new s' a, orderedLoop rules acc s = .ok (true, acc ++ new, s') ∧ GOut ds s new s' a ∧
      AllAbsent nots s.ctx.cur.buf s.ctx.cur.start a ∧ s'.ctx.cur.start = pos' ∧ s'.ctx.env = env' ∧ nots' = [] := by
  induction hr generalizing acc s nots with
  | nil => exact absurd rfl hne
  | @cons r dd rs ds hrd hrest ih =>
    cases h with
    | not hk _ => exact absurd hk hrd.not_not
    | @take _ _ _ _ _ x e env1 _ _ _ ht hn hg =>
      obtain ⟨m, c', h1, ha, henv⟩ := Rule.apply_fwd hrd w ht
      subst henv
      have hstep : orderedLoop (r :: rs) acc s = orderedLoop rs (acc ++ [[m]]) ⟨c', s.res⟩ := by
        rw [orderedLoop, h1]
        simp only [bind, Except.bind, ha.isOk_single, if_true]
      rw [hstep]
      by_cases hrs : rs = []
      · subst hrs
        cases hrest
        obtain ⟨rfl, rfl, rfl⟩ := hg.nil_inv
        exact ⟨[[m]], ⟨c', s.res⟩, x, by simp [orderedLoop], GOut.one ha, hn, ha.pos, rfl, rfl⟩
      · rw [← ha.buf, ← ha.stop, ← ha.pos] at hg
        obtain ⟨new, s', a, h2, h3, h4, h5, h6, h7⟩ := ih hrs (acc ++ [[m]]) (s := ⟨c', s.res⟩) ha.wf hg
        exact ⟨[m] :: new, s', x, by rw [h2]; simp, GOut.cons ha h3, hn, h5, h6, h7⟩

theorem checkOrdered_back {rules : List (Rule E)} {ds : List (Check E)} (hne : rules ≠ [])
    (hr : List.Forall₂ Rule.Exact rules ds) {s s' : St E} {gr : GR} (w : s.ctx.cur.WF)
    (h : checkOrdered rules s = .ok (gr, s')) (hc : Clean s gr s') : ∃ ms a, gr = .matched ms ∧ GOut ds s ms s' a := by
  unfold checkOrdered at h
  obtain ⟨⟨d, acc, s1⟩, h1, h2⟩ := bind_ok.1 h
  dsimp only at h2
  have hs1 : s1 = s' := by
    split at h2
    · obtain ⟨x, _, h3⟩ := bind_ok.1 h2
      split at h3 <;> (simp at h3; exact h3.2)
    · simp at h2; exact h2.2
  subst hs1
  obtain ⟨hd, new, hacc, _, hnn⟩ := orderedLoop_back hr w h1 hc.errs
  obtain ⟨a, hg⟩ := hnn hne
  simp at hacc
  subst hacc
  subst hd
  simp only [if_true, hg.ext.le, bind, Except.bind, Bool.false_eq_true, if_false] at h2
  simp at h2
  exact ⟨acc, a, h2.symm, hg⟩

theorem checkOrdered_fwd {rules : List (Rule E)} {ds : List (Check E)} (hne : rules ≠ [])
    (hr : List.Forall₂ Rule.Exact rules ds) {s : St E} (w : s.ctx.cur.WF) {nots nots' : List (Meaning E)} {pos' : Nat} {env' : E}
    (h : Greedy s.ctx.cur.buf s.ctx.cur.stop s.ctx.cur.start s.ctx.env nots ds pos' env' nots') :
    ∃ ms s' a, checkOrdered rules s = .ok (.matched ms, s') ∧ GOut ds s ms s' a ∧
      AllAbsent nots s.ctx.cur.buf s.ctx.cur.start a ∧ s'.ctx.cur.start = pos' ∧ s'.ctx.env = env' ∧ nots' = [] := by
  obtain ⟨new, s', a, h1, hg, h2⟩ := orderedLoop_fwd hr hne [] w h
  refine ⟨new, s', a, ?_, hg, h2⟩
  rw [List.nil_append] at h1
  simp only [checkOrdered, h1, hg.ext.le, bind, Except.bind, if_true, Bool.false_eq_true, if_false]

/-! ## `CHECK-COUNT` -/

theorem applyPlain_related' {p : Pat E} {F : Finder E} (hp : p.Finds F) {c c' : Ctx E} {m : MatchResult}
    (h : Rule.applyPlain p c = .ok (some m, c')) {f : Failure} (hf : m.ty = .failed f) : f.related = true := by
  refine applyPlain_related (p := p) (μ := fun env b s e env' => ∃ lo hi, F env b lo hi s e env') ⟨?_, hp.related⟩ h hf
  intro b r env m env' h1 h2 h3 h4
  obtain ⟨i, k1, k2⟩ := hp.found b r env m env' h1 h2 h3 h4
  obtain ⟨q1, q2, q3⟩ := hp.range _ _ _ _ _ _ _ k2
  exact ⟨i, k1, q1, q2, q3, _, _, k2⟩

/-- What is known of a clean `CHECK-COUNT` loop. -/
structure Counted (F : Finder E) (n : Nat) (s : St E) (ms : List Matches) (s' : St E) (a : Nat) : Prop where
  wf : s'.ctx.cur.WF
  buf : s'.ctx.cur.buf = s.ctx.cur.buf
  stop : s'.ctx.cur.stop = s.ctx.cur.stop
  errs : s'.res.errors = s.res.errors
  oks : ∀ m ∈ ms, Matches.isOk m = true
  ext : Extent ms a s'.ctx.cur.start
  lo : s.ctx.cur.start ≤ a
  le : a ≤ s'.ctx.cur.start
  times : Times F s.ctx.cur.buf s.ctx.cur.stop n s.ctx.cur.start s.ctx.env a s'.ctx.cur.start s'.ctx.env

/-- The check of a `CHECK-COUNT` loop, as a `CHECK`. -/
abbrev asPlain (F : Finder E) : Check E := ⟨.plain, F, fun _ _ _ _ _ => True⟩

theorem Counted.one {F : Finder E} {s : St E} {m : MatchResult} {c : Ctx E} {x e : Nat}
    (ha : Acts (asPlain F) s.ctx m c x e) : Counted F 1 s [[m]] ⟨c, s.res⟩ x := by
  have g := GOut.one ha
  refine ⟨g.wf, g.buf, g.stop, g.errs, g.oks, g.ext, g.lo, g.le, ?_⟩
  have := ha.takes
  simp only [Takes] at this
  dsimp only
  rw [ha.pos]
  exact .one this

theorem Counted.cons {F : Finder E} {n : Nat} {s : St E} {m : MatchResult} {c : Ctx E} {x e : Nat}
    (ha : Acts (asPlain F) s.ctx m c x e) {ms : List Matches} {s' : St E} {a : Nat}
    (h : Counted F n ⟨c, s.res⟩ ms s' a) : Counted F (n + 1) s ([m] :: ms) s' x := by
  have hlo := h.lo
  dsimp only at hlo
  rw [ha.pos] at hlo
  refine ⟨h.wf, by rw [h.buf]; exact ha.buf, by rw [h.stop]; exact ha.stop, h.errs, ?_, ?_, ha.lo, ?_, ?_⟩
  · intro y hy
    rcases List.mem_cons.1 hy with rfl | hy
    · exact ha.isOk_single
    · exact h.oks y hy
  · exact Extent.cons ha.range h.ext (by have := ha.le; omega) (by have := h.le; omega)
  · have := h.le; have := ha.le; omega
  · have h1 := ha.takes
    simp only [Takes] at h1
    have h2 := h.times
    dsimp only at h2
    rw [ha.buf, ha.stop, ha.pos] at h2
    exact .more h1 h2

theorem repeatedLoop_back {p : Pat E} {F : Finder E} (hp : p.Finds F) {n : Nat}
    {acc acc' : List Matches} {s s' : St E} {d : Bool} (w : s.ctx.cur.WF)
    (h : repeatedLoop (.plain p) n acc s = .ok (d, acc', s')) (he : s'.res.errors = s.res.errors) :
    d = true ∧ ∃ new, acc' = acc ++ new ∧ (n = 0 → new = [] ∧ s' = s) ∧ (1 ≤ n → ∃ a, Counted F n s new s' a) := by
  induction n generalizing acc s with
  | zero =>
    simp [repeatedLoop] at h
    obtain ⟨rfl, rfl, rfl⟩ := h
    exact ⟨rfl, [], by simp, by simp, by simp⟩
  | succ n ih =>
    unfold repeatedLoop at h
    obtain ⟨⟨m, ctx⟩, h1, h2⟩ := bind_ok.1 h
    dsimp only at h2
    split at h2
    · rename_i m
      split at h2
      · rename_i f hf
        have hrel := applyPlain_related' hp h1 hf
        simp only [hrel, if_true] at h2
        simp at h2
        exact absurd he (by rw [← h2.2.2]; exact fail_ne (ErrLe.refl (({ctx := ctx, res := s.res} : St E).fail _)))
      · rename_i hnf
        have hmok : m.isOk = true := by
          unfold MatchResult.isOk
          cases hty : m.ty with
          | found => rfl
          | excluded => rfl
          | failed f => exact absurd hty (hnf f)
        obtain ⟨x, e, ha⟩ := applyPlain_back (d := asPlain F) w rfl hp h1 hmok
        obtain ⟨hd, new, hacc, hnil, hne⟩ := ih (s := ⟨ctx, s.res⟩) ha.wf h2 he
        refine ⟨hd, [m] :: new, by simp [hacc], by simp, ?_⟩
        intro _
        cases n with
        | zero =>
          obtain ⟨rfl, rfl⟩ := hnil rfl
          exact ⟨x, Counted.one ha⟩
        | succ k =>
          obtain ⟨a, hg⟩ := hne (by omega)
          exact ⟨x, Counted.cons ha hg⟩
    · simp at h2
      exact absurd he (by rw [← h2.2.2]; exact fail_ne (ErrLe.refl (({ctx := ctx, res := s.res} : St E).fail _)))

theorem repeatedLoop_fwd {p : Pat E} {F : Finder E} (hp : p.Finds F) {n : Nat} (acc : List Matches) {s : St E}
    (w : s.ctx.cur.WF) {a e : Nat} {env' : E}
    (h : Times F s.ctx.cur.buf s.ctx.cur.stop n s.ctx.cur.start s.ctx.env a e env') :
    ∃ new s', repeatedLoop (.plain p) n acc s = .ok (true, acc ++ new, s') ∧ Counted F n s new s' a ∧
      s'.ctx.cur.start = e ∧ s'.ctx.env = env' := by
  have step : ∀ {n acc} {s : St E} {m : MatchResult} {c' : Ctx E}, Rule.apply (.plain p) s.ctx = .ok (some m, c') → m.isOk = true →
      repeatedLoop (.plain p) (n + 1) acc s = repeatedLoop (.plain p) n (acc ++ [[m]]) ⟨c', s.res⟩ := by
    intro n acc s m c' h1 hok
    rw [repeatedLoop, h1]
    simp only [bind, Except.bind]
    split
    · rename_i f hf
      simp [MatchResult.isOk, hf, MatchType.isOk] at hok
    · rfl
  induction n generalizing acc s a with
  | zero => cases h
  | succ n ih =>
    cases h with
    | one hf =>
      obtain ⟨m, c', h1, ha, henv⟩ := Rule.apply_fwd (r := .plain p) (d := asPlain F) (.plain rfl hp) w (by simpa only [Takes] using hf)
      refine ⟨[[m]], ⟨c', s.res⟩, ?_, Counted.one ha, ha.pos, henv⟩
      rw [step h1 ha.ok]
      simp [repeatedLoop]
    | more hf ht =>
      obtain ⟨m, c', h1, ha, henv⟩ := Rule.apply_fwd (r := .plain p) (d := asPlain F) (.plain rfl hp) w (by simpa only [Takes] using hf)
      subst henv
      rw [← ha.buf, ← ha.stop, ← ha.pos] at ht
      obtain ⟨new, s', h2, h3, h4⟩ := ih (acc ++ [[m]]) (s := ⟨c', s.res⟩) ha.wf ht
      refine ⟨[m] :: new, s', ?_, Counted.cons ha h3, h4⟩
      rw [step h1 ha.ok, h2]
      simp

theorem Counted.out {d : Check E} {n : Nat} (hk : d.kind = .count n) {s : St E} {ms : List Matches} {s' : St E} {a : Nat}
    (h : Counted d.first n s ms s' a) : GOut [d] s ms s' a := by
  refine ⟨h.wf, h.buf, h.stop, h.errs, h.oks, h.ext, h.lo, h.le, ?_⟩
  intro nots hn
  exact .take (by simp only [Takes, hk]; exact h.times) hn .nil

theorem checkRepeated_back {p : Pat E} {d : Check E} {n : Nat} (hk : d.kind = .count n) (hp : p.Finds d.first) (hn : 1 ≤ n)
    {s s' : St E} {gr : GR} (w : s.ctx.cur.WF)
    (h : checkRepeated (.plain p) n s = .ok (gr, s')) (hc : Clean s gr s') : ∃ ms a, gr = .matched ms ∧ GOut [d] s ms s' a := by
  unfold checkRepeated at h
  obtain ⟨⟨d', acc, s1⟩, h1, h2⟩ := bind_ok.1 h
  dsimp only at h2
  have hs1 : s1 = s' := by
    split at h2 <;> (simp at h2; exact h2.2)
  subst hs1
  obtain ⟨hd, new, hacc, _, hnn⟩ := repeatedLoop_back hp w h1 hc.errs
  obtain ⟨a, hg⟩ := hnn hn
  simp at hacc
  subst hacc
  subst hd
  simp at h2
  exact ⟨acc, a, h2.symm, hg.out hk⟩

theorem checkRepeated_fwd {p : Pat E} {d : Check E} {n : Nat} (hk : d.kind = .count n) (hp : p.Finds d.first)
    {s : St E} (w : s.ctx.cur.WF) {nots nots' : List (Meaning E)} {pos' : Nat} {env' : E}
    (h : Greedy s.ctx.cur.buf s.ctx.cur.stop s.ctx.cur.start s.ctx.env nots [d] pos' env' nots') :
    ∃ ms s' a, checkRepeated (.plain p) n s = .ok (.matched ms, s') ∧ GOut [d] s ms s' a ∧
      AllAbsent nots s.ctx.cur.buf s.ctx.cur.start a ∧ s'.ctx.cur.start = pos' ∧ s'.ctx.env = env' ∧ nots' = [] := by
  cases h with
  | not hk' _ => rw [hk] at hk'; simp at hk'
  | @take _ _ _ _ _ x e env1 _ _ _ ht hn hg =>
    obtain ⟨rfl, rfl, rfl⟩ := hg.nil_inv
    simp only [Takes, hk] at ht
    obtain ⟨new, s', h1, h2, h3, h4⟩ := repeatedLoop_fwd hp [] w ht
    refine ⟨new, s', x, ?_, h2.out hk, hn, h3, h4, rfl⟩
    rw [List.nil_append] at h1
    simp only [checkRepeated, h1, bind, Except.bind, if_true]

/-! ## Exclusion regions -/

theorem excl_fwd {root : Pat E} {μs : List (Meaning E)} (hd : root.Decides μs) {lo hi : Nat} {s : St E}
    (h1 : lo ≤ hi) (h2 : hi ≤ s.ctx.cur.buf.length) (ha : AllAbsent μs s.ctx.cur.buf lo hi) :
    excl root ⟨lo, hi⟩ s = .ok ([], s.pass root.len) := by
  obtain ⟨m, hrun, hm⟩ := hd.absent _ lo hi s.ctx.env h1 h2 ha
  simp only [excl, checkNot, hrun, hm, bind, Except.bind]

/-! ## Groups and trees -/

mutual
theorem checkGroup_back : ∀ (g : Group E) {ds : List (Check E)} {s s' : St E} {gr : GR}, GDen g ds →
    s.ctx.cur.WF → checkGroup g s = .ok (gr, s') → Clean s gr s' → ∃ ms a, gr = .matched ms ∧ GOut ds s ms s' a
  | .never p, _, _, _, _, hd, _, _, _ => by cases hd
  | .ordered rules, _, _, _, _, hd, w, h, hc => by
    cases hd with
    | ordered hne hr => rw [checkGroup] at h; exact checkOrdered_back hne hr w h hc
  | .repeated rule n, _, _, _, _, hd, w, h, hc => by
    cases hd with
    | repeated hk hp hn => rw [checkGroup] at h; exact checkRepeated_back hk hp hn w h hc
  | .unordered d, _, _, _, _, hd, _, _, _ => by cases hd
  | .bounded d g, _, _, _, _, hd, _, _, _ => by cases hd
  | .tree t, _, _, _, _, hd, w, h, hc => by
    cases hd with
    | tree ht => rw [checkGroup] at h; exact checkTree_back t ht w h hc

theorem checkTree_back : ∀ (t : Tree E) {ds : List (Check E)} {s s' : St E} {gr : GR}, TDen t ds →
    s.ctx.cur.WF → checkTree t s = .ok (gr, s') → Clean s gr s' → ∃ ms a, gr = .matched ms ∧ GOut ds s ms s' a
  | .matchAll g, _, _, _, _, hd, w, h, hc => by
    cases hd with
    | matchAll hg => rw [checkTree] at h; exact checkGroup_back g hg w h hc
  | .matchBefore root left, _, _, _, _, hd, _, _, _ => by cases hd
  | .matchAround root left right, _, s, s', gr, hd, w, h, hc => by
    cases hd with
    | @matchAround _ nd _ _ dl dr hnk hroot hl hr =>
    obtain ⟨gl, s1, hlt, hcl⟩ := around_left_clean h hc
    obtain ⟨lms, a1, rfl, g1⟩ := checkTree_back left hl w hlt hcl
    rw [checkTree, hlt] at h
    have hne1 := g1.ext.ne_nil
    have hasn : assertNonEmpty lms = .ok () := by unfold assertNonEmpty; rw [if_neg (by simpa using hne1)]
    have hx1 : expectNoErr (GR.matched lms, s1) = .ok (true, lms, s1) := rfl
    simp only [bind, Except.bind, hx1, if_true, hasn, g1.ext.maxEnd] at h
    cases hrt : checkTree right s1 with
    | error e => rw [hrt] at h; simp at h
    | ok x =>
      obtain ⟨grr, s2⟩ := x
      rw [hrt] at h
      simp only at h
      have e2 := checkTree_err right hrt
      cases hx2 : expectNoErr (grr, s2) with
      | error e => rw [hx2] at h; simp at h
      | ok y =>
        obtain ⟨ok2, rms, s3⟩ := y
        rw [hx2] at h
        simp only at h
        have hinv := expectNoErr_inv hx2
        simp only [Prod.mk.injEq] at hinv
        obtain ⟨rfl, rfl⟩ := hinv
        have e3 := aroundAfterLeft_err h
        have hse : s'.res.errors = s1.res.errors := by rw [hc.errs, g1.errs]
        obtain ⟨q3, q4⟩ := ErrLe.squeeze e2 e3 hse
        have hsub : ∀ m ∈ rms, m ∈ gr.matches := by
          intro m hm
          cases ok2 with
          | true =>
            simp only [aroundAfterLeft] at h
            obtain ⟨_, _, h⟩ := bind_ok.1 h
            obtain ⟨_, _, h⟩ := bind_ok.1 h
            obtain ⟨_, _, h⟩ := bind_ok.1 h
            obtain ⟨⟨ex, s3⟩, he, h⟩ := bind_ok.1 h
            simp at h; rw [← h.1]; simp [GR.matches]; tauto
          | false => simp [aroundAfterLeft] at h; rw [← h.1]; simp [GR.matches]; tauto
        have hcr : Clean s1 (if ok2 then GR.matched rms else GR.unmatched rms) s2 := by
          refine ⟨q3, by intro f; split <;> simp, ?_⟩
          intro ms hms
          have : ms ∈ rms := by revert hms; split <;> exact id
          exact hc.ok ms (hsub ms this)
        obtain ⟨rms', a2, hrm, g2⟩ := checkTree_back right hr g1.wf hrt hcr
        cases ok2 with
        | false => simp at hrm
        | true =>
          simp at hrm
          subst hrm
          simp only [aroundAfterLeft] at h
          obtain ⟨_, _, h⟩ := bind_ok.1 h
          obtain ⟨rs, hrs, h⟩ := bind_ok.1 h
          rw [g2.ext.minStart] at hrs
          simp at hrs
          subst hrs
          obtain ⟨r, hr', h⟩ := bind_ok.1 h
          obtain ⟨hreq, _, _⟩ := bounded_inv hr'
          obtain ⟨⟨ex, s3⟩, he, h⟩ := bind_ok.1 h
          simp only [Except.ok.injEq, Prod.mk.injEq] at h
          have hexok : ∀ m ∈ ex, Matches.isOk m = true := by
            intro m hm
            exact hc.ok m (by rw [← h.1]; simp [GR.matches, hm])
          obtain ⟨hex, hctx, hab⟩ := excl_ok hroot.complete he hexok
          obtain ⟨hgeq, rfl⟩ := h
          subst hex
          subst hreq
          refine ⟨lms ++ rms, a1, by rw [← hgeq]; simp, ?_⟩
          have l1 := g1.le
          have l2 := g2.lo
          have l3 := g2.le
          refine ⟨by rw [hctx]; exact g2.wf, by rw [hctx, g2.buf, g1.buf], by rw [hctx, g2.stop, g1.stop], hc.errs, ?_, ?_, g1.lo, ?_, ?_⟩
          · intro m hm
            rcases List.mem_append.1 hm with hm | hm
            · exact g1.oks m hm
            · exact g2.oks m hm
          · rw [hctx]; exact Extent.append g1.ext g2.ext (by omega) (by omega)
          · rw [hctx]; omega
          · intro nots hna
            refine (g1.run nots hna).append ?_
            rw [Greedy.nots_iff hnk]
            rw [hctx]
            dsimp only at hab
            rw [g2.buf] at hab
            have := g2.run _ hab
            rw [g1.buf, g1.stop] at this
            simpa using this
  | .matchAfter root right, _, s, s', gr, hd, w, h, hc => by
    cases hd with
    | @matchAfter _ nd _ dr hnk hroot hr =>
    obtain ⟨grr, s1, hrt, hcr⟩ := after_right_clean h hc
    obtain ⟨rms, a2, rfl, g2⟩ := checkTree_back right hr w hrt hcr
    rw [checkTree, hrt] at h
    have hx1 : expectNoErr (GR.matched rms, s1) = .ok (true, rms, s1) := rfl
    obtain ⟨_, hq, h⟩ := bind_ok.1 h
    cases hq
    obtain ⟨_, hq, h⟩ := bind_ok.1 h
    rw [hx1] at hq
    cases hq
    simp only [afterAfter] at h
    obtain ⟨_, _, h⟩ := bind_ok.1 h
    obtain ⟨rs, hrs, h⟩ := bind_ok.1 h
    rw [g2.ext.minStart] at hrs
    simp at hrs
    subst hrs
    obtain ⟨r, hr', h⟩ := bind_ok.1 h
    obtain ⟨hreq, _, _⟩ := bounded_inv hr'
    obtain ⟨⟨ex, s3⟩, he, h⟩ := bind_ok.1 h
    simp only [Except.ok.injEq, Prod.mk.injEq] at h
    have hexok : ∀ m ∈ ex, Matches.isOk m = true := by
      intro m hm
      exact hc.ok m (by rw [← h.1]; simp [GR.matches, hm])
    obtain ⟨hex, hctx, hab⟩ := excl_ok hroot.complete he hexok
    obtain ⟨hgeq, rfl⟩ := h
    subst hex
    subst hreq
    refine ⟨rms, a2, by rw [← hgeq]; simp, ?_⟩
    refine ⟨by rw [hctx]; exact g2.wf, by rw [hctx, g2.buf], by rw [hctx, g2.stop], hc.errs, g2.oks, ?_, g2.lo, ?_, ?_⟩
    · rw [hctx]; exact g2.ext
    · rw [hctx]; exact g2.le
    · intro nots hna
      rw [Greedy.nots_iff hnk, hctx]
      dsimp only at hab
      rw [g2.buf] at hab
      exact g2.run _ (AllAbsent.append.2 ⟨hna, hab⟩)
end

mutual
theorem checkGroup_fwd : ∀ (g : Group E) {ds : List (Check E)} {s : St E} {nots nots' : List (Meaning E)} {pos' : Nat} {env' : E},
    GDen g ds → s.ctx.cur.WF →
    Greedy s.ctx.cur.buf s.ctx.cur.stop s.ctx.cur.start s.ctx.env nots ds pos' env' nots' →
    ∃ ms s' a, checkGroup g s = .ok (.matched ms, s') ∧ GOut ds s ms s' a ∧
      AllAbsent nots s.ctx.cur.buf s.ctx.cur.start a ∧ s'.ctx.cur.start = pos' ∧ s'.ctx.env = env' ∧ nots' = []
  | .never p, _, _, _, _, _, _, hd, _, _ => by cases hd
  | .ordered rules, _, _, _, _, _, _, hd, w, h => by
    cases hd with
    | ordered hne hr => rw [checkGroup]; exact checkOrdered_fwd hne hr w h
  | .repeated rule n, _, _, _, _, _, _, hd, w, h => by
    cases hd with
    | repeated hk hp hn => rw [checkGroup]; exact checkRepeated_fwd hk hp w h
  | .unordered d, _, _, _, _, _, _, hd, _, _ => by cases hd
  | .bounded d g, _, _, _, _, _, _, hd, _, _ => by cases hd
  | .tree t, _, _, _, _, _, _, hd, w, h => by
    cases hd with
    | tree ht => rw [checkGroup]; exact checkTree_fwd t ht w h

theorem checkTree_fwd : ∀ (t : Tree E) {ds : List (Check E)} {s : St E} {nots nots' : List (Meaning E)} {pos' : Nat} {env' : E},
    TDen t ds → s.ctx.cur.WF →
    Greedy s.ctx.cur.buf s.ctx.cur.stop s.ctx.cur.start s.ctx.env nots ds pos' env' nots' →
    ∃ ms s' a, checkTree t s = .ok (.matched ms, s') ∧ GOut ds s ms s' a ∧
      AllAbsent nots s.ctx.cur.buf s.ctx.cur.start a ∧ s'.ctx.cur.start = pos' ∧ s'.ctx.env = env' ∧ nots' = []
  | .matchAll g, _, _, _, _, _, _, hd, w, h => by
    cases hd with
    | matchAll hg => rw [checkTree]; exact checkGroup_fwd g hg w h
  | .matchBefore root left, _, _, _, _, _, _, hd, _, _ => by cases hd
  | .matchAround root left right, _, s, nots, _, _, _, hd, w, h => by
    have hd0 := hd
    cases hd with
    | @matchAround _ nd _ _ dl dr hnk hroot hl hr =>
    obtain ⟨p1, env1, n1, h1, h2⟩ := h.split
    obtain ⟨lms, s1, a1, hlt, g1, hab1, rfl, rfl, rfl⟩ := checkTree_fwd left hl w h1
    rw [Greedy.nots_iff hnk, List.nil_append, ← g1.buf, ← g1.stop] at h2
    obtain ⟨rms, s2, a2, hrt, g2, hab2, rfl, rfl, rfl⟩ := checkTree_fwd right hr g1.wf h2
    have hasn1 : assertNonEmpty lms = .ok () := by
      unfold assertNonEmpty; rw [if_neg (by simpa using g1.ext.ne_nil)]
    have hasn2 : assertNonEmpty rms = .ok () := by
      unfold assertNonEmpty; rw [if_neg (by simpa using g2.ext.ne_nil)]
    have hhi : a2 ≤ s2.ctx.cur.buf.length := by have := g2.le; have := g2.wf.lo; have := g2.wf.hi; omega
    have hsr : s2.ctx.cur.searchRange s1.ctx.cur.start a2 = .ok ⟨s1.ctx.cur.start, a2⟩ :=
      bounded_ok g2.lo hhi
    have hex : excl root ⟨s1.ctx.cur.start, a2⟩ s2 = .ok ([], s2.pass root.len) :=
      excl_fwd hroot g2.lo hhi (by rw [g2.buf]; exact hab2)
    have hrun : checkTree (.matchAround root left right) s = .ok (.matched (lms ++ [] ++ rms), s2.pass root.len) := by
      rw [checkTree, hlt]
      simp only [bind, Except.bind, expectNoErr, if_true, hasn1, hasn2, g1.ext.maxEnd, hrt, aroundAfterLeft, g2.ext.minStart, hsr, hex]
    rw [List.append_nil] at hrun
    have hcl : Clean s (.matched (lms ++ rms)) (s2.pass root.len) := by
      refine ⟨by rw [pass_errors, g2.errs, g1.errs], by simp, ?_⟩
      intro m hm
      rcases List.mem_append.1 hm with hm | hm
      · exact g1.oks m hm
      · exact g2.oks m hm
    obtain ⟨ms, a, hms, g⟩ := checkTree_back _ hd0 w hrun hcl
    simp only [GR.matched.injEq] at hms
    subst hms
    have haa : a = a1 := by
      have l1 := g1.le
      have l2 := g2.lo
      have l3 := g2.le
      have e1 := (Extent.append g1.ext g2.ext (by omega) (by omega)).minStart
      have e2 := g.ext.minStart
      rw [e1] at e2
      simpa using e2.symm
    subst haa
    exact ⟨_, _, a, hrun, g, hab1, rfl, rfl, rfl⟩
  | .matchAfter root right, _, s, nots, _, _, _, hd, w, h => by
    have hd0 := hd
    cases hd with
    | @matchAfter _ nd _ dr hnk hroot hr =>
    rw [Greedy.nots_iff hnk] at h
    obtain ⟨rms, s2, a2, hrt, g2, hab2, rfl, rfl, rfl⟩ := checkTree_fwd right hr w h
    obtain ⟨hab, hab3⟩ := AllAbsent.append.1 hab2
    have hasn2 : assertNonEmpty rms = .ok () := by
      unfold assertNonEmpty; rw [if_neg (by simpa using g2.ext.ne_nil)]
    have hhi : a2 ≤ s2.ctx.cur.buf.length := by have := g2.le; have := g2.wf.lo; have := g2.wf.hi; omega
    have hsr : s2.ctx.cur.searchRange s.ctx.cur.start a2 = .ok ⟨s.ctx.cur.start, a2⟩ := bounded_ok g2.lo hhi
    have hex : excl root ⟨s.ctx.cur.start, a2⟩ s2 = .ok ([], s2.pass root.len) :=
      excl_fwd hroot g2.lo hhi (by rw [g2.buf]; exact hab3)
    have hrun : checkTree (.matchAfter root right) s = .ok (.matched (rms ++ []), s2.pass root.len) := by
      rw [checkTree, hrt]
      simp only [bind, Except.bind, expectNoErr, hasn2, afterAfter, g2.ext.minStart, hsr, hex]
    rw [List.append_nil] at hrun
    have hcl : Clean s (.matched rms) (s2.pass root.len) :=
      ⟨by rw [pass_errors, g2.errs], by simp, g2.oks⟩
    obtain ⟨ms, a, hms, g⟩ := checkTree_back _ hd0 w hrun hcl
    simp only [GR.matched.injEq] at hms
    subst hms
    have haa : a = a2 := by
      have e1 := g2.ext.minStart
      have e2 := g.ext.minStart
      rw [e1] at e2
      simpa using e2.symm
    subst haa
    exact ⟨_, _, a, hrun, g, hab, rfl, rfl, rfl⟩
end

end Litcheck
