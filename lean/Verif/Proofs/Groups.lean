import Verif.Proofs.Errors
import Verif.Proofs.Rules

/-!
# Soundness of `check_group`: a group which passes was matched by its directives, in order
-/

namespace Litcheck
open Spec
variable {E : Type}

/-! ## Properties of `Run` -/

theorem Spec.AllAbsent.mono {ms : List (Meaning E)} {b : Buf} {lo hi lo' hi' : Nat} (h : AllAbsent ms b lo hi)
    (h1 : lo ≤ lo') (h2 : hi' ≤ hi) : AllAbsent ms b lo' hi' := by
  intro m hm s e hs hse he
  exact h m hm s e (by omega) hse (by omega)

theorem Spec.AllAbsent.append {ms ms' : List (Meaning E)} {b : Buf} {lo hi : Nat} :
    AllAbsent (ms ++ ms') b lo hi ↔ AllAbsent ms b lo hi ∧ AllAbsent ms' b lo hi := by
  simp only [AllAbsent, List.mem_append]
  constructor
  · intro h; exact ⟨fun m hm => h m (Or.inl hm), fun m hm => h m (Or.inr hm)⟩
  · rintro ⟨h1, h2⟩ m (hm | hm)
    · exact h1 m hm
    · exact h2 m hm

theorem Spec.AllAbsent.nil {b : Buf} {lo hi : Nat} : AllAbsent ([] : List (Meaning E)) b lo hi := by
  intro m hm; simp at hm

theorem Spec.Chain.bounds {m : Meaning E} {b : Buf} {hi n pos : Nat} {env env' : E} {s e : Nat}
    (h : Chain m b hi n pos env s e env') : pos ≤ s ∧ s ≤ e ∧ e ≤ hi := by
  induction h with
  | one h1 h2 h3 _ => exact ⟨h1, h2, h3⟩
  | more h1 h2 h3 _ _ ih => exact ⟨h1, by omega, ih.2.2⟩

theorem Spec.DagMatch.bounds {ms : List (Meaning E)} {b : Buf} {hi pos s e : Nat}
    (h : DagMatch ms b hi pos s e) : pos ≤ s ∧ s ≤ e ∧ e ≤ hi := by
  obtain ⟨spans, hf, hpw, hall, ⟨x, hx, hxs⟩, ⟨y, hy, hye⟩⟩ := h
  have hb : ∀ sp ∈ spans, pos ≤ sp.1 ∧ sp.1 ≤ sp.2 ∧ sp.2 ≤ hi := by
    clear hall hx hy hpw
    induction hf with
    | nil => intro sp h; simp at h
    | cons h1 _ ih =>
      intro sp h
      rcases List.mem_cons.1 h with rfl | h
      · exact ⟨h1.1, h1.2.1, h1.2.2.1⟩
      · exact ih sp h
  have h1 := hb x hx
  have h2 := hb y hy
  have h3 := hall x hx
  have h4 := hall y hy
  omega

/-- Forbidding more patterns, if they do not occur in the rest of the block. -/
theorem Spec.Run.weaken {b : Buf} {hi pos pos' : Nat} {env env' : E} {nots : List (Meaning E)} {ds : List (Directive E)}
    (h : Run b hi pos env nots ds pos' env') (extra : List (Meaning E)) (ha : AllAbsent extra b pos hi) :
    Run b hi pos env (extra ++ nots) ds pos' env' := by
  induction h with
  | done h => exact .done (AllAbsent.append.2 ⟨ha, h⟩)
  | not _ ih => exact .not (by rw [List.append_assoc]; exact ih ha)
  | step h1 h2 h3 _ =>
    refine .step h1 (AllAbsent.append.2 ⟨ha.mono (Nat.le_refl _) ?_, h2⟩) h3
    obtain ⟨_, h5, h6, _⟩ := h1; omega
  | count h1 h2 h3 _ =>
    refine .count h1 (AllAbsent.append.2 ⟨ha.mono (Nat.le_refl _) ?_, h2⟩) h3
    have := Chain.bounds h1; omega
  | dags h0 h1 h2 h3 _ =>
    refine .dags h0 h1 (AllAbsent.append.2 ⟨ha.mono (Nat.le_refl _) ?_, h2⟩) h3
    have := DagMatch.bounds h1.match_; omega

/-- Two runs one after the other. -/
theorem Spec.Run.append {b : Buf} {hi pos pos1 pos2 : Nat} {env env1 env2 : E} {nots : List (Meaning E)}
    {ds1 ds2 : List (Directive E)} (h : Run b hi pos env nots ds1 pos1 env1)
    (h2 : Run b hi pos1 env1 [] ds2 pos2 env2) : Run b hi pos env nots (ds1 ++ ds2) pos2 env2 := by
  induction h with
  | @done _ _ nots h =>
    have := Run.weaken h2 nots h
    simpa using this
  | not _ ih => exact .not (ih h2)
  | step h1 h3 _ ih => exact .step h1 h3 (ih h2)
  | count h1 h3 _ ih => exact .count h1 h3 (ih h2)
  | dags h0 h1 h3 _ ih => rw [List.append_assoc]; exact .dags h0 h1 h3 (ih h2)

/-- A list of `CHECK-NOT` directives in front. -/
theorem Spec.Run.nots {b : Buf} {hi pos pos' : Nat} {env env' : E} (ms : List (Meaning E)) {nots : List (Meaning E)}
    {ds : List (Directive E)} (h : Run b hi pos env (nots ++ ms) ds pos' env') :
    Run b hi pos env nots (ms.map (⟨.not, ·⟩) ++ ds) pos' env' := by
  induction ms generalizing nots with
  | nil => simpa using h
  | cons m ms ih =>
    refine .not ?_
    apply ih
    simpa using h

/-! ## Extent of a list of matches -/

/-- The matches have ranges, which span exactly `a..z`. -/
def Extent (ms : List Matches) (a z : Nat) : Prop :=
  ∃ R, rangesOf ms = .ok R ∧ (∀ r ∈ R, a ≤ r.start ∧ r.stop ≤ z) ∧ (∃ r ∈ R, r.start = a) ∧ (∃ r ∈ R, r.stop = z)

theorem rangesOf_append {ms ms' : List Matches} {R R' : List Rng} (h : rangesOf ms = .ok R)
    (h' : rangesOf ms' = .ok R') : rangesOf (ms ++ ms') = .ok (R ++ R') := by
  induction ms generalizing R with
  | nil => simp [rangesOf] at h; subst h; simpa using h'
  | cons m ms ih =>
    simp only [rangesOf] at h
    obtain ⟨r, h1, h⟩ := bind_ok.1 h
    obtain ⟨rs, h2, h⟩ := bind_ok.1 h
    simp at h
    rw [List.cons_append, rangesOf, h1]
    simp only [bind, Except.bind, ih h2]
    cases r <;> simp at h <;> subst h <;> rfl

theorem Extent.one {m : Matches} {s e : Nat} (h : Matches.range m = .ok (some ⟨s, e⟩)) : Extent [m] s e := by
  refine ⟨[⟨s, e⟩], ?_, ?_, ?_, ?_⟩
  · simp [rangesOf, h, bind, Except.bind]
  · simp
  · simp
  · simp

theorem Extent.append {ms ms' : List Matches} {a z a' z' : Nat} (h : Extent ms a z) (h' : Extent ms' a' z')
    (ha : a ≤ a') (hz : z ≤ z') : Extent (ms ++ ms') a z' := by
  obtain ⟨R, h1, h2, ⟨x, hx, hxa⟩, _⟩ := h
  obtain ⟨R', h1', h2', _, ⟨y, hy, hyz⟩⟩ := h'
  refine ⟨R ++ R', rangesOf_append h1 h1', ?_, ⟨x, by simp [hx], hxa⟩, ⟨y, by simp [hy], hyz⟩⟩
  intro r hr
  rcases List.mem_append.1 hr with hr | hr
  · have := h2 r hr; omega
  · have := h2' r hr; omega

theorem foldl_max_stop (R : List Rng) (x : Nat) :
    x ≤ R.foldl (fun a r => max a r.stop) x ∧ (∀ r ∈ R, r.stop ≤ R.foldl (fun a r => max a r.stop) x) ∧
    (R.foldl (fun a r => max a r.stop) x = x ∨ ∃ r ∈ R, R.foldl (fun a r => max a r.stop) x = r.stop) := by
  induction R generalizing x with
  | nil => simp
  | cons r R ih =>
    simp only [List.foldl_cons]
    obtain ⟨h1, h2, h3⟩ := ih (max x r.stop)
    refine ⟨by omega, ?_, ?_⟩
    · intro r' hr'
      rcases List.mem_cons.1 hr' with rfl | hr'
      · omega
      · exact h2 r' hr'
    · rcases h3 with h3 | ⟨r', hr', h3⟩
      · rw [h3]
        rcases Nat.le_total x r.stop with h | h
        · exact Or.inr ⟨r, by simp, by omega⟩
        · exact Or.inl (by omega)
      · exact Or.inr ⟨r', by simp [hr'], h3⟩

theorem foldl_min_start (R : List Rng) (x : Nat) :
    R.foldl (fun a r => min a r.start) x ≤ x ∧ (∀ r ∈ R, R.foldl (fun a r => min a r.start) x ≤ r.start) ∧
    (R.foldl (fun a r => min a r.start) x = x ∨ ∃ r ∈ R, R.foldl (fun a r => min a r.start) x = r.start) := by
  induction R generalizing x with
  | nil => simp
  | cons r R ih =>
    simp only [List.foldl_cons]
    obtain ⟨h1, h2, h3⟩ := ih (min x r.start)
    refine ⟨by omega, ?_, ?_⟩
    · intro r' hr'
      rcases List.mem_cons.1 hr' with rfl | hr'
      · omega
      · exact h2 r' hr'
    · rcases h3 with h3 | ⟨r', hr', h3⟩
      · rw [h3]
        rcases Nat.le_total x r.start with h | h
        · exact Or.inl (by omega)
        · exact Or.inr ⟨r, by simp, by omega⟩
      · exact Or.inr ⟨r', by simp [hr'], h3⟩

theorem Extent.maxEnd {ms : List Matches} {a z : Nat} (h : Extent ms a z) : maxEnd ms = .ok z := by
  obtain ⟨R, h1, h2, _, ⟨y, hy, hyz⟩⟩ := h
  unfold Litcheck.maxEnd
  simp only [h1, bind, Except.bind]
  cases R with
  | nil => simp at hy
  | cons r R =>
    obtain ⟨k1, k2, k3⟩ := foldl_max_stop R r.stop
    simp only [Except.ok.injEq]
    have hr := h2 r (by simp)
    rcases List.mem_cons.1 hy with rfl | hy'
    · rcases k3 with k3 | ⟨r', hr', k3⟩
      · omega
      · have := h2 r' (by simp [hr']); omega
    · have := k2 y hy'
      rcases k3 with k3 | ⟨r', hr', k3⟩
      · omega
      · have := h2 r' (by simp [hr']); omega

theorem Extent.minStart {ms : List Matches} {a z : Nat} (h : Extent ms a z) : minStart ms = .ok a := by
  obtain ⟨R, h1, h2, ⟨y, hy, hyz⟩, _⟩ := h
  unfold Litcheck.minStart
  simp only [h1, bind, Except.bind]
  cases R with
  | nil => simp at hy
  | cons r R =>
    obtain ⟨k1, k2, k3⟩ := foldl_min_start R r.start
    simp only [Except.ok.injEq]
    have hr := h2 r (by simp)
    rcases List.mem_cons.1 hy with rfl | hy'
    · rcases k3 with k3 | ⟨r', hr', k3⟩
      · omega
      · have := h2 r' (by simp [hr']); omega
    · have := k2 y hy'
      rcases k3 with k3 | ⟨r', hr', k3⟩
      · omega
      · have := h2 r' (by simp [hr']); omega

/-! ## What a group means -/

/-- The matches a group reports. -/
def GR.matches : GR → List Matches
  | .matched ms => ms
  | .unmatched ms => ms
  | .err _ => []

/-- A group reports nothing wrong: no error is recorded, and all its matches are ok. -/
structure Clean (s : St E) (gr : GR) (s' : St E) : Prop where
  errs : s'.res.errors = s.res.errors
  noErr : ∀ f, gr ≠ .err f
  ok : ∀ ms ∈ gr.matches, Matches.isOk ms = true

/-- What a clean group guarantees. -/
structure GroupOk (ds : List (Directive E)) (s : St E) (gr : GR) (s' : St E) : Prop where
  wf : s'.ctx.cur.WF
  buf : s'.ctx.cur.buf = s.ctx.cur.buf
  stop : s'.ctx.cur.stop = s.ctx.cur.stop
  body : ∃ ms a, gr = .matched ms ∧ Extent ms a s'.ctx.cur.start ∧ s.ctx.cur.start ≤ a ∧ a ≤ s'.ctx.cur.start ∧
    ∀ nots, AllAbsent nots s.ctx.cur.buf s.ctx.cur.start a →
      Run s.ctx.cur.buf s.ctx.cur.stop s.ctx.cur.start s.ctx.env nots ds s'.ctx.cur.start s'.ctx.env

mutual
/-- The directives which a group (other than `Never`) stands for. -/
inductive GroupDen : Group E → List (Directive E) → Prop
  | ordered {rules ds} : rules ≠ [] → List.Forall₂ Rule.Sound rules ds → GroupDen (.ordered rules) ds
  | repeated {p μ n} : p.Sound μ → 1 ≤ n → GroupDen (.repeated (.plain p) n) [⟨.count n, μ⟩]
  | unordered {d μs} : d.Sound μs → μs ≠ [] → GroupDen (.unordered d) (μs.map (⟨.dag, ·⟩))
  | bounded {d μs g ds} : d.Sound μs → μs ≠ [] → GroupDen g ds → GroupDen (.bounded d g) (μs.map (⟨.dag, ·⟩) ++ ds)
  | tree {t ds} : TreeDen t ds → GroupDen (.tree t) ds
/-- The directives which a tree stands for. -/
inductive TreeDen : Tree E → List (Directive E) → Prop
  | matchAll {g ds} : GroupDen g ds → TreeDen (.matchAll g) ds
  | matchAround {root μs l r dl dr} : root.Complete μs → TreeDen l dl → TreeDen r dr →
      TreeDen (.matchAround root l r) (dl ++ (μs.map (⟨.not, ·⟩) ++ dr))
  | matchBefore {root μs l dl} : root.Complete μs → TreeDen l dl →
      TreeDen (.matchBefore root l) (dl ++ μs.map (⟨.not, ·⟩))
  | matchAfter {root μs r dr} : root.Complete μs → TreeDen r dr →
      TreeDen (.matchAfter root r) (μs.map (⟨.not, ·⟩) ++ dr)
end

theorem range_single {m : MatchResult} {i : Info} (h : m.info = some i) (hok : m.isOk = true) :
    Matches.range [m] = .ok (some ⟨i.start, i.stop⟩) := by
  simp [Matches.range, h, hok, Info.range]

/-- The loop over the rules of an ordered group. -/
theorem orderedLoop_ok {rules : List (Rule E)} {ds : List (Directive E)} (hr : List.Forall₂ Rule.Sound rules ds)
    {acc acc' : List Matches} {s s' : St E} {d : Bool} (w : s.ctx.cur.WF)
    (h : orderedLoop rules acc s = .ok (d, acc', s')) (he : s'.res.errors = s.res.errors) :
    d = true ∧ s'.ctx.cur.WF ∧ s'.ctx.cur.buf = s.ctx.cur.buf ∧ s'.ctx.cur.stop = s.ctx.cur.stop ∧
    ∃ new, acc' = acc ++ new ∧ (rules = [] → new = [] ∧ s' = s) ∧
      (rules ≠ [] → ∃ a, Extent new a s'.ctx.cur.start ∧ s.ctx.cur.start ≤ a ∧ a ≤ s'.ctx.cur.start ∧
        ∀ nots, AllAbsent nots s.ctx.cur.buf s.ctx.cur.start a →
        Run s.ctx.cur.buf s.ctx.cur.stop s.ctx.cur.start s.ctx.env nots ds s'.ctx.cur.start s'.ctx.env) := by
  induction hr generalizing acc s with
  | nil =>
    simp [orderedLoop] at h
    obtain ⟨rfl, rfl, rfl⟩ := h
    exact ⟨rfl, w, rfl, rfl, [], by simp, by simp, by simp⟩
  | @cons r dd rs ds hrd _ ih =>
    unfold orderedLoop at h
    obtain ⟨⟨m, ctx⟩, h1, h2⟩ := bind_ok.1 h
    dsimp only at h2
    split at h2
    · rename_i m
      split at h2
      · rename_i hok
        have hmok : m.isOk = true := by simpa [Matches.isOk] using hok
        have rk := Rule.apply_ok hrd w h1 hmok
        obtain ⟨i, hi, hstep, hst⟩ := rk.step
        have hw : ({ctx := ctx, res := s.res} : St E).ctx.cur.WF := rk.wf
        obtain ⟨hd, w', hb, hs, new, hacc, hnil, hne⟩ := ih hw h2 he
        refine ⟨hd, w', by rw [hb]; exact rk.buf, by rw [hs]; exact rk.stop, [m] :: new, by simp [hacc], by simp, ?_⟩
        intro _
        have hlo := hstep.1
        have hhi := hstep.2.1
        have hext : Extent [[m]] i.start i.stop := Extent.one (range_single hi hmok)
        by_cases hrs : rs = []
        · obtain ⟨hn, hss⟩ := hnil hrs
          have hctx : s'.ctx = ctx := by rw [hss]
          have hds : ds = [] := by
            cases ds with
            | nil => rfl
            | cons x y => rename_i hfa; subst hrs; cases hfa
          refine ⟨i.start, ?_, hlo, ?_, ?_⟩
          · rw [hn, hctx, hst]; exact hext
          · rw [hctx, hst]; exact hhi
          · intro nots hna
            rw [hds, hctx, hst]
            exact .step hstep hna (.done AllAbsent.nil)
        · obtain ⟨a, hea, h3, h4, hrun⟩ := hne hrs
          have h3' : i.stop ≤ a := by rw [← hst]; exact h3
          refine ⟨i.start, Extent.append hext hea (by omega) (by omega), hlo, by omega, ?_⟩
          intro nots hna
          have hr2 := hrun [] AllAbsent.nil
          simp only at hr2
          rw [rk.buf, rk.stop, hst] at hr2
          exact .step hstep hna hr2
      · split at h2
        · simp at h2
          exact absurd he (by rw [← h2.2.2]; exact fail_ne (ErrLe.refl (({ctx := ctx, res := s.res} : St E).fail _)))
        · simp at h2
          exact absurd he (by rw [← h2.2.2]; exact fail_ne (ErrLe.refl (({ctx := ctx, res := s.res} : St E).fail _)))
    · have e := orderedLoop_err h2
      exact absurd he (fail_ne (s := ({ctx := ctx, res := s.res} : St E)) e)

theorem applyPlain_related {p : Pat E} {μ : Meaning E} (hp : p.Sound μ) {c c' : Ctx E} {m : MatchResult}
    (h : Rule.applyPlain p c = .ok (some m, c')) {f : Failure} (hf : m.ty = .failed f) : f.related = true := by
  unfold Rule.applyPlain at h
  obtain ⟨r, _, h⟩ := bind_ok.1 h
  have hno : m.isOk = false := by simp [MatchResult.isOk, hf, MatchType.isOk]
  cases htp : p.tryProtected c.cur.buf r c.env with
  | mk mo env' =>
    rw [htp] at h
    cases mo with
    | none => simp [Rule.finish] at h
    | some m' =>
      have hmm : m' = m := by
        simp only [Rule.finish] at h
        split at h
        · obtain ⟨cur', _, h⟩ := bind_ok.1 h
          simp at h; exact h.1
        · simp at h; exact h.1
      subst hmm
      obtain ⟨_, env1, hrun⟩ := tryProtected_failed htp hno
      exact hp.related _ _ _ _ _ _ hrun hf

/-- The loop of a `CHECK-COUNT` group. -/
theorem repeatedLoop_ok {p : Pat E} {μ : Meaning E} (hp : p.Sound μ) {n : Nat}
    {acc acc' : List Matches} {s s' : St E} {d : Bool} (w : s.ctx.cur.WF)
    (h : repeatedLoop (.plain p) n acc s = .ok (d, acc', s')) (he : s'.res.errors = s.res.errors) :
    d = true ∧ s'.ctx.cur.WF ∧ s'.ctx.cur.buf = s.ctx.cur.buf ∧ s'.ctx.cur.stop = s.ctx.cur.stop ∧
    ∃ new, acc' = acc ++ new ∧ (n = 0 → new = [] ∧ s' = s) ∧
      (1 ≤ n → ∃ a, Extent new a s'.ctx.cur.start ∧ s.ctx.cur.start ≤ a ∧ a ≤ s'.ctx.cur.start ∧
        Chain μ s.ctx.cur.buf s.ctx.cur.stop n s.ctx.cur.start s.ctx.env a s'.ctx.cur.start s'.ctx.env) := by
  induction n generalizing acc s with
  | zero =>
    simp [repeatedLoop] at h
    obtain ⟨rfl, rfl, rfl⟩ := h
    exact ⟨rfl, w, rfl, rfl, [], by simp, by simp, by simp⟩
  | succ n ih =>
    unfold repeatedLoop at h
    obtain ⟨⟨m, ctx⟩, h1, h2⟩ := bind_ok.1 h
    dsimp only at h2
    split at h2
    · rename_i m
      split at h2
      · rename_i f hf
        have hrel := applyPlain_related hp h1 hf
        simp only [hrel, if_true] at h2
        simp at h2
        exact absurd he (by rw [← h2.2.2]; exact fail_ne (ErrLe.refl (({ctx := ctx, res := s.res} : St E).fail _)))
      · rename_i hnf
        have hmok : m.isOk = true := by
          unfold MatchResult.isOk
          cases hty : m.ty with
          | found => rfl
          | excluded => rfl
          | failed f => exact absurd hty (hnf f)
        have rk := Rule.apply_ok (Rule.Sound.plain hp) w h1 hmok
        obtain ⟨i, hi, ⟨hlo, hhi, hle, hmean⟩, hst⟩ := rk.step
        simp only at hmean
        have hw : ({ctx := ctx, res := s.res} : St E).ctx.cur.WF := rk.wf
        obtain ⟨hd, w', hb, hs, new, hacc, hnil, hne⟩ := ih hw h2 he
        refine ⟨hd, w', by rw [hb]; exact rk.buf, by rw [hs]; exact rk.stop, [m] :: new, by simp [hacc], by simp, ?_⟩
        intro _
        have hext : Extent [[m]] i.start i.stop := Extent.one (range_single hi hmok)
        cases n with
        | zero =>
          obtain ⟨hn, hss⟩ := hnil rfl
          have hctx : s'.ctx = ctx := by rw [hss]
          refine ⟨i.start, ?_, hlo, ?_, ?_⟩
          · rw [hn, hctx, hst]; exact hext
          · rw [hctx, hst]; exact hhi
          · rw [hctx, hst]; exact .one hlo hhi hle hmean
        | succ k =>
          obtain ⟨a, hea, h3, h4, hch⟩ := hne (by omega)
          have h3' : i.stop ≤ a := by rw [← hst]; exact h3
          refine ⟨i.start, Extent.append hext hea (by omega) (by omega), hlo, by omega, ?_⟩
          simp only at hch
          rw [rk.buf, rk.stop, hst] at hch
          exact .more hlo hhi hle hmean hch
    · simp at h2
      exact absurd he (by rw [← h2.2.2]; exact fail_ne (ErrLe.refl (({ctx := ctx, res := s.res} : St E).fail _)))

theorem rangesOf_nil_of_none {acc : List Matches} (h : allRangesNone acc = .ok true) : rangesOf acc = .ok [] := by
  induction acc with
  | nil => rfl
  | cons m ms ih =>
    unfold allRangesNone at h
    obtain ⟨r, hr, h⟩ := bind_ok.1 h
    cases r with
    | none => simp only at h; simp [rangesOf, hr, ih h, bind, Except.bind]
    | some r => simp at h

theorem Extent.not_none {ms : List Matches} {a z : Nat} (h : Extent ms a z) : allRangesNone ms ≠ .ok true := by
  intro h'
  obtain ⟨R, h1, _, ⟨r, hr, _⟩, _⟩ := h
  rw [rangesOf_nil_of_none h'] at h1
  simp at h1; subst h1; simp at hr

theorem checkOrdered_ok {rules : List (Rule E)} {ds : List (Directive E)} (hne : rules ≠ [])
    (hr : List.Forall₂ Rule.Sound rules ds) {s s' : St E} {gr : GR} (w : s.ctx.cur.WF)
    (h : checkOrdered rules s = .ok (gr, s')) (hc : Clean s gr s') : GroupOk ds s gr s' := by
  unfold checkOrdered at h
  obtain ⟨⟨d, acc, s1⟩, h1, h2⟩ := bind_ok.1 h
  dsimp only at h2
  have hs1 : s1 = s' := by
    split at h2
    · obtain ⟨x, _, h3⟩ := bind_ok.1 h2
      split at h3 <;> (simp at h3; exact h3.2)
    · simp at h2; exact h2.2
  subst hs1
  obtain ⟨hd, w', hb, hs, new, hacc, _, hnn⟩ := orderedLoop_ok hr w h1 hc.errs
  obtain ⟨a, hext, h3, h4, hrun⟩ := hnn hne
  simp at hacc
  subst hacc
  subst hd
  simp only [if_true] at h2
  obtain ⟨x, hx, h5⟩ := bind_ok.1 h2
  have hxf : x = false := by
    cases x with
    | false => rfl
    | true => exact absurd hx hext.not_none
  subst hxf
  simp at h5
  exact ⟨w', hb, hs, acc, a, h5.symm, hext, h3, h4, hrun⟩

theorem checkRepeated_ok {p : Pat E} {μ : Meaning E} (hp : p.Sound μ) {n : Nat} (hn : 1 ≤ n)
    {s s' : St E} {gr : GR} (w : s.ctx.cur.WF)
    (h : checkRepeated (.plain p) n s = .ok (gr, s')) (hc : Clean s gr s') : GroupOk [⟨.count n, μ⟩] s gr s' := by
  unfold checkRepeated at h
  obtain ⟨⟨d, acc, s1⟩, h1, h2⟩ := bind_ok.1 h
  dsimp only at h2
  have hs1 : s1 = s' := by
    split at h2 <;> (simp at h2; exact h2.2)
  subst hs1
  obtain ⟨hd, w', hb, hs, new, hacc, _, hnn⟩ := repeatedLoop_ok hp w h1 hc.errs
  obtain ⟨a, hext, h3, h4, hch⟩ := hnn hn
  simp at hacc
  subst hacc
  subst hd
  simp at h2
  refine ⟨w', hb, hs, acc, a, h2.symm, hext, h3, h4, ?_⟩
  intro nots hna
  exact .count hch hna (.done AllAbsent.nil)

theorem checkUnordered_ok {d : Dag E} {μs : List (Meaning E)} (hd : d.Sound μs) (hne : μs ≠ [])
    {s s' : St E} {gr : GR} (w : s.ctx.cur.WF)
    (h : checkUnordered d s = .ok (gr, s')) (hc : Clean s gr s') : GroupOk (μs.map (⟨.dag, ·⟩)) s gr s' := by
  unfold checkUnordered at h
  obtain ⟨⟨m, ctx⟩, h1, h2⟩ := bind_ok.1 h
  dsimp only at h2
  split at h2
  · rename_i ms
    obtain ⟨x, hx, h3⟩ := bind_ok.1 h2
    have hgr : gr.matches = [ms] ∧ s' = {ctx := ctx, res := s.res} := by
      split at h3 <;> (simp at h3; rw [← h3.1, ← h3.2]; exact ⟨rfl, rfl⟩)
    obtain ⟨hgm, hs'⟩ := hgr
    have hok := hc.ok ms (by simp [hgm])
    obtain ⟨w', hb, hst, a, e, hrg, h4, h5, h6, h7, hdm⟩ := Dag.apply_ok hd w h1 hok
    rw [hrg] at hx
    simp at hx; subst hx
    simp at h3
    subst hs'
    refine ⟨w', hb, hst, [ms], a, h3.1.symm, ?_, h4, ?_, ?_⟩
    · simp only; rw [h7]; exact Extent.one hrg
    · simp only; omega
    · intro nots hna
      have := Run.dags (ds := []) (env := s.ctx.env) (nots := nots) (env1 := ctx.env) hne hdm hna (.done AllAbsent.nil)
      simp only [List.append_nil] at this
      simp only; rw [h7]; exact this
  · simp at h2
    exact absurd hc.errs (by rw [← h2.2]; exact fail_ne (ErrLe.refl (({ctx := ctx, res := s.res} : St E).fail _)))

theorem discardOverlap_isOk {n : Nat} {m : MatchResult} (h : (discardOverlap n m).isOk = true) :
    discardOverlap n m = m := by
  unfold discardOverlap at *
  split at h <;> try (rfl)
  · split at h <;> try rfl
    all_goals
      split at h
      · simp [MatchResult.isOk, MatchResult.failed, MatchType.isOk] at h
      · rename_i hh; simp [hh]
  · split at h
    · simp [MatchResult.isOk, MatchResult.failed, MatchType.isOk] at h
    · rename_i hh; simp [hh]

theorem discardOverlap_found {n : Nat} {m : MatchResult} {i : Info} (hm : m.isOk = true) (hi : m.info = some i)
    (hn : i.start ≥ n ∨ i.stop ≥ n) : (discardOverlap n m).isOk = false := by
  unfold discardOverlap
  unfold MatchResult.isOk at hm
  cases hty : m.ty with
  | failed f => simp [hty, MatchType.isOk] at hm
  | found => simp [hi, hn, MatchResult.isOk, MatchResult.failed, MatchType.isOk]
  | excluded => simp [hi, hn, MatchResult.isOk, MatchResult.failed, MatchType.isOk]

theorem range_stop_mem {ms : Matches} {r : Rng} (h : Matches.range ms = .ok (some r)) :
    ∃ m ∈ ms, ∃ i, m.info = some i ∧ i.stop = r.stop := by
  have hgen : Matches.generalRange ms = .ok (some r) → ∃ m ∈ ms, ∃ i, m.info = some i ∧ i.stop = r.stop := by
    intro hr
    unfold Matches.generalRange at hr
    split at hr
    · simp at hr
    · rename_i sr hsr
      split at hr
      · simp at hr; subst hr
        obtain ⟨m, hm, hmr⟩ := List.exists_of_findSome?_eq_some hsr
        cases hi : m.info with
        | none => simp [MatchResult.matchedRange, hi] at hmr
        | some i =>
          simp [MatchResult.matchedRange, hi] at hmr
          exact ⟨m, hm, i, hi, by rw [← hmr]; rfl⟩
      · rename_i r' hr'
        obtain ⟨y, hy, hr⟩ := bind_ok.1 hr
        simp at hr; subst hr
        obtain ⟨m, hm, hmr⟩ := List.exists_of_findSome?_eq_some hr'
        cases hi : m.info with
        | none => simp [MatchResult.matchedRange, hi] at hmr
        | some i =>
          simp [MatchResult.matchedRange, hi] at hmr
          refine ⟨m, by simpa using hm, i, hi, ?_⟩
          unfold Rng.new at hy
          split at hy
          · simp at hy; rw [← hy, ← hmr]; rfl
          · simp at hy
  match ms, hgen, h with
  | [], hgen, h => exact hgen h
  | [m], hgen, h =>
    simp only [Matches.range] at h
    split at h
    · rename_i i hi _
      simp at h
      exact ⟨m, by simp, i, hi, by rw [← h]; rfl⟩
    · exact hgen h
  | m :: m' :: rest, hgen, h =>
    simp only [Matches.range] at h
    split at h
    · rename_i i i2 hi _ hi2 _
      obtain ⟨y, hy, h⟩ := bind_ok.1 h
      simp at h; subst h
      refine ⟨(m' :: rest).getLast (by simp), List.mem_cons_of_mem _ (List.getLast_mem _), i2, hi2, ?_⟩
      unfold Rng.new at hy
      split at hy
      · simp at hy; rw [← hy]
      · simp at hy
    · exact hgen h

theorem excl_ok {root : Pat E} {μs : List (Meaning E)} (hc : root.Complete μs) {r : Rng} {s s' : St E}
    {ex : List Matches} (h : excl root r s = .ok (ex, s')) (hok : ∀ m ∈ ex, Matches.isOk m = true) :
    ex = [] ∧ s'.ctx = s.ctx ∧ AllAbsent μs s.ctx.cur.buf r.start r.stop := by
  unfold excl at h
  obtain ⟨⟨nr, s1⟩, h1, h2⟩ := bind_ok.1 h
  cases nr with
  | found i =>
    simp at h2
    have := hok [notFoundFailure] (by simp [← h2.1])
    simp [Matches.isOk, notFoundFailure, MatchResult.failed, MatchResult.isOk, MatchType.isOk] at this
  | err =>
    simp at h2
    have := hok [MatchResult.failed noteFailure] (by simp [← h2.1])
    simp [Matches.isOk, MatchResult.failed, MatchResult.isOk, MatchType.isOk] at this
  | passed n =>
    simp at h2
    unfold checkNot at h1
    split at h1
    · simp at h1
    · rename_i m env' hrun
      dsimp only at h1
      split at h1
      · simp at h1
      · simp at h1
      · rename_i hm
        simp at h1
        obtain ⟨he, ha⟩ := hc _ _ _ _ _ hrun hm
        refine ⟨h2.1, ?_, ha⟩
        rw [← h2.2, pass_ctx, ← h1.2]
        simp [he]


theorem combineBounded_clean {left : Option Matches} {right : GR} {s s' : St E} {gr : GR}
    (h : combineBounded left right s = .ok (gr, s')) (hc : Clean s gr s') :
    s' = s ∧ (∀ f, right ≠ .err f) ∧ (∀ ms ∈ right.matches, Matches.isOk ms = true) ∧
    ∃ lms, left = some lms ∧
      (∀ rms, right = .matched rms → ∃ r0 rest rr lms', rms = r0 :: rest ∧ Matches.range r0 = .ok (some rr) ∧
        gr = .matched (lms' :: rms) ∧ Matches.isOk lms' = true ∧
        ∃ lr, Matches.range lms = .ok lr ∧
          lms' = (match lr with
            | some lr => if lr.start ≥ rr.start ∨ lr.stop ≥ rr.start then lms.map (discardOverlap rr.start) else lms
            | none => lms)) := by
  have hfail : ∀ (f : Failure), s' ≠ s.fail f := by
    rintro f rfl
    exact absurd hc.errs (fail_ne (ErrLe.refl _))
  unfold combineBounded at h
  split at h
  · rename_i rms
    split at h
    · simp at h
    · rename_i r0 rest
      obtain ⟨rr, hrr, h⟩ := bind_ok.1 h
      split at h
      · simp at h
      · rename_i rr
        cases left with
        | some lms =>
          obtain ⟨lr, hlr, h⟩ := bind_ok.1 h
          simp only [Except.ok.injEq, Prod.mk.injEq] at h
          obtain ⟨hgr, hs⟩ := h
          have hcok := hc.ok
          rw [← hgr] at hcok
          simp only [GR.matches, List.forall_mem_cons] at hcok
          refine ⟨hs.symm, by simp, by simpa [GR.matches] using hcok.2, lms, rfl, ?_⟩
          intro rms' hrms'
          simp at hrms'
          subst hrms'
          exact ⟨r0, rest, rr, _, rfl, hrr, hgr.symm, hcok.1, lr, hlr, rfl⟩
        | none => simp at h; exact absurd h.2.symm (hfail _)
  · rename_i rms
    split at h
    · rename_i lms
      obtain ⟨lr, hlr, h⟩ := bind_ok.1 h
      have hgr : s' = s ∧ gr.matches = lms :: rms := by
        split at h <;> (simp at h; rw [← h.1, ← h.2]; exact ⟨rfl, rfl⟩)
      have hcok := hc.ok
      rw [hgr.2] at hcok
      simp only [List.forall_mem_cons] at hcok
      exact ⟨hgr.1, by simp, hcok.2, lms, rfl, by simp⟩
    · simp at h; exact absurd h.2.symm (hfail _)
  · split at h
    · rename_i lms
      obtain ⟨lr, hlr, h⟩ := bind_ok.1 h
      split at h <;> (simp at h; exact absurd h.2.symm (hfail _))
    · simp at h
      exact absurd hc.errs (by rw [← h.2]; exact fail_ne (ErrLe.fail _ _))

theorem Extent.cons {m : Matches} {ms : List Matches} {s e a z : Nat} (h : Matches.range m = .ok (some ⟨s, e⟩))
    (h' : Extent ms a z) (ha : s ≤ a) (hz : e ≤ z) : Extent (m :: ms) s z :=
  Extent.append (Extent.one h) h' ha hz

theorem Extent.head {m : Matches} {ms : List Matches} {a z : Nat} {r : Rng} (h : Extent (m :: ms) a z)
    (hr : Matches.range m = .ok (some r)) : a ≤ r.start := by
  obtain ⟨R, h1, h2, _, _⟩ := h
  simp only [rangesOf, hr, bind, Except.bind] at h1
  split at h1
  · simp at h1
  · simp at h1; exact (h2 r (by simp [← h1])).1

mutual
/-- A clean group was matched by its directives. -/
theorem checkGroup_ok : ∀ (g : Group E) {ds : List (Directive E)} {s s' : St E} {gr : GR}, GroupDen g ds →
    s.ctx.cur.WF → checkGroup g s = .ok (gr, s') → Clean s gr s' → GroupOk ds s gr s'
  | .never p, _, _, _, _, hd, _, _, _ => by cases hd
  | .ordered rules, _, _, _, _, hd, w, h, hc => by
    cases hd with
    | ordered hne hr => rw [checkGroup] at h; exact checkOrdered_ok hne hr w h hc
  | .repeated rule n, _, _, _, _, hd, w, h, hc => by
    cases hd with
    | repeated hp hn => rw [checkGroup] at h; exact checkRepeated_ok hp hn w h hc
  | .unordered d, _, _, _, _, hd, w, h, hc => by
    cases hd with
    | unordered hd hne => rw [checkGroup] at h; exact checkUnordered_ok hd hne w h hc
  | .bounded d g, _, s, s', gr, hd, w, h, hc => by
    cases hd with
    | @bounded _ μs _ ds hd hne hg =>
    rw [checkGroup] at h
    obtain ⟨⟨left, ctx⟩, h1, h⟩ := bind_ok.1 h
    obtain ⟨⟨right, s1⟩, h2, h⟩ := bind_ok.1 h
    dsimp only at h2 h
    have e1 := checkGroup_err g h2
    have e2 := combineBounded_err h
    obtain ⟨hs1, hs2⟩ := ErrLe.squeeze (s1 := {ctx := ctx, res := s.res}) e1 e2 hc.errs
    have hc2 : Clean s1 gr s' := ⟨hs2, hc.noErr, hc.ok⟩
    obtain ⟨hss, hrne, hrok, lms, hleft, hm⟩ := combineBounded_clean h hc2
    subst hss
    subst hleft
    -- the DAG group: its matches are ok only if it is not rewritten; first show `lms` ok
    have hcr : Clean ({ctx := ctx, res := s.res} : St E) right s' := ⟨hs1, hrne, hrok⟩
    have hlok : Matches.isOk lms = true := by
      -- whatever the branch, `lms` or its rewriting is among the reported matches
      unfold combineBounded at h
      split at h
      · rename_i rms
        obtain ⟨r0, rest, rr, lms', _, hr0, _, hok', lr, hlr, hl'⟩ := hm rms rfl
        cases lr with
        | none => simp at hl'; rw [← hl']; exact hok'
        | some lr =>
          simp only at hl'
          split_ifs at hl' with hov
          · rw [hl'] at hok'
            unfold Matches.isOk at *
            rw [List.all_eq_true] at hok' ⊢
            intro m hm'
            have := hok' (discardOverlap rr.start m) (List.mem_map_of_mem hm')
            rw [discardOverlap_isOk this] at this; exact this
          · rw [← hl']; exact hok'
      · obtain ⟨lr, hlr, h⟩ := bind_ok.1 h
        have hgr : lms ∈ gr.matches := by
          split at h <;> (simp at h; rw [← h]; simp [GR.matches])
        exact hc.ok lms hgr
      · exact absurd rfl (hrne _)
    obtain ⟨w1, hb1, hst1, a1, z1, hrg1, k1, k2, k3, k4, hdm⟩ := Dag.apply_ok hd w h1 hlok
    have hgok := checkGroup_ok g (s := {ctx := ctx, res := s.res}) hg w1 h2 hcr
    obtain ⟨w2, hb2, hst2, rms, a2, hrm, hext, k5, k6, hrun⟩ := hgok
    simp only at hb2 hst2 k5 hrun
    obtain ⟨r0, rest, rr, lms', hrms, hr0, hgr, hok', lr, hlr, hl'⟩ := hm rms hrm
    rw [hrg1] at hlr
    simp at hlr
    subst hlr
    have hrr : a2 ≤ rr.start := Extent.head (hrms ▸ hext) hr0
    have hll : lms' = lms := by
      simp only at hl'
      split_ifs at hl' with hov
      · rw [hl'] at hok'
        exfalso
        have hstop : z1 ≥ rr.start := by omega
        obtain ⟨m, hm', i, hi, his⟩ := range_stop_mem hrg1
        have hmok : m.isOk = true := by
          unfold Matches.isOk at hlok; rw [List.all_eq_true] at hlok; exact hlok m hm'
        have hbad := discardOverlap_found (n := rr.start) hmok hi (Or.inr (by rw [his]; exact hstop))
        unfold Matches.isOk at hok'
        rw [List.all_eq_true] at hok'
        rw [hok' _ (List.mem_map_of_mem hm')] at hbad
        simp at hbad
      · exact hl'
    rw [hll] at hgr
    have k5' : z1 ≤ a2 := by rw [← k4]; exact k5
    refine ⟨w2, by rw [hb2, hb1], by rw [hst2, hst1], lms :: rms, a1, hgr, ?_, k1, by omega, ?_⟩
    · exact Extent.cons hrg1 hext (by omega) (by omega)
    · intro nots hna
      have hr2 := hrun [] AllAbsent.nil
      rw [hb1, hst1, k4] at hr2
      exact .dags hne hdm hna hr2
  | .tree t, _, _, _, _, hd, w, h, hc => by
    cases hd with
    | tree ht => rw [checkGroup] at h; exact checkTree_ok t ht w h hc

/-- A clean tree was matched by its directives. -/
theorem checkTree_ok : ∀ (t : Tree E) {ds : List (Directive E)} {s s' : St E} {gr : GR}, TreeDen t ds →
    s.ctx.cur.WF → checkTree t s = .ok (gr, s') → Clean s gr s' → GroupOk ds s gr s'
  | .matchAll g, _, _, _, _, hd, w, h, hc => by
    cases hd with
    | matchAll hg => rw [checkTree] at h; exact checkGroup_ok g hg w h hc
  | .matchAround root left right, _, s, s', gr, hd, w, h, hc => by
    cases hd with
    | @matchAround _ μs _ _ dl dr hroot hl hr =>
    rw [checkTree] at h
    obtain ⟨lr, hlt, h⟩ := bind_ok.1 h
    obtain ⟨⟨ok, lms, s1⟩, hx, h⟩ := bind_ok.1 h
    dsimp only at h
    rw [expectNoErr_inv hx] at hlt
    have e1 := checkTree_err left hlt
    -- the left-hand side is clean
    have hleft : ∀ {rr} (le : Nat), checkTree right s1 = .ok rr → ∀ ok2 rms s2, expectNoErr rr = .ok (ok2, rms, s2) →
        ErrLe s2 s' → (∀ m ∈ lms, m ∈ gr.matches) → Clean s (if ok then GR.matched lms else GR.unmatched lms) s1 := by
      intro rr le hrt ok2 rms s2 hx2 e3 hsub
      rw [expectNoErr_inv hx2] at hrt
      have e2 := checkTree_err right hrt
      obtain ⟨q1, q2⟩ := ErrLe.squeeze e1 (e2.trans e3) hc.errs
      refine ⟨q1, by intro f; split <;> simp, ?_⟩
      intro ms hms
      have : ms ∈ lms := by revert hms; split <;> exact id
      exact hc.ok ms (hsub ms this)
    cases ok with
    | false =>
      exfalso
      simp only [Bool.false_eq_true, if_false] at h
      obtain ⟨rr, hrt, h⟩ := bind_ok.1 h
      obtain ⟨⟨ok2, rms, s2⟩, hx2, h⟩ := bind_ok.1 h
      have e3 := aroundNoLeft_err h
      have hsub : ∀ m ∈ lms, m ∈ gr.matches := by
        intro m hm
        cases ok2 with
        | true =>
          simp only [aroundNoLeft] at h
          obtain ⟨_, _, h⟩ := bind_ok.1 h
          obtain ⟨_, _, h⟩ := bind_ok.1 h
          obtain ⟨_, _, h⟩ := bind_ok.1 h
          obtain ⟨⟨ex, s3⟩, he, h⟩ := bind_ok.1 h
          simp at h; rw [← h.1]; simp [GR.matches, hm]
        | false => simp [aroundNoLeft] at h; rw [← h.1]; simp [GR.matches, hm]
      have hcl := hleft 0 hrt ok2 rms s2 hx2 e3 hsub
      have := checkTree_ok left hl w hlt hcl
      obtain ⟨_, _, _, ms, _, hmm, _⟩ := this
      simp at hmm
    | true =>
      simp only [if_true] at h
      obtain ⟨_, hne, h⟩ := bind_ok.1 h
      obtain ⟨le, hle, h⟩ := bind_ok.1 h
      obtain ⟨rr, hrt, h⟩ := bind_ok.1 h
      obtain ⟨⟨ok2, rms, s2⟩, hx2, h⟩ := bind_ok.1 h
      have e3 := aroundAfterLeft_err h
      have hsub : ∀ m ∈ lms ++ rms, m ∈ gr.matches := by
        intro m hm
        cases ok2 with
        | true =>
          simp only [aroundAfterLeft] at h
          obtain ⟨_, _, h⟩ := bind_ok.1 h
          obtain ⟨_, _, h⟩ := bind_ok.1 h
          obtain ⟨_, _, h⟩ := bind_ok.1 h
          obtain ⟨⟨ex, s3⟩, he, h⟩ := bind_ok.1 h
          simp at h; rw [← h.1]; simp [GR.matches] at hm ⊢; tauto
        | false => simp [aroundAfterLeft] at h; rw [← h.1]; simpa [GR.matches] using hm
      have hcl := hleft 0 hrt ok2 rms s2 hx2 e3 (fun m hm => hsub m (List.mem_append_left _ hm))
      obtain ⟨w1, hb1, hst1, lms', a1, hlm, hext1, k1, k2, hrun1⟩ := checkTree_ok left hl w hlt hcl
      simp at hlm
      subst hlm
      rw [hext1.maxEnd] at hle
      simp at hle
      subst hle
      rw [expectNoErr_inv hx2] at hrt
      have e2 := checkTree_err right hrt
      obtain ⟨q1, q2⟩ := ErrLe.squeeze e1 (e2.trans e3) hc.errs
      obtain ⟨q3, q4⟩ := ErrLe.squeeze e2 e3 q2
      have hcr : Clean s1 (if ok2 then GR.matched rms else GR.unmatched rms) s2 := by
        refine ⟨q3, by intro f; split <;> simp, ?_⟩
        intro ms hms
        have : ms ∈ rms := by revert hms; split <;> exact id
        exact hc.ok ms (hsub ms (List.mem_append_right _ this))
      obtain ⟨w2, hb2, hst2, rms', a2, hrm, hext2, k3, k4, hrun2⟩ := checkTree_ok right hr w1 hrt hcr
      cases ok2 with
      | false => simp at hrm
      | true =>
        simp at hrm
        subst hrm
        simp only [aroundAfterLeft] at h
        obtain ⟨_, _, h⟩ := bind_ok.1 h
        obtain ⟨rs, hrs, h⟩ := bind_ok.1 h
        rw [hext2.minStart] at hrs
        simp at hrs
        subst hrs
        obtain ⟨r, hr', h⟩ := bind_ok.1 h
        obtain ⟨hreq, _, _⟩ := bounded_inv hr'
        obtain ⟨⟨ex, s3⟩, he, h⟩ := bind_ok.1 h
        simp only [Except.ok.injEq, Prod.mk.injEq] at h
        have hexok : ∀ m ∈ ex, Matches.isOk m = true := by
          intro m hm
          exact hc.ok m (by rw [← h.1]; simp [GR.matches, hm])
        obtain ⟨hex, hctx, hab⟩ := excl_ok hroot he hexok
        subst hex
        have hgeq := h.1
        rw [← h.2]
        subst hreq
        refine ⟨by rw [hctx]; exact w2, by rw [hctx, hb2, hb1], by rw [hctx, hst2, hst1], lms ++ rms, a1, ?_, ?_, k1, ?_, ?_⟩
        · rw [← hgeq]; simp
        · rw [hctx]; exact Extent.append hext1 hext2 (by omega) (by omega)
        · rw [hctx]; omega
        · intro nots hna
          refine Run.append (hrun1 nots hna) ?_
          apply Run.nots
          rw [hctx]
          simp only at hab
          rw [hb2] at hab
          have := hrun2 μs hab
          rw [hb1, hst1] at this
          simpa using this
  | .matchBefore root left, _, s, s', gr, hd, w, h, hc => by
    cases hd with
    | @matchBefore _ μs _ dl hroot hl =>
    rw [checkTree] at h
    obtain ⟨lr, hlt, h⟩ := bind_ok.1 h
    obtain ⟨⟨ok, lms, s1⟩, hx, h⟩ := bind_ok.1 h
    rw [expectNoErr_inv hx] at hlt
    have e1 := checkTree_err left hlt
    have e2 := afterBefore_err h
    obtain ⟨q1, q2⟩ := ErrLe.squeeze e1 e2 hc.errs
    have hsub : ∀ m ∈ lms, m ∈ gr.matches := by
      intro m hm
      cases ok <;> simp only [afterBefore] at h
      · obtain ⟨_, _, h⟩ := bind_ok.1 h
        obtain ⟨⟨ex, s3⟩, he, h⟩ := bind_ok.1 h
        simp at h; rw [← h.1]; simp [GR.matches, hm]
      · obtain ⟨_, _, h⟩ := bind_ok.1 h
        obtain ⟨_, _, h⟩ := bind_ok.1 h
        obtain ⟨⟨ex, s3⟩, he, h⟩ := bind_ok.1 h
        simp at h; rw [← h.1]; simp [GR.matches, hm]
    have hcl : Clean s (if ok then GR.matched lms else GR.unmatched lms) s1 := by
      refine ⟨q1, by intro f; split <;> simp, ?_⟩
      intro ms hms
      have : ms ∈ lms := by revert hms; split <;> exact id
      exact hc.ok ms (hsub ms this)
    obtain ⟨w1, hb1, hst1, lms', a1, hlm, hext1, k1, k2, hrun1⟩ := checkTree_ok left hl w hlt hcl
    cases ok with
    | false => simp at hlm
    | true =>
      simp at hlm
      subst hlm
      simp only [afterBefore] at h
      obtain ⟨_, _, h⟩ := bind_ok.1 h
      obtain ⟨r, hr', h⟩ := bind_ok.1 h
      obtain ⟨hreq, _, _⟩ := bounded_inv hr'
      obtain ⟨⟨ex, s3⟩, he, h⟩ := bind_ok.1 h
      simp only [Except.ok.injEq, Prod.mk.injEq] at h
      have hexok : ∀ m ∈ ex, Matches.isOk m = true := by
        intro m hm
        exact hc.ok m (by rw [← h.1]; simp [GR.matches, hm])
      obtain ⟨hex, hctx, hab⟩ := excl_ok hroot he hexok
      subst hex
      have hgeq := h.1
      rw [← h.2]
      subst hreq
      refine ⟨by rw [hctx]; exact w1, by rw [hctx, hb1], by rw [hctx, hst1], lms, a1, ?_, ?_, k1, ?_, ?_⟩
      · rw [← hgeq]; simp
      · rw [hctx]; exact hext1
      · rw [hctx]; omega
      · intro nots hna
        refine Run.append (hrun1 nots hna) ?_
        simp only at hab
        rw [hb1, hst1] at hab
        rw [hctx]
        have := Run.nots (b := s.ctx.cur.buf) (hi := s.ctx.cur.stop) (env := s1.ctx.env) (nots := []) (ds := []) μs (.done (by simpa using hab))
        simpa using this
  | .matchAfter root right, _, s, s', gr, hd, w, h, hc => by
    cases hd with
    | @matchAfter _ μs _ dr hroot hr =>
    rw [checkTree] at h
    obtain ⟨lr, hrt, h⟩ := bind_ok.1 h
    obtain ⟨⟨ok, rms, s1⟩, hx, h⟩ := bind_ok.1 h
    rw [expectNoErr_inv hx] at hrt
    have e1 := checkTree_err right hrt
    have e2 := afterAfter_err h
    obtain ⟨q1, q2⟩ := ErrLe.squeeze e1 e2 hc.errs
    have hsub : ∀ m ∈ rms, m ∈ gr.matches := by
      intro m hm
      cases ok <;> simp only [afterAfter] at h
      · simp at h; rw [← h.1]; simp [GR.matches, hm]
      · obtain ⟨_, _, h⟩ := bind_ok.1 h
        obtain ⟨_, _, h⟩ := bind_ok.1 h
        obtain ⟨_, _, h⟩ := bind_ok.1 h
        obtain ⟨⟨ex, s3⟩, he, h⟩ := bind_ok.1 h
        simp at h; rw [← h.1]; simp [GR.matches, hm]
    have hcr : Clean s (if ok then GR.matched rms else GR.unmatched rms) s1 := by
      refine ⟨q1, by intro f; split <;> simp, ?_⟩
      intro ms hms
      have : ms ∈ rms := by revert hms; split <;> exact id
      exact hc.ok ms (hsub ms this)
    obtain ⟨w2, hb2, hst2, rms', a2, hrm, hext2, k3, k4, hrun2⟩ := checkTree_ok right hr w hrt hcr
    cases ok with
    | false => simp at hrm
    | true =>
      simp at hrm
      subst hrm
      simp only [afterAfter] at h
      obtain ⟨_, _, h⟩ := bind_ok.1 h
      obtain ⟨rs, hrs, h⟩ := bind_ok.1 h
      rw [hext2.minStart] at hrs
      simp at hrs
      subst hrs
      obtain ⟨r, hr', h⟩ := bind_ok.1 h
      obtain ⟨hreq, _, _⟩ := bounded_inv hr'
      obtain ⟨⟨ex, s3⟩, he, h⟩ := bind_ok.1 h
      simp only [Except.ok.injEq, Prod.mk.injEq] at h
      have hexok : ∀ m ∈ ex, Matches.isOk m = true := by
        intro m hm
        exact hc.ok m (by rw [← h.1]; simp [GR.matches, hm])
      obtain ⟨hex, hctx, hab⟩ := excl_ok hroot he hexok
      subst hex
      have hgeq := h.1
      rw [← h.2]
      subst hreq
      refine ⟨by rw [hctx]; exact w2, by rw [hctx, hb2], by rw [hctx, hst2], rms, a2, ?_, ?_, k3, ?_, ?_⟩
      · rw [← hgeq]; simp
      · rw [hctx]; exact hext2
      · rw [hctx]; omega
      · intro nots hna
        apply Run.nots
        rw [hctx]
        simp only at hab
        rw [hb2] at hab
        exact hrun2 (nots ++ μs) (AllAbsent.append.2 ⟨hna, hab⟩)
end

end Litcheck
