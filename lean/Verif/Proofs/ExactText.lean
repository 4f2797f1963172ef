import Verif.Proofs.ExactFile
import Verif.Proofs.TameText
import Verif.Proofs.CaptureText

/-!
# Check files without uses of variables: the assumptions of `ExactFile.lean`
-/

namespace Litcheck
open Spec
variable {E : Type}

/-- What a matcher chooses among the first matches. -/
def pickOf (p : Pat E) : Choice E := fun env b lo hi =>
  match p.run b ⟨lo, hi⟩ env with
  | (some m, env') => ((m.info.map Info.stop).getD 0, env')
  | (none, env') => (0, env')

/-- A matcher which always answers, with a match that starts first if there is one. -/
structure Pat.Leftmost (p : Pat E) (μ : Meaning E) : Prop where
  sound : p.Sound μ
  total : ∀ b r env, ∃ m env', p.run b r env = (some m, env')
  info : ∀ b r env m i, (p.run b r env).1 = some m → m.info = some i → m.isOk = true
  report : ∀ b r env m env', r.start ≤ r.stop → r.stop ≤ b.length → p.run b r env = (some m, env') →
    (∃ i, m.info = some i ∧ m.isOk = true ∧ ∀ s e env'', r.start ≤ s → e ≤ r.stop → μ env b s e env'' → i.start ≤ s) ∨
    (m.isOk = false ∧ ∀ s e env'', r.start ≤ s → e ≤ r.stop → ¬ μ env b s e env'')

/-- What such a matcher finds if there is a match. -/
theorem Pat.Leftmost.run {p : Pat E} {μ : Meaning E} (h : p.Leftmost μ) {env : E} {b : Buf} {lo hi s e : Nat} {env' : E}
    (hb : hi ≤ b.length) (hf : FirstOf μ env b lo hi s e env') :
    ∃ m i env1, p.run b ⟨lo, hi⟩ env = (some m, env1) ∧ m.isOk = true ∧ m.info = some i ∧ i.start = s ∧
      pickOf p env b lo hi = (i.stop, env1) ∧ FirstOf μ env b lo hi s i.stop env1 := by
  obtain ⟨f1, f2, f3, f4, f5⟩ := hf
  obtain ⟨m, env1, hr⟩ := h.total b ⟨lo, hi⟩ env
  rcases h.report b ⟨lo, hi⟩ env m env1 (by simp only; omega) hb hr with ⟨i, h1, h2, h3⟩ | ⟨_, h2⟩
  · obtain ⟨i', g1, g2, g3, g4, g5⟩ := h.sound.found b ⟨lo, hi⟩ env m env1 (by simp only; omega) hb hr h2
    rw [h1] at g1
    simp only [Option.some.injEq] at g1
    subst g1
    have k1 := h3 s e env' f1 f3 f4
    have k2 := f5 i.start i.stop env1 g2 g3 g4 g5
    have hs : i.start = s := by omega
    refine ⟨m, i, env1, hr, h2, h1, hs, ?_, by rw [← hs]; exact g2, by omega, g4, by rw [← hs]; exact g5, f5⟩
    unfold pickOf
    rw [hr]
    simp [h1]
  · exact absurd f4 (h2 s e env' f1 f3)

theorem Pat.Leftmost.picks {p : Pat E} {μ : Meaning E} (h : p.Leftmost μ) : Picks μ (pickOf p) := by
  intro env b lo hi s e env' hb hf
  obtain ⟨m, i, env1, _, _, _, _, h1, h2⟩ := h.run hb hf
  rw [h1]
  exact h2

theorem Pat.Leftmost.finds {p : Pat E} {μ : Meaning E} (h : p.Leftmost μ) : p.Finds (FirstBy μ (pickOf p)) where
  found := by
    intro b r env m env' hr hb hrun hok
    obtain ⟨i, g1, g2, g3, g4, g5⟩ := h.sound.found b r env m env' hr hb hrun hok
    refine ⟨i, g1, ⟨g2, g3, g4, g5, ?_⟩, ?_⟩
    · intro s' e' env'' k1 k2 k3 k4
      rcases h.report b r env m env' hr hb hrun with ⟨i', h1, h2, h3⟩ | ⟨h2, _⟩
      · rw [g1] at h1
        simp only [Option.some.injEq] at h1
        subst h1
        exact h3 s' e' env'' k1 k3 k4
      · rw [hok] at h2; simp at h2
    · unfold pickOf
      rw [show (⟨r.start, r.stop⟩ : Rng) = r from rfl, hrun]
      simp [g1]
  first := by
    intro b lo hi env s e env' hlo hhi hf
    obtain ⟨m, i, env1, h1, h2, h3, h4, h5, h6⟩ := h.run hhi hf.1
    have := hf.2.symm.trans h5
    simp only [Prod.mk.injEq] at this
    obtain ⟨rfl, rfl⟩ := this
    exact ⟨m, i, h1, h2, h3, h4, rfl⟩
  range := by
    rintro b lo hi env s e env' ⟨⟨h1, h2, h3, _⟩, _⟩
    exact ⟨h1, h2, h3⟩
  related := h.sound.related

end Litcheck

namespace Litcheck.Sets
open Spec Pattern Smart Regex PatternSpec
open Litcheck.Lex (Part Match CPat CLine VarName Expr Op)

/-- Patterns without uses of variables and expressions, which capture no numbers: text, `{{..}}` and `[[X:..]]`. -/
structure Sole (p : CPat) : Prop where
  unused : ∀ x ∈ partsOf p, ¬ Uses x
  noNumber : ∀ x ∈ partsOf p, NoNumber x

theorem Plain.sole {p : CPat} (h : Plain p) : Sole p where
  unused := by
    intro x hx
    have := h x hx
    cases x with
    | literal s => exact id
    | regex s => exact id
    | match_ m => exact absurd rfl (this m)
  noNumber := by
    intro x hx f y e he
    exact h x hx _ he

/-- How such patterns are compiled. -/
theorem compact_sole {p : CPat} (hp : Sole p) (hw : WellFormed p) :
    compact p = .empty ∨ (∃ s, compact p = .lit s ∧ (s ≠ [] → Script.trim s ≠ [])) ∨ ∃ r : Pattern.Rx, compact p = .rx r ∧ ∀ c ∈ r.caps, c.ty = .string := by
  by_cases hne : partsOf p = []
  · left
    cases p with
    | empty => rfl
    | literal s => simp [partsOf] at hne
    | regex s => simp [partsOf] at hne
    | match_ ps =>
      simp only [partsOf] at hne
      subst hne
      rfl
  · right
    rcases static_view hw.parts hp.unused hne with ⟨t, h1, h2⟩ | ⟨r, l, h1, h2, _⟩ | ⟨s, _, h2⟩
    · exact .inl ⟨_, h2, fun hs => hw.visible t h1 (by rintro rfl; simp at hs)⟩
    · exact .inr ⟨r, h1, staticRun_strings h2 hp.noNumber⟩
    · exact .inr ⟨_, h2, by simp⟩

/-- The matcher of such a pattern. -/
theorem sole_answers {o : Opts} {p : CPat} (hp : Sole p) (hw : WellFormed p) {c : Compiled engine} (hc : Pattern.compile engine o p = .ok (some c))
    (cf : Conf engine) (n : Nat) (b : Buf) (r : Rng) (env : Vars) :
    ∃ m env', (c.pat cf n).run b r env = (some m, env') ∧ (∀ i, m.info = some i → m.isOk = true) ∧
      m ≠ .failed ⟨.foundConstraintFailed, true⟩ := by
  have hnone : (∀ i, (matchNone : MatchResult).info = some i → (matchNone : MatchResult).isOk = true) ∧
      (matchNone : MatchResult) ≠ .failed ⟨.foundConstraintFailed, true⟩ :=
    ⟨by intro i hi; simp [matchNone, MatchResult.failed] at hi, by simp [matchNone, MatchResult.failed]⟩
  have hok : ∀ i : Info, (∀ j, (MatchResult.ok i).info = some j → (MatchResult.ok i).isOk = true) ∧
      MatchResult.ok i ≠ .failed ⟨.foundConstraintFailed, true⟩ :=
    fun i => ⟨fun _ _ => rfl, by simp [MatchResult.ok, MatchResult.failed]⟩
  unfold Pattern.compile at hc
  rcases compact_sole hp hw with h | ⟨s, h, hs⟩ | ⟨rx, h, hs⟩
  · rw [h] at hc
    simp only [Except.ok.injEq, Option.some.injEq] at hc
    subst hc
    exact ⟨_, _, rfl, hok _⟩
  · rw [h] at hc
    dsimp only at hc
    unfold compileLit at hc
    split at hc
    · simp at hc
    · rename_i hne
      rw [if_neg (by simpa using hs (by simpa using hne))] at hc
      simp only [Except.ok.injEq, Option.some.injEq] at hc
      subst hc
      rcases litPat_run (ic := cf.ignoreCase) (lit := litBytes o s) (ps := n) b r env with ⟨s, e, h1, _⟩ | ⟨h1, _⟩
      · exact ⟨_, _, h1, hok _⟩
      · exact ⟨_, _, h1, hnone⟩
  · rw [h] at hc
    dsimp only at hc
    unfold compileRx at hc
    split at hc
    · simp at hc
    · rename_i prog _
      simp only [Except.ok.injEq, Option.some.injEq] at hc
      subst hc
      obtain ⟨ic, re⟩ := prog
      rcases regexPat_answers (ic := ic) (re := re) hs n b r env with h1 | ⟨i, env', h1⟩
      · exact ⟨_, _, h1, hnone⟩
      · exact ⟨_, _, h1, hok _⟩

/-- It reports a first match. -/
theorem sole_leftmost {run : Run} {p : CPat} (hp : Sole p) (hw : WellFormed p) (hcan : ∀ x ∈ partsOf p, Canonical run.opts.strictWs x)
    {c : Compiled engine} (hc : Pattern.compile engine run.opts p = .ok (some c)) {n : Nat}
    (hs : (c.pat (run.conf n) n).Sound (meaning (run.ctx n) p)) : (c.pat (run.conf n) n).Leftmost (meaning (run.ctx n) p) where
  sound := hs
  total := by
    intro b r env
    obtain ⟨m, env', h, _⟩ := sole_answers hp hw hc (run.conf n) n b r env
    exact ⟨m, env', h⟩
  info := by
    intro b r env m i h hi
    obtain ⟨m', env', h', h2, _⟩ := sole_answers hp hw hc (run.conf n) n b r env
    rw [h'] at h
    simp only [Option.some.injEq] at h
    subst h
    exact h2 i hi
  report := by
    intro b r env m env' h1 h2 h
    obtain ⟨m', env1, h', _, h3⟩ := sole_answers hp hw hc (run.conf n) n b r env
    rw [h'] at h
    simp only [Prod.mk.injEq, Option.some.injEq] at h
    obtain ⟨rfl, rfl⟩ := h
    cases static_report (run_fit run n) hw hp.unused hcan hc h1 h2 h' with
    | found h4 h5 h6 => exact .inl ⟨_, h4, h5, h6⟩
    | absent h4 h5 => exact .inr ⟨h4, h5⟩
    | unconverted h4 => exact absurd h4 h3

/-- Labels are compiled like other patterns. -/
theorem compileStatic_compile {o : Opts} {p : CPat} (hp : Sole p) (hw : WellFormed p) {c : Compiled engine}
    (hc : compileStatic engine o p = .ok (some c)) : Pattern.compile engine o p = .ok (some c) := by
  unfold compileStatic at hc
  unfold Pattern.compile
  rcases compact_sole hp hw with h | ⟨s, h, hv⟩ | ⟨r, h, _⟩
  · rw [h] at hc; simp at hc
  · rw [h] at hc ⊢
    dsimp only at hc ⊢
    split at hc
    · simp at hc
    · rename_i hs
      unfold compileLit
      rw [if_neg hs, if_neg (by simpa using hv (by simpa using hs))]
      exact hc
  · rw [h] at hc ⊢
    dsimp only at hc ⊢
    split at hc
    · exact hc
    · simp at hc

/-- Literal lines, too. -/
theorem compileLiteral_compile {o : Opts} {p : CPat} (hw : WellFormed p) {c : Compiled engine}
    (hc : compileLiteral engine o p = .ok (some c)) : Pattern.compile engine o p = .ok (some c) := by
  unfold compileLiteral at hc
  split at hc
  · rename_i s
    split at hc
    · simp at hc
    · rename_i hs
      have hv := hw.visible [s] rfl (by simp)
      unfold Pattern.compile
      simp only [compact]
      unfold compileLit
      rw [if_neg hs, if_neg (by simpa using hv)]
      exact hc
  · simp at hc

/-! ## Groups of excluded patterns -/

/-- The matcher of a group of patterns without variables and captures always answers. -/
theorem any_answers {o : Opts} {ls : List (CPat × Nat)} {set : MatchSet} (hg : StaticGroup o (ls.map Prod.fst))
    (hcap : ∀ p ∈ ls.map Prod.fst, ∀ r, compact p = .rx r → r.caps = []) (h : compileSet o ls = .ok (some set))
    (ic : Bool) (cfs : Nat → Conf engine) (b : Buf) (r : Rng) (env : Vars) :
    ∃ m env', (anyPat ic cfs set).run b r env = (some m, env') := by
  obtain ⟨u, hu, ⟨hl, rfl⟩ | ⟨rxs, hf, rfl⟩⟩ := compileSet_static hg h
  · simp only [anyPat, anyOut, litAny]
    cases findSet ic ((setLits o u).map Prod.fst) b r.stop (r.stop - r.start) r.start <;> exact ⟨_, _, rfl⟩
  · have hcaps : ∀ rx ∈ rxs, rx.caps = [] := by
      intro rx hrx
      obtain ⟨n, hn⟩ := List.mem_iff_getElem?.1 hrx
      obtain ⟨x, hx1, hx2⟩ := forall₂_getElem? hf hn
      obtain ⟨y, h4, h5, _⟩ := hu.from_line x (List.mem_of_getElem? hx1)
      obtain ⟨pre, n1, n2⟩ := x
      dsimp only at h5
      cases h5 with
      | lit => exact (buildSetRx_lit hx2).2.1
      | @rx rr c1 =>
        obtain ⟨_, e2, _⟩ := buildSetRx_rx hx2
        exact e2.trans (hcap y.1 (List.mem_map_of_mem h4) rr c1)
    simp only [anyPat, anyOut, startSearch]
    cases hh : setHits ic rxs b r.start r.stop with
    | nil => exact ⟨_, _, rfl⟩
    | cons x rest =>
      obtain ⟨pid, s, e⟩ := x
      have x5 : pid < rxs.length := by
        obtain ⟨_, _, _, rx, h4, _⟩ := mem_setHits.1 (show (pid, s, e) ∈ setHits ic rxs b r.start r.stop by rw [hh]; simp)
        exact (List.getElem?_eq_some_iff.1 h4).1
      simp only [nextMatch]
      have hsm : setMatch ic rxs b rest (pid, s, e) = .found (.rxs rest) e ⟨s, e, pid, (rxs[pid]).line⟩ [] := by
        unfold setMatch
        dsimp only
        rw [List.getElem?_eq_getElem x5]
        dsimp only
        rw [if_pos]
        rw [List.all_eq_true]
        intro r hr
        simp [hcaps r hr]
      rw [hsm]
      exact ⟨_, _, rfl⟩

/-- It decides whether one of the patterns occurs. -/
theorem any_decides {o : Opts} {ls : List (CPat × Nat)} {set : MatchSet} (hg : StaticGroup o (ls.map Prod.fst))
    (hcap : ∀ p ∈ ls.map Prod.fst, ∀ r, compact p = .rx r → r.caps = []) (h : compileSet o ls = .ok (some set))
    {cx : Nat → PatternSpec.Ctx} (hcx : CtxOf o cx) (cfs : Nat → Conf engine) :
    (anyPat o.ignoreCase cfs set).Decides (ls.map fun y => meaning (cx y.2) y.1) where
  complete := nots_complete hg h hcx cfs
  absent := by
    intro b lo hi env hlo _ habs
    obtain ⟨m, env', hr⟩ := any_answers hg hcap h o.ignoreCase cfs b ⟨lo, hi⟩ env
    cases hm : m.isOk with
    | false =>
      have := (nots_complete hg h hcx cfs b ⟨lo, hi⟩ env m env' hr hm).1
      subst this
      exact ⟨m, hr, hm⟩
    | true =>
      exfalso
      obtain ⟨i, _, h2, h3, h4, y, h5, _, h7⟩ := nots_sound hg h hcx cfs (r := ⟨lo, hi⟩) hlo hr hm
      exact habs _ (List.mem_map.2 ⟨y, h5, rfl⟩) _ _ h2 h3 h4 _ _ h7

/-! ## Check files -/

/-- Check files whose exact meaning is described in C83: besides `GoodFile`, the patterns use no variables and expressions and
capture no numbers, those of `CHECK-NOT` capture nothing, and there are no `CHECK-DAG` lines; positive patterns are not only whitespace, and have only blanks for whitespace, unless whitespace is strict; the patterns of
`CHECK-NEXT` and `CHECK-SAME` do not match the empty text. -/
structure FirstFile (run : Run) (imp : List Str) (ls : List CLine) : Prop where
  good : GoodFile run imp ls
  dag : ∀ l ∈ ls, l.kind ≠ .dag
  plain : ∀ l ∈ ls, l.kind = .not → Plain l.pattern
  sole : ∀ l ∈ ls, l.kind ≠ .empty → l.kind ≠ .not → Sole l.pattern
  visible : ∀ l ∈ ls, l.kind ≠ .empty → l.kind ≠ .not → WellFormed l.pattern
  canonical : ∀ l ∈ ls, l.kind ≠ .empty → l.kind ≠ .not → ∀ x ∈ partsOf l.pattern, Canonical run.opts.strictWs x
  solid : ∀ l ∈ ls, l.kind = .next ∨ l.kind = .same → NeverEmpty run.opts l.pattern

section
variable {run : Run} {imp : List Str} {ls : List CLine} {lines : List (Line Vars)}

theorem line_leftmost (hf : FirstFile run imp ls) (h : compileAll run ls 0 = .ok (some lines)) {x : Line Vars} (hx : x ∈ lines)
    (k1 : x.kind ≠ .empty) (k2 : x.kind ≠ .not) : x.pat.Leftmost (lineMean run (patsOf ls imp) x) := by
  have hs := line_sound hf.good h hx
  obtain ⟨k, hk⟩ := List.mem_iff_getElem?.1 hx
  obtain ⟨l, h1, h2⟩ := (compileAll_spec run ls 0 h).2 k x hk
  rw [Nat.zero_add] at h2
  have hl : l ∈ ls := List.mem_of_getElem? h1
  obtain ⟨h3, h4, h5, h6, h7⟩ := compileLine_spec h2
  unfold lineMean at hs ⊢
  rw [patAt_line h1 h4, h4] at hs ⊢
  rw [h3] at k1 k2
  have k3 := hf.dag l hl
  have p1 := hf.sole l hl k1 k2
  have p2 := hf.visible l hl k1 k2
  have p3 := hf.canonical l hl k1 k2
  by_cases k4 : l.kind = .label
  · obtain ⟨c, e1, e2⟩ := h6 k4
    rw [e2] at hs ⊢
    exact sole_leftmost p1 p2 p3 (compileStatic_compile p1 p2 e1) hs
  · obtain ⟨c, e1, e2⟩ := h7 k2 k3 k1 k4
    rw [e2] at hs ⊢
    refine sole_leftmost p1 p2 p3 ?_ hs
    split at e1
    · exact compileLiteral_compile p2 e1
    · exact e1

/-- The first matches of a line. -/
def lineFirst (run : Run) (pats : List CPat) (l : Line Vars) : Finder Vars := FirstBy (lineMean run pats l) (pickOf l.pat)

theorem lineFirst_solid {pats : List CPat} {l : Line Vars} (h : NeverEmpty run.opts (patAt pats l)) : Solid (lineFirst run pats l) := by
  rintro env b lo hi s e env' ⟨⟨_, h2, _, h4, _⟩, _⟩
  rcases Nat.lt_or_ge s e with h5 | h5
  · exact h5
  · obtain rfl : s = e := by omega
    exact absurd h4 (h _ rfl rfl _ _ _ _)

theorem OneLine.neverEmpty {o : Opts} {p : CPat} (h : OneLine o p) : NeverEmpty o p := by
  intro cx h1 h2 env b i env' hm
  have := (h cx h1 h2 env b i i env' hm).1
  omega

theorem file_exactly (hf : FirstFile run imp ls) (h : compileAll run ls 0 = .ok (some lines)) :
    Exactly (fileSet run (patsOf ls imp)) (lineFirst run (patsOf ls imp)) (lineMean run (patsOf ls imp))
      (fun zs => ∀ x ∈ zs, x ∈ lines ∨ implicitLine ls imp = some x) where
  ofInfix := by
    intro a b c hz x hx
    exact hz x (by simp [hx])
  pat := by
    intro l hl k1 k2
    rcases hl l (by simp) with h1 | h1
    · exact (line_leftmost hf h h1 k1 k2).finds
    · exact absurd (patAt_implicit h1).1 k2
  solid := by
    intro l hl hk
    rcases hl l (by simp) with h1 | h1
    · obtain ⟨l', h3, h4, h5⟩ := (compileAll_numbered h).mem (imp := imp) h1
      apply lineFirst_solid
      rw [h5]
      rw [h4] at hk
      rcases hk with hk | hk | hk
      · exact hf.solid l' h3 (.inl hk)
      · exact hf.solid l' h3 (.inr hk)
      · exact (hf.good.label l' h3 hk).2.neverEmpty
    · rw [(patAt_implicit h1).1] at hk; simp at hk
  nots := by
    intro zs p hz hk hp
    unfold fileSet at hp
    dsimp only at hp
    obtain ⟨u, hu, h2⟩ := bind_ok.1 hp
    simp only [Except.ok.injEq, Option.map_eq_some_iff] at h2
    obtain ⟨set, rfl, rfl⟩ := h2
    have hmem : ∀ l ∈ zs, (∃ l' ∈ ls, l'.kind = .not ∧ patAt (patsOf ls imp) l = l'.pattern) ∨
        (imp.isEmpty = false ∧ patAt (patsOf ls imp) l = .regex (implicitSrc imp)) := by
      intro l hl
      rcases hz l hl with h1 | h1
      · obtain ⟨l', h3, h4, h5⟩ := (compileAll_numbered h).mem (imp := imp) h1
        exact .inl ⟨l', h3, by rw [← h4]; exact hk l hl, h5⟩
      · obtain ⟨_, _, h3, h4⟩ := patAt_implicit h1
        exact .inr ⟨h4, h3⟩
    have hg : StaticGroup run.opts (zs.map (patAt (patsOf ls imp))) := by
      refine hf.good.nots.mono ?_
      intro q hq
      obtain ⟨l, hl, rfl⟩ := List.mem_map.1 hq
      rcases hmem l hl with ⟨l', h3, h4, h5⟩ | ⟨h3, h4⟩
      · rw [h5, List.mem_append]
        exact .inl (List.mem_map_of_mem (by simp [h3, h4]))
      · rw [h4, h3, List.mem_append]
        exact .inr (by simp)
    have hcap : ∀ p ∈ zs.map (patAt (patsOf ls imp)), ∀ r, compact p = .rx r → r.caps = [] := by
      intro q hq r hr
      obtain ⟨l, hl, rfl⟩ := List.mem_map.1 hq
      have hpl : Plain (patAt (patsOf ls imp) l) := by
        rcases hmem l hl with ⟨l', h3, h4, h5⟩ | ⟨h3, h4⟩
        · rw [h5]; exact hf.plain l' h3 h4
        · rw [h4]
          intro x hx m
          simp only [partsOf, List.mem_singleton] at hx
          rw [hx]; simp
      rcases compact_plain hpl with ⟨_, h3⟩ | ⟨s, h3⟩ | ⟨s, h3⟩
      · rw [h3] at hr; simp at hr
      · rw [h3] at hr; simp at hr
      · rw [h3] at hr
        simp only [Compact.rx.injEq] at hr
        rw [← hr]
    have := any_decides (ls := zs.map fun l => (((patsOf ls imp)[l.pat.pspan]?).getD .empty, l.pat.pspan))
      (by rw [List.map_map]; exact hg) (by rw [List.map_map]; exact hcap) hu (run_ctx run) run.conf
    rw [List.map_map] at this
    exact this

end

end Litcheck.Sets
