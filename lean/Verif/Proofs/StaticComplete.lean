import Verif.Proofs.PatternSound
import Verif.Proofs.Text

/-!
# Patterns without uses of variables: the regular expression made of them finds every match
-/

namespace Litcheck.Pattern
open Litcheck.Smart Litcheck.Spec Litcheck.RegexSpec Litcheck.PatternSpec
open Litcheck.Regex hiding Items
open Litcheck.Lex (Part Match CPat VarName Expr Op)

variable {cx : PatternSpec.Ctx} {b : Buf}

/-- Literals have no other horizontal whitespace than blanks (or whitespace is strict). -/
def Canonical (strict : Bool) (p : Part) : Prop :=
  ∀ s, p = .literal s → strict = true ∨ ∀ c ∈ s, isNonCanonicalHorizontalWhitespace c = false

theorem spaced_canonical {strict : Bool} {s s' : Str} (hc : Canonical strict (.literal s)) (h : Spaced strict s s') : s' = s := by
  rcases h with h | ⟨rfl, rfl⟩
  · exact h
  · rcases hc s rfl with h | h
    · cases h
    · rw [List.map_congr_left (g := id), List.map_id]
      intro c hm
      simp [h c hm]

theorem slice_length {i j : Nat} (hj : j ≤ b.length) : (sliceOf b i j).length = j - i := by
  unfold sliceOf
  simp
  omega

theorem occurs_slice {ic : Bool} {x : Buf} {i j : Nat} (h : x = sliceOf b i j) (hij : i ≤ j) (hj : j ≤ b.length) : Occurs ic x b i j := by
  have hl := slice_length (i := i) hj
  rw [← h] at hl
  refine ⟨by omega, ?_⟩
  intro p a hp
  rw [h, sliceOf_get] at hp
  split at hp
  · exact ⟨a, hp, .inl rfl⟩
  · simp at hp

theorem format_nonempty {t : Str} {f : NumFmt} (h : MatchesFormat t f) : t ≠ [] := by
  rintro rfl
  cases f with
  | unsigned p => have := h.2.1; simp at this
  | signed p =>
    obtain ⟨sg, ds, h1, _, _, h2, _⟩ := h
    have := congrArg List.length h1
    simp at this
    omega
  | hex p pre c =>
    obtain ⟨ds, h1, _, h2, _⟩ := h
    have := congrArg List.length h1
    simp at this
    omega

theorem slice_lt {t : Str} {f : NumFmt} {i j : Nat} (h : MatchesFormat t f) (hu : utf8 t = sliceOf b i j) : i < j := by
  by_contra hn
  have : sliceOf b i j = [] := by
    unfold sliceOf
    rw [List.drop_eq_nil_iff]
    simp; omega
  rw [this] at hu
  exact format_nonempty h (utf8_injective (t := []) (by rw [hu]; rfl))

theorem partMatches_le {p : Part} {env env' : Vars} {i j : Nat} (h : PartMatches cx b env i j env' p) : i ≤ j := by
  have hocc : ∀ {ic x}, Occurs ic x b i j → i ≤ j := by intro ic x h; have := h.1; omega
  have hrx : ∀ {ic s}, AsRegex ic b s i j → i ≤ j := by
    rintro ic s ⟨r, _, c, h⟩
    exact Lang.le r _ _ _ h
  have hst : ∀ {t}, Stands cx.rd cx.ic b t i j → i ≤ j := by
    intro t h
    unfold Stands at h
    split at h
    · exact hocc h
    · exact hrx h
  cases p with
  | literal s => obtain ⟨_, _, _, h⟩ := h; exact hocc h
  | regex s => exact hrx h.2
  | match_ m =>
    cases m with
    | substitution x pt =>
      cases pt with
      | none => obtain ⟨_, _, _, h⟩ := h; exact hst h
      | some s => exact hrx h.1
    | numeric f cap e =>
      cases cap with
      | none =>
        cases e with
        | none => obtain ⟨_, _, _, h⟩ := h; exact hocc h
        | some e => obtain ⟨_, _, _, h⟩ := h; exact hst h
      | some x => obtain ⟨t, v, f', h1, h2, _⟩ := h; exact (slice_lt h2 h1).le

theorem partsMatch_le {ps : List Part} {env env' : Vars} {i j : Nat} (h : PartsMatch cx b env ps i j env') : i ≤ j := by
  induction h with
  | nil => omega
  | cons h1 _ ih => have := partMatches_le h1; omega

theorem part_complete {p : Part} {l : List Re} {caps : List Cap} (h : StaticPart p l caps) (hv : Canonical cx.strict p) {env env' : Vars}
    {i j : Nat} (hj : j ≤ b.length) (hm : PartMatches cx b env i j env' p) : ∃ c, Lang cx.ic b (seqRe l) i j c := by
  have hle := partMatches_le hm
  cases h with
  | literal s =>
    obtain ⟨_, s', h1, h2⟩ := hm
    rw [spaced_canonical hv h1] at h2
    exact ⟨[], (lang_chars s).2 ⟨h2, rfl⟩⟩
  | regex hi =>
    obtain ⟨_, r, h1, c, h2⟩ := hm
    obtain rfl := reads_unique (parse_reads h1).1 hi.reads
    exact ⟨c, h2⟩
  | capture hx hr =>
    obtain ⟨⟨r, h1, c, h2⟩, _⟩ := hm
    obtain rfl := reads_unique (parse_reads h1).1 hr
    exact ⟨_, c, h2, rfl⟩
  | numeric hp =>
    obtain ⟨_, t, h1, h2⟩ := hm
    exact ⟨[], (lang_format _ hp).2 ⟨rfl, t, h1, h2⟩⟩
  | number hx hp =>
    obtain ⟨t, v, f', h1, h2, _⟩ := hm
    exact ⟨_, [], (lang_format _ hp).2 ⟨rfl, t, h2, occurs_slice h1 hle hj⟩, rfl⟩

theorem static_complete {run : List Part} {l : List Re} {caps : List Cap} (h : StaticRun run l caps) (hv : ∀ p ∈ run, Canonical cx.strict p) :
    ∀ {env env' : Vars} {i j : Nat}, j ≤ b.length → PartsMatch cx b env run i j env' → ∃ c, Lang cx.ic b (seqRe l) i j c := by
  induction h with
  | nil =>
    intro env env' i j _ hm
    cases hm
    exact ⟨[], rfl, rfl⟩
  | cons hp _ ih =>
    intro env env' i j hj hm
    cases hm with
    | cons h1 h2 =>
      have := partsMatch_le h2
      obtain ⟨c1, h3⟩ := part_complete hp (hv _ (by simp)) (by omega) h1
      obtain ⟨c2, h4⟩ := ih (fun p hp => hv p (by simp [hp])) hj h2
      exact ⟨c1 ++ c2, (lang_seq_append _ _).2 ⟨_, c1, c2, h3, h4, rfl⟩⟩

/-- Literals one after the other. -/
theorem literals_complete {env env' : Vars} : ∀ (s : List Str) {i j : Nat}, (∀ t ∈ s, Canonical cx.strict (.literal t)) →
    PartsMatch cx b env (s.map Part.literal) i j env' → Occurs cx.ic (utf8 (spaced cx.strict s.flatten)) b i j
  | [], i, j, _, h => by
    have e : utf8 (spaced cx.strict ([] : List Str).flatten) = [] := by cases cx.strict <;> rfl
    rw [e, occurs_nil]
    cases h
    rfl
  | t :: s, i, j, hc, h => by
    rw [List.flatten_cons, spaced_append, utf8_append, occurs_append]
    cases h with
    | cons h1 h2 =>
      obtain ⟨rfl, s', h3, h4⟩ := h1
      rw [spaced_canonical (hc t (by simp)) h3] at h4
      have h5 := spaced_canonical (hc t (by simp)) (spaced_spec cx.strict t)
      rw [h5]
      exact ⟨_, h4, literals_complete s (fun x hx => hc x (by simp [hx])) h2⟩

end Litcheck.Pattern

namespace Litcheck.Pattern
open Litcheck.Smart Litcheck.Spec Litcheck.RegexSpec Litcheck.PatternSpec
open Litcheck.Regex hiding Items
open Litcheck.Lex (Part Match CPat VarName Expr Op)

/-- The part uses a variable, or an expression. -/
def Uses : Part → Prop
  | .match_ (.substitution _ none) => True
  | .match_ (.numeric _ _ (some _)) => True
  | _ => False

theorem static_out {st : CSt} {p : Part} (h : ¬ Uses p) : (compactStep st p).out = st.out := by
  cases p with
  | literal s => rfl
  | regex s => rfl
  | match_ m =>
    cases m with
    | substitution x pt => cases pt with
      | none => exact absurd trivial h
      | some s => rfl
    | numeric f cap e =>
      cases e with
      | some e => cases cap <;> exact absurd trivial h
      | none => cases cap <;> rfl

theorem static_fold : ∀ (ps : List Part) (st : CSt), (∀ p ∈ ps, ¬ Uses p) → (ps.foldl compactStep st).out = st.out
  | [], _, _ => rfl
  | p :: ps, st, h => by
    rw [List.foldl_cons, static_fold ps _ (fun q hq => h q (by simp [hq])), static_out (h p (by simp))]

/-- A pattern without uses of variables becomes a literal or a regular expression. -/
theorem compact_static {ps : List Part} (h : ∀ p ∈ ps, ¬ Uses p) (cps : List CPart) : compact (.match_ ps) ≠ .parts cps := by
  cases ps with
  | nil => simp [compact]
  | cons p ps =>
    have e : compact (.match_ (p :: ps)) =
        (let st := (p :: ps).foldl compactStep ⟨[], [], [], true⟩
         if st.out.isEmpty then if st.litMode then .lit st.text else .rx ⟨st.text, st.caps⟩ else .parts st.flush) := rfl
    rw [e]
    dsimp only
    rw [static_fold _ _ h]
    simp only [List.isEmpty_nil, if_true]
    split <;> simp

/-- What the matcher of a pattern without uses of variables reports. -/
inductive Report (μ : Meaning Vars) (b : Buf) (lo hi : Nat) (env : Vars) : MatchResult → Prop
  | found {m i} : m.info = some i → m.isOk = true → (∀ s e env', lo ≤ s → e ≤ hi → μ env b s e env' → i.start ≤ s) → Report μ b lo hi env m
  | absent {m} : m.isOk = false → (∀ s e env', lo ≤ s → e ≤ hi → ¬ μ env b s e env') → Report μ b lo hi env m
  | unconverted {m} : m = .failed ⟨.foundConstraintFailed, true⟩ → Report μ b lo hi env m

theorem static_report {cx : PatternSpec.Ctx} {o : Opts} {cf : Conf engine} (ft : Fit cx o cf) {p : CPat} (hw : WellFormed p)
    (hu : ∀ x ∈ partsOf p, ¬ Uses x) (hcan : ∀ x ∈ partsOf p, Canonical cx.strict x)
    {c : Compiled engine} (hc : compile engine o p = .ok (some c)) {pspan : Nat} {b : Buf} {r : Rng} {env env' : Vars} {m : MatchResult}
    (h1 : r.start ≤ r.stop) (h2 : r.stop ≤ b.length) (h : (c.pat cf pspan).run b r env = (some m, env')) :
    Report (meaning cx p) b r.start r.stop env m := by
  have hlit : ∀ t : List Str, partsOf p = t.map Part.literal → t ≠ [] → compileLit engine o t.flatten = .ok (some c) →
      Report (meaning cx p) b r.start r.stop env m := by
    intro t ht hne hcl
    unfold compileLit at hcl
    split at hcl
    · simp at hcl
    · rw [if_neg (by simpa using hw.visible t ht hne)] at hcl
      simp only [Except.ok.injEq, Option.some.injEq] at hcl
      subst hcl
      have key : ∀ s e env'', meaning cx p env b s e env'' → Occurs cf.ignoreCase (litBytes o t.flatten) b s e := by
        intro s e env'' hm
        unfold meaning at hm
        rw [ht] at hm hcan
        have := literals_complete t (fun x hx => hcan _ (List.mem_map_of_mem hx)) hm
        rw [ft.ic, ft.strict, ← canonical_spaced, ← ft.ic'] at this
        exact this
      rcases litPat_run (ic := cf.ignoreCase) (lit := litBytes o t.flatten) (ps := pspan) b r env with ⟨s, e, h3, h4, h5, h6, h7⟩ | ⟨h3, h4⟩
      · have h' := h3.symm.trans h
        simp only [Prod.mk.injEq, Option.some.injEq] at h'
        rw [← h'.1]
        exact .found rfl rfl (fun s' e' env'' a1 a2 a3 => h7 s' e' a1 a2 (key _ _ _ a3))
      · have h' := h3.symm.trans h
        simp only [Prod.mk.injEq, Option.some.injEq] at h'
        rw [← h'.1]
        refine .absent rfl (fun s' e' env'' a1 a2 a3 => h4 s' e' a1 ?_ a2 (key _ _ _ a3))
        have := (key _ _ _ a3).1
        omega
  have hrx : ∀ (re : Re) (caps : List Cap), c = .regex (o.ignoreCase, re) caps →
      (∀ s e env'', e ≤ b.length → meaning cx p env b s e env'' → RegexSpec.Matches cx.ic b re s e) →
      Report (meaning cx p) b r.start r.stop env m := by
    intro re caps hcr hm
    subst hcr
    have h' : (regexPat (eng := engine) (o.ignoreCase, re) caps pspan).run b r env = (some m, env') := h
    unfold regexPat at h'
    dsimp only at h'
    cases hs : engine.search (o.ignoreCase, re) b r.start r.stop false with
    | none =>
      rw [hs] at h'
      simp only [Prod.mk.injEq, Option.some.injEq] at h'
      rw [← h'.1]
      refine .absent rfl (fun s e env'' a1 a2 a3 => ?_)
      have hf : find o.ignoreCase re b r.start r.stop false = none := hs
      rw [← ft.ic] at hf
      exact find_none hf s e a1 a2 (by simp) (hm s e env'' (by omega) a3)
    | some hit =>
      rw [hs] at h'
      dsimp only at h'
      have hf : find o.ignoreCase re b r.start r.stop false = some hit := hs
      rw [← ft.ic] at hf
      split at h'
      · simp at h'
      · split at h'
        · simp only [Prod.mk.injEq, Option.some.injEq] at h'
          rw [← h'.1]
          refine .found rfl rfl (fun s e env'' a1 a2 a3 => ?_)
          by_contra hlt
          exact (find_some hf).2.2.2.2.2 s e a1 (by dsimp only at hlt; omega) a2 (hm s e env'' (by omega) a3)
        · simp only [Prod.mk.injEq, Option.some.injEq] at h'
          exact .unconverted h'.1.symm
  unfold compile at hc
  cases p with
  | empty =>
    simp only [compact, Except.ok.injEq, Option.some.injEq] at hc
    subst hc
    simp only [Compiled.pat, alwaysPat, Prod.mk.injEq, Option.some.injEq] at h
    rw [← h.1]
    exact .found rfl rfl (fun s e env'' a1 a2 a3 => a1)
  | literal s => exact hlit [s] rfl (by simp) (by simpa [compact] using hc)
  | regex s =>
    simp only [compact, compileRx] at hc
    split at hc
    · simp at hc
    · rename_i prog hb
      simp only [Except.ok.injEq, Option.some.injEq] at hc
      obtain ⟨re, hp, rfl⟩ := build_some hb
      refine hrx re [] hc.symm ?_
      intro s' e env'' _ hm
      unfold meaning partsOf at hm
      cases hm with
      | cons hm1 hm2 =>
        cases hm2
        obtain ⟨_, re', h3, h4⟩ := hm1
        rw [hp, Option.some.injEq] at h3
        subst h3
        exact h4
  | match_ ps =>
    cases ps with
    | nil =>
      simp only [compact, Except.ok.injEq, Option.some.injEq] at hc
      subst hc
      simp only [Compiled.pat, alwaysPat, Prod.mk.injEq, Option.some.injEq] at h
      rw [← h.1]
      exact .found rfl rfl (fun s e env'' a1 a2 a3 => a1)
    | cons q qs =>
      have hseg := compact_segs (parts := q :: qs) (by simp) (hw.parts _ rfl)
      cases hcp : compact (.match_ (q :: qs)) with
      | empty => rw [hcp] at hseg; exact hseg.elim
      | lit s =>
        rw [hcp] at hc hseg
        obtain ⟨t, h3, rfl⟩ := hseg
        refine hlit t h3 ?_ hc
        rintro rfl
        simp at h3
      | rx rx =>
        rw [hcp] at hc hseg
        obtain ⟨l, h3, h4⟩ := hseg
        simp only [compileRx] at hc
        split at hc
        · simp at hc
        · rename_i prog hb
          simp only [Except.ok.injEq, Option.some.injEq] at hc
          obtain ⟨re, hp, rfl⟩ := build_some hb
          obtain rfl := reads_unique (parse_reads hp).1 h4.reads
          refine hrx _ _ hc.symm ?_
          intro s e env'' he hm
          exact static_complete h3 hcan he hm
      | parts cps => exact absurd hcp (compact_static hu cps)

end Litcheck.Pattern
