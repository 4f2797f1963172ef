import Verif.Proofs.Segments
import Verif.Proofs.Contracts
import Verif.Proofs.Literal

/-!
# What a compiled pattern reports is a match
-/

namespace Litcheck.Pattern
open Litcheck.Smart Litcheck.Spec Litcheck.RegexSpec Litcheck.PatternSpec
open Litcheck.Regex hiding Items
open Litcheck.Lex (Part Match CPat VarName Expr Op)

variable {cx : PatternSpec.Ctx} {o : Opts} {cf : Conf engine}

theorem lowerParts_cons {cp : CPart} {cps : List CPart} {ops : List (MOp engine)}
    (h : lowerParts engine o (cp :: cps) = .ok (some ops)) :
    ∃ x y, lowerPart engine o cp = .ok (some x) ∧ lowerParts engine o cps = .ok (some y) ∧ ops = x ++ y := by
  simp only [lowerParts] at h
  cases h1 : lowerPart engine o cp with
  | error => rw [h1] at h; simp [bind, Except.bind] at h
  | ok x =>
    rw [h1] at h
    cases x with
    | none => simp [bind, Except.bind] at h
    | some x =>
      cases h2 : lowerParts engine o cps with
      | error => rw [h2] at h; simp [bind, Except.bind] at h
      | ok y =>
        rw [h2] at h
        cases y with
        | none => simp [bind, Except.bind] at h
        | some y =>
          simp only [bind, Except.bind, Except.ok.injEq, Option.some.injEq] at h
          exact ⟨x, y, rfl, rfl, h.symm⟩

/-- The segments after the first one. -/
theorem tail_sound (ft : Fit cx o cf) {ps : List Part} {cps : List CPart} (hs : SegList ps cps) :
    ∀ {ops : List (MOp engine)} {b : Buf} {hi : Nat} {env env2 : Vars} {st st2 : Smart.St}, lowerParts engine o cps = .ok (some ops) →
      hi ≤ b.length → st.anchored = true → st.pos = st.mend → st.pos ≤ hi → Runs cf b hi ops env st st2 env2 →
      (∀ c ∈ st2.caps, Converts c) →
      PartsMatch cx b env ps st.pos st2.mend env2 ∧ st2.mstart = st.mstart ∧ st.pos ≤ st2.mend ∧ st2.mend ≤ hi := by
  induction hs with
  | nil h =>
    intro ops b hi env env2 st st2 hl hhi ha hp hle hr _
    simp only [lowerParts, Except.ok.injEq, Option.some.injEq] at hl
    subst hl
    cases hr with
    | nil => exact ⟨by rw [← hp]; exact h cx b env _, rfl, by dsimp only; omega, by dsimp only; omega⟩
  | cons h0 h1 _ ih =>
    intro ops b hi env env2 st st2 hl hhi ha hp hle hr hc
    obtain ⟨x, y, hx, hy, rfl⟩ := lowerParts_cons hl
    obtain ⟨op, bs, rfl, hm, hseg⟩ := seg_sound ft h1 hx
    rw [List.cons_append] at hr
    obtain ⟨st1, s, e, hmp, hr'⟩ := hr.inv hm
    obtain ⟨b1, b2, b3, b4⟩ := matchPart_bounds hmp
    obtain ⟨k1, k2, _⟩ := matchPart_keeps hmp
    have hmin : min e b.length = e := by omega
    rw [hmin] at hr'
    obtain ⟨env', sti', m1, m2, m3, m4, m5, m6⟩ := hseg hhi hmp (sti := { st1 with mend := e, pos := e }) rfl rfl rfl rfl hr' hc
    obtain ⟨i1, i2, i3, i4⟩ := ih hy hhi (by rw [m5]; exact k1.trans ha) (by rw [m3, m4]) (by omega) m2 hc
    have hsp : s = st.pos := b4 ha
    refine ⟨?_, ?_, by omega, i4⟩
    · have h2 : PartsMatch cx b env _ st.pos st.pos env := h0 cx b env st.pos
      rw [hsp] at m1
      rw [m3] at i1
      exact PartsMatch.append h2 (PartsMatch.append m1 i1)
    · rw [i2, m6]; exact k2

/-- One attempt. -/
theorem attempt_sound (ft : Fit cx o cf) {ps : List Part} {cps : List CPart} (hs : SegList ps cps) {op : MOp engine} {rest : List (MOp engine)}
    {b : Buf} {hi p : Nat} {env env2 : Vars} {st2 : Smart.St} {anc : Bool} (hl : lowerParts engine o cps = .ok (some (op :: rest)))
    (hhi : hi ≤ b.length) (ha : attempt cf b hi anc op rest env p = .found st2 env2) (hc : ∀ c ∈ st2.caps, Converts c) :
    PartsMatch cx b env ps st2.mstart st2.mend env2 ∧ min p b.length ≤ st2.mstart ∧ st2.mstart ≤ st2.mend ∧ st2.mend ≤ hi := by
  cases hs with
  | nil h => simp [lowerParts] at hl
  | cons h0 h1 h2 =>
    obtain ⟨x, y, hx, hy, he⟩ := lowerParts_cons hl
    obtain ⟨op', bs, rfl, hm, hseg⟩ := seg_sound ft h1 hx
    simp only [List.cons_append, List.cons.injEq] at he
    obtain ⟨rfl, rfl⟩ := he
    unfold attempt at ha
    dsimp only at ha
    split at ha
    · simp at ha
    · simp at ha
    · simp at ha
    · rename_i st1 s e hmp
      split at ha
      · simp at ha
      · simp at ha
      · rename_i hmps
        simp only [Attempt.found.injEq] at ha
        obtain ⟨rfl, rfl⟩ := ha
        have hr := matchParts_runs _ hmps
        obtain ⟨b1, b2, b3, b4⟩ := matchPart_bounds hmp
        have hmin : min e b.length = e := by omega
        rw [hmin] at hr
        obtain ⟨env', sti', m1, m2, m3, m4, m5, m6⟩ := hseg hhi hmp (sti := { st1 with mstart := s, mend := e, pos := e, anchored := true })
          rfl rfl rfl rfl hr hc
        obtain ⟨i1, i2, i3, i4⟩ := tail_sound ft h2 hy hhi m5 (by rw [m3, m4]) (by omega) m2 hc
        have e2 : s = _ := (i2.trans m6).symm
        rw [m3] at i1
        have b1' : min p b.length ≤ s := b1
        rw [← e2]
        refine ⟨PartsMatch.append (h0 cx b env s) (PartsMatch.append m1 i1), b1', by omega, i4⟩
      · split at ha <;> simp at ha

theorem attempt_retry {b : Buf} {hi p p' : Nat} {anc : Bool} {op : MOp engine} {rest : List (MOp engine)} {env : Vars}
    (ha : attempt cf b hi anc op rest env p = .retry p') : min p b.length < p' ∧ anc = false := by
  unfold attempt at ha
  dsimp only at ha
  split at ha
  · simp at ha
  · simp at ha
  · simp at ha
  · split at ha
    · simp at ha
    · simp at ha
    · simp at ha
    · split at ha
      · simp at ha
      · rename_i hn
        simp only [Attempt.retry.injEq] at ha
        simp only [start] at ha
        exact ⟨by omega, by simpa using hn⟩

theorem search_sound (ft : Fit cx o cf) {ps : List Part} {cps : List CPart} (hs : SegList ps cps) {op : MOp engine} {rest : List (MOp engine)}
    {b : Buf} {hi : Nat} {env : Vars} {anc : Bool} (hl : lowerParts engine o cps = .ok (some (op :: rest))) (hhi : hi ≤ b.length) :
    ∀ {fuel p : Nat} {st2 : Smart.St} {env2 : Vars}, search cf b hi anc op rest env fuel p = some (.found st2 env2) →
      (∀ c ∈ st2.caps, Converts c) →
      PartsMatch cx b env ps st2.mstart st2.mend env2 ∧ min p b.length ≤ st2.mstart ∧ st2.mstart ≤ st2.mend ∧ st2.mend ≤ hi := by
  intro fuel
  induction fuel with
  | zero => intro p st2 env2 h; simp [search] at h
  | succ n ih =>
    intro p st2 env2 h hc
    unfold search at h
    split at h
    · rename_i st env' ha
      simp only [Option.some.injEq, Found.found.injEq] at h
      obtain ⟨rfl, rfl⟩ := h
      obtain ⟨h1, h2⟩ := attempt_sound ft hs hl hhi ha hc
      rw [(partsMatch_extends h1).merge]
      exact ⟨h1, h2⟩
    · simp at h
    · simp at h
    · simp at h
    · rename_i p' ha
      obtain ⟨h1, h2, h3⟩ := ih h hc
      have := attempt_retry ha
      exact ⟨h1, by omega, h3⟩

/-- Patterns with variables. -/
theorem smart_sound (ft : Fit cx o cf) {p : CPat} {cps : List CPart} {ops : List (MOp engine)} {pspan : Nat}
    (hs : SegList (partsOf p) cps) (hl : lowerParts engine o cps = .ok (some ops)) : (smartPat cf ops pspan).Sound (meaning cx p) where
  found := by
    intro b r env m env' hr1 hr2 hrun hok
    unfold smartPat at hrun
    dsimp only at hrun
    unfold tryMatch at hrun
    cases ops with
    | nil => simp at hrun
    | cons op rest =>
      dsimp only at hrun
      split at hrun
      · rename_i m1 env1 heq
        simp only [Prod.mk.injEq, Option.some.injEq] at hrun
        obtain ⟨rfl, rfl⟩ := hrun
        split at heq
        · simp at heq
        · simp at heq
        · simp at heq
        · simp only [Outcome.result.injEq] at heq
          rw [← heq.1] at hok
          simp [matchNone, MatchResult.isOk, MatchType.isOk, MatchResult.failed] at hok
        · rename_i st env2 hsr
          split at heq
          · split at heq
            · rename_i hcv
              simp only [Outcome.result.injEq] at heq
              obtain ⟨rfl, rfl⟩ := heq
              obtain ⟨h1, h2, h3, h4⟩ := search_sound ft hs hl hr2 hsr (convertible_iff.1 hcv)
              exact ⟨_, rfl, by dsimp only; omega, h3, h4, h1⟩
            · simp only [Outcome.result.injEq] at heq
              rw [← heq.1] at hok
              simp [MatchResult.isOk, MatchType.isOk, MatchResult.failed] at hok
          · simp only [Outcome.result.injEq] at heq
            rw [← heq.1] at hok
            simp [matchNone, MatchResult.isOk, MatchType.isOk, MatchResult.failed] at hok
      all_goals simp at hrun
  related := by
    intro b r env m env' f hrun hf
    unfold smartPat at hrun
    dsimp only at hrun
    unfold tryMatch at hrun
    cases ops with
    | nil => simp at hrun
    | cons op rest =>
      dsimp only at hrun
      split at hrun
      · rename_i m1 env1 heq
        simp only [Prod.mk.injEq, Option.some.injEq] at hrun
        obtain ⟨rfl, rfl⟩ := hrun
        split at heq
        · simp at heq
        · simp at heq
        · simp at heq
        · simp only [Outcome.result.injEq] at heq
          rw [← heq.1] at hf
          simp only [matchNone, MatchResult.failed, MatchType.failed.injEq] at hf
          rw [← hf]
        · split at heq
          · split at heq
            · simp only [Outcome.result.injEq] at heq
              rw [← heq.1] at hf
              simp [MatchResult.ok] at hf
            · simp only [Outcome.result.injEq] at heq
              rw [← heq.1] at hf
              simp only [MatchResult.failed, MatchType.failed.injEq] at hf
              rw [← hf]
          · simp only [Outcome.result.injEq] at heq
            rw [← heq.1] at hf
            simp only [matchNone, MatchResult.failed, MatchType.failed.injEq] at hf
            rw [← hf]
      all_goals simp at hrun

/-! ## Patterns without variables -/

theorem captured_binds {b : Buf} {h : Hit} : ∀ {sp : List (Cap × Nat × Nat)} {cs : List (Cap × Str)} {env env' : Vars},
    (∀ x ∈ sp, h.group (symOf x.1.name) = some x.2) → captured b h (sp.map Prod.fst) = some cs → bindAll env cs = some env' →
    Binds b env sp env'
  | [], cs, env, env', _, hc, hb => by
    simp only [List.map_nil, captured, Option.some.injEq] at hc
    subst hc
    simp only [bindAll, Option.some.injEq] at hb
    subst hb
    exact .nil
  | x :: sp, cs, env, env', hg, hc, hb => by
    obtain ⟨⟨nm, ty⟩, s, e⟩ := x
    simp only [List.map_cons, captured] at hc
    rw [hg _ (List.mem_cons_self ..)] at hc
    dsimp only at hc
    split at hc
    · rename_i t rest ht hrest
      simp only [Option.some.injEq] at hc
      subst hc
      have ih := fun env env' => captured_binds (env := env) (env' := env') (fun y hy => hg y (List.mem_cons_of_mem _ hy)) hrest
      cases ty with
      | string =>
        simp only [bindAll] at hb
        exact .cons ⟨t, fromUtf8_sound _ _ _ ht, rfl⟩ (ih _ _ hb)
      | number f =>
        simp only [bindAll] at hb
        split at hb
        · rename_i v hv
          exact .cons ⟨t, fromUtf8_sound _ _ _ ht, v, some (f.getD plainFormat), hv, rfl, rfl⟩ (ih _ _ hb)
        · simp at hb
    · simp at hc

theorem regexPat_run {eng : Engine} {prog : eng.Prog} {caps : List Cap} {pspan : Nat} {b : Buf} {r : Rng} {env env' : Vars} {m : MatchResult}
    (h : (regexPat prog caps pspan).run b r env = (some m, env')) :
    (∃ hit cs, eng.search prog b r.start r.stop false = some hit ∧ captured b hit caps = some cs ∧ bindAll env cs = some env' ∧
      m = .ok ⟨hit.start, hit.stop, 0, pspan⟩) ∨ (env' = env ∧ ∃ k, m = .failed ⟨k, true⟩) := by
  unfold regexPat at h
  dsimp only at h
  split at h
  · simp only [Prod.mk.injEq, Option.some.injEq] at h
    exact .inr ⟨h.2.symm, _, h.1.symm⟩
  · rename_i hit hs
    split at h
    · simp at h
    · rename_i cs hc
      split at h
      · rename_i e he
        simp only [Prod.mk.injEq, Option.some.injEq] at h
        obtain ⟨rfl, rfl⟩ := h
        exact .inl ⟨hit, cs, hs, hc, he, rfl⟩
      · simp only [Prod.mk.injEq, Option.some.injEq] at h
        exact .inr ⟨h.2.symm, _, h.1.symm⟩

theorem regex_related {eng : Engine} {prog : eng.Prog} {caps : List Cap} {pspan : Nat} : ∀ b r env m env' f,
    (regexPat prog caps pspan).run b r env = (some m, env') → m.ty = .failed f → f.related = true := by
  intro b r env m env' f h hf
  rcases regexPat_run h with ⟨_, _, _, _, _, rfl⟩ | ⟨_, k, rfl⟩
  · simp [MatchResult.ok] at hf
  · simp only [MatchResult.failed, MatchType.failed.injEq] at hf
    rw [← hf]

/-- Patterns which are a regular expression. -/
theorem regex_sound (ft : Fit cx o cf) {p : CPat} {r : Regex.Re} {caps : List Cap} {pspan : Nat}
    (hb : ∀ b i j c env env' (h : Hit), Lang cx.ic b r i j c → h.caps = c → ∀ cs, captured b h caps = some cs → bindAll env cs = some env' →
      PartsMatch cx b env (partsOf p) i j env') : (regexPat (eng := engine) (o.ignoreCase, r) caps pspan).Sound (meaning cx p) where
  found := by
    intro b rg env m env' _ _ h hok
    rcases regexPat_run h with ⟨hit, cs, h1, h2, h3, rfl⟩ | ⟨_, k, rfl⟩
    · have hf : find o.ignoreCase r b rg.start rg.stop false = some hit := h1
      obtain ⟨a1, a2, a3, _, a4, _⟩ := find_some hf
      rw [← ft.ic] at a4
      exact ⟨_, rfl, a1, a2, a3, hb _ _ _ _ _ _ hit a4 rfl cs h2 h3⟩
    · simp [MatchResult.isOk, MatchType.isOk, MatchResult.failed] at hok
  related := regex_related

theorem always_sound {p : CPat} {pspan : Nat} (hp : partsOf p = []) : (alwaysPat pspan).Sound (meaning cx p) where
  found := by
    intro b r env m env' h1 _ h hok
    simp only [alwaysPat, Prod.mk.injEq, Option.some.injEq] at h
    obtain ⟨rfl, rfl⟩ := h
    refine ⟨_, rfl, le_refl _, le_refl _, h1, ?_⟩
    unfold meaning
    rw [hp]
    exact .nil
  related := by
    intro b r env m env' f h hf
    simp only [alwaysPat, Prod.mk.injEq, Option.some.injEq] at h
    rw [← h.1] at hf
    simp [MatchResult.ok] at hf

/-- What the parts of a pattern must be: they can be read by themselves, and there is something to match. -/
structure WellFormed (p : CPat) : Prop where
  parts : ∀ ps, p = .match_ ps → ∀ x ∈ ps, PartOk x
  visible : ∀ t : List Str, partsOf p = t.map Part.literal → t ≠ [] → Script.trim t.flatten ≠ []

theorem lit_sound (ft : Fit cx o cf) {p : CPat} {t : List Str} {pspan : Nat} (hp : partsOf p = t.map Part.literal) :
    (litPat cf.ignoreCase (litBytes o t.flatten) pspan : Pat Vars).Sound (meaning cx p) where
  found := by
    intro b r env m env' h1 h2 h hok
    obtain ⟨i, hi, a1, a2, a3, rfl, a4⟩ := (litPat_sound cf.ignoreCase (litBytes o t.flatten) pspan).found b r env m env' h1 h2 h hok
    refine ⟨i, hi, a1, a2, a3, ?_⟩
    unfold meaning
    rw [hp]
    apply literals_sound
    rw [ft.ic, ft.strict, ← canonical_spaced, ← ft.ic']
    exact a4
  related := (litPat_sound cf.ignoreCase (litBytes o t.flatten) pspan).related

/-- Every compiled pattern. -/
theorem compiled_sound (ft : Fit cx o cf) {p : CPat} (hw : WellFormed p) {c : Compiled engine} (hc : compile engine o p = .ok (some c))
    (pspan : Nat) : (c.pat cf pspan).Sound (meaning cx p) := by
  have hlit : ∀ t : List Str, partsOf p = t.map Part.literal → t ≠ [] → compileLit engine o t.flatten = .ok (some c) →
      (c.pat cf pspan).Sound (meaning cx p) := by
    intro t ht hne h
    unfold compileLit at h
    split at h
    · simp at h
    · rw [if_neg (by simpa using hw.visible t ht hne)] at h
      simp only [Except.ok.injEq, Option.some.injEq] at h
      subst h
      exact lit_sound ft ht
  unfold compile at hc
  cases p with
  | empty =>
    simp only [compact, Except.ok.injEq, Option.some.injEq] at hc
    subst hc
    exact always_sound rfl
  | literal s => exact hlit [s] rfl (by simp) (by simpa [compact] using hc)
  | regex s =>
    simp only [compact, compileRx] at hc
    split at hc
    · simp at hc
    · rename_i prog hb
      simp only [Except.ok.injEq, Option.some.injEq] at hc
      subst hc
      obtain ⟨r, hp, rfl⟩ := build_some hb
      refine regex_sound (p := .regex s) (r := r) (caps := []) ft ?_
      intro b i j c env env' h hl hcp cs h1 h2
      simp only [captured, Option.some.injEq] at h1
      subst h1
      simp only [bindAll, Option.some.injEq] at h2
      subst h2
      exact .cons ⟨rfl, r, hp, c, hl⟩ .nil
  | match_ ps =>
    cases ps with
    | nil =>
      simp only [compact, Except.ok.injEq, Option.some.injEq] at hc
      subst hc
      exact always_sound rfl
    | cons q qs =>
      have hseg := compact_segs (parts := q :: qs) (by simp) (hw.parts _ rfl)
      cases hcp : compact (.match_ (q :: qs)) with
      | empty => rw [hcp] at hseg; exact hseg.elim
      | lit s =>
        rw [hcp] at hc hseg
        obtain ⟨t, h1, rfl⟩ := hseg
        refine hlit t h1 ?_ hc
        rintro rfl
        simp at h1
      | rx r =>
        rw [hcp] at hc hseg
        obtain ⟨l, h1, h2⟩ := hseg
        simp only [compileRx] at hc
        split at hc
        · simp at hc
        · rename_i prog hb
          simp only [Except.ok.injEq, Option.some.injEq] at hc
          subst hc
          obtain ⟨re, hp, rfl⟩ := build_some hb
          obtain ⟨hr1, hr2⟩ := parse_reads hp
          obtain rfl := reads_unique hr1 h2.reads
          refine regex_sound ft ?_
          intro b i j c env env' h hl hcap cs h3 h4
          obtain ⟨sp, e1, g1, _, _, b1⟩ := static_sound h1 hr2 hl
          rw [← e1] at h3
          subst hcap
          exact b1 _ _ (captured_binds (fun x hx => g1 x hx) h3 h4)
      | parts cps =>
        rw [hcp] at hc hseg
        dsimp only at hc
        cases hlp : lowerParts engine o cps with
        | error => rw [hlp] at hc; simp [bind, Except.bind] at hc
        | ok x =>
          rw [hlp] at hc
          cases x with
          | none => simp [bind, Except.bind] at hc
          | some ops =>
            simp only [bind, Except.bind, Except.ok.injEq, Option.some.injEq] at hc
            subst hc
            exact smart_sound ft hseg.list hlp

end Litcheck.Pattern
