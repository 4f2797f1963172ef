import Verif.Proofs.DagRx
import Verif.Props.FileCheckLiteral
import Verif.Props.Pattern
import Mathlib.Data.List.Chain

/-!
# Check files with regular expressions and variables meet the hypotheses of `Verif/Props/FileCheck.lean`
-/

namespace Litcheck.Sets
open Litcheck.Smart Litcheck.Spec Litcheck.RegexSpec Litcheck.PatternSpec Litcheck.Pattern
open Litcheck.Regex hiding Items
open Litcheck.Lex (Part Match CPat CLine VarName Expr Op)

theorem StaticGroup.mono {o : Opts} {ps qs : List CPat} (h : StaticGroup o ps) (hs : ∀ q ∈ qs, q ∈ ps) : StaticGroup o qs :=
  ⟨fun q hq => h.static q (hs q hq), fun q hq => h.solid q (hs q hq), fun p hp q hq => h.distinct p (hs p hp) q (hs q hq)⟩

/-- The settings of the specification for the lines of a run. -/
def Run.ctx (run : Run) (n : Nat) : PatternSpec.Ctx := pctx weak run.opts (run.lineOf n)

theorem run_ctx (run : Run) : CtxOf run.opts run.ctx := fun _ => ⟨rfl, rfl⟩

theorem run_fit (run : Run) (n : Nat) : Fit (run.ctx n) run.opts (run.conf n) := ⟨rfl, rfl, rfl, rfl, rfl⟩

/-- The pattern of a line. -/
def patAt (pats : List CPat) (l : Line Vars) : CPat := (pats[l.pat.pspan]?).getD .empty

/-- What the pattern of a line matches. -/
def lineMean (run : Run) (pats : List CPat) (l : Line Vars) : Meaning Vars := meaning (run.ctx l.pat.pspan) (patAt pats l)

/-- What is required of the lines of a block. -/
structure GoodLines (run : Run) (pats : List CPat) (ls : List (Line Vars)) : Prop where
  sound : ∀ l ∈ ls, l.kind ≠ .empty → l.pat.Sound (lineMean run pats l)
  nots : StaticGroup run.opts ((ls.filter fun l => l.kind == .not).map (patAt pats))
  dags : ∀ a b c, ls = a ++ b ++ c → (∀ l ∈ b, l.kind = .dag) → DagGroup run.opts (b.map (patAt pats))

theorem file_contracts (run : Run) (pats : List CPat) :
    Contracts (fileSet run pats) (lineMean run pats) (GoodLines run pats) where
  ofInfix := by
    intro a b c h
    refine ⟨fun l hl => h.sound l (by simp [hl]), ?_, ?_⟩
    · refine h.nots.mono ?_
      intro q hq
      obtain ⟨l, hl, rfl⟩ := List.mem_map.1 hq
      refine List.mem_map_of_mem ?_
      simp only [List.filter_append, List.mem_append]
      exact .inl (.inr hl)
    · rintro a' b' c' rfl hk
      exact h.dags (a ++ a') b' (c' ++ c) (by simp) hk
  pat := by
    intro l h hk
    exact h.sound l (by simp) hk
  nots := by
    intro ls p h hk hp
    unfold fileSet at hp
    dsimp only at hp
    obtain ⟨u, hu, h2⟩ := bind_ok.1 hp
    simp only [Except.ok.injEq, Option.map_eq_some_iff] at h2
    obtain ⟨set, rfl, rfl⟩ := h2
    have hf : ls.filter (fun l => l.kind == .not) = ls := by
      rw [List.filter_eq_self]
      intro l hl
      simp [hk l hl]
    have hg := h.nots
    rw [hf] at hg
    have := nots_complete (ls := ls.map fun l => ((pats[l.pat.pspan]?).getD .empty, l.pat.pspan))
      (by rw [List.map_map]; exact hg) hu (run_ctx run) run.conf
    rw [List.map_map] at this
    exact this
  dags := by
    intro ls d hne h hk hd
    unfold fileSet at hd
    dsimp only at hd
    obtain ⟨u, hu, h2⟩ := bind_ok.1 hd
    simp only [Except.ok.injEq, Option.map_eq_some_iff] at h2
    obtain ⟨set, rfl, rfl⟩ := h2
    have := dagGroup_sound (ls := ls.map fun l => ((pats[l.pat.pspan]?).getD .empty, l.pat.pspan))
      (by rw [List.map_map]; exact h.dags [] ls [] (by simp) hk) (by simpa using hne) hu (run_ctx run)
      run.opts.ignoreCase run.conf run.check.enableVarScope rfl
    rw [List.map_map] at this
    exact this

/-! ## Single lines -/

theorem nonePat_sound (n : Nat) (μ : Meaning Vars) : (nonePat n).Sound μ where
  found := by
    intro b r env m env' _ _ h hok
    simp only [nonePat, Prod.mk.injEq, Option.some.injEq] at h
    rw [← h.1] at hok
    simp [matchNone, MatchResult.isOk, MatchType.isOk, MatchResult.failed] at hok
  related := by
    intro b r env m env' f h hf
    simp only [nonePat, Prod.mk.injEq, Option.some.injEq] at h
    rw [← h.1] at hf
    simp only [matchNone, MatchResult.failed, MatchType.failed.injEq] at hf
    rw [← hf]

theorem compileLiteral_sound {run : Run} {n : Nat} {p : CPat} {c : Compiled engine} (h : compileLiteral engine run.opts p = .ok (some c)) :
    (c.pat (run.conf n) n).Sound (meaning (run.ctx n) p) := by
  unfold compileLiteral at h
  split at h
  · rename_i s
    split at h
    · simp at h
    · simp only [Except.ok.injEq, Option.some.injEq] at h
      subst h
      have := lit_sound (run_fit run n) (p := .literal s) (t := [s]) (pspan := n) rfl
      rw [show [s].flatten = s by simp] at this
      exact this
  · simp at h

/-- What a label is compiled to. -/
theorem compileStatic_inv {o : Opts} {p : CPat} {c : Compiled engine} (hp : ∀ ps, p = .match_ ps → ∀ x ∈ ps, PartOk x)
    (h : compileStatic engine o p = .ok (some c)) :
    (∃ t : List Str, partsOf p = t.map Part.literal ∧ c = .substring (litBytes o t.flatten)) ∨
    ∃ re, c = .regex (o.ignoreCase, re) [] ∧ ∀ cx : PatternSpec.Ctx, cx.ic = o.ignoreCase → cx.strict = o.strictWs →
      ∀ b i j env, RegexSpec.Matches o.ignoreCase b re i j → meaning cx p env b i j env := by
  have hlit : ∀ (t : List Str) (s : Str), s = t.flatten → partsOf p = t.map Part.literal →
      (if s.isEmpty then (Except.error Panic.assertFailed : P (Option (Compiled engine))) else .ok (some (.substring (litBytes o s)))) =
      .ok (some c) → ∃ t : List Str, partsOf p = t.map Part.literal ∧ c = .substring (litBytes o t.flatten) := by
    intro t s hs ht hc
    subst hs
    split at hc
    · simp at hc
    · simp only [Except.ok.injEq, Option.some.injEq] at hc
      exact ⟨t, ht, hc.symm⟩
  have hrx : ∀ (r : Pattern.Rx), (if r.caps.isEmpty then compileRx engine o r else (.ok none : P (Option (Compiled engine)))) = .ok (some c) →
      r.caps = [] ∧ ∃ re, parse r.src = some re ∧ c = .regex (o.ignoreCase, re) [] := by
    intro r hc
    split at hc
    · rename_i he
      have he : r.caps = [] := by simpa using he
      refine ⟨he, ?_⟩
      simp only [compileRx] at hc
      split at hc
      · simp at hc
      · rename_i prog hb
        simp only [Except.ok.injEq, Option.some.injEq] at hc
        obtain ⟨re, hq, rfl⟩ := build_some hb
        rw [he] at hc
        exact ⟨re, hq, hc.symm⟩
    · simp at hc
  unfold compileStatic at h
  cases p with
  | empty => simp [compact] at h
  | literal s => exact .inl (hlit [s] s (by simp) rfl (by simpa [compact] using h))
  | regex s =>
    simp only [compact] at h
    obtain ⟨_, re, h1, h2⟩ := hrx ⟨s, []⟩ h
    right
    refine ⟨re, h2, ?_⟩
    intro cx e1 e2 b i j env hm
    rw [← e1] at hm
    exact .cons ⟨rfl, re, h1, hm⟩ .nil
  | match_ ps =>
    cases ps with
    | nil => simp [compact] at h
    | cons q qs =>
      have hseg := compact_segs (parts := q :: qs) (by simp) (hp _ rfl)
      cases hcp : compact (.match_ (q :: qs)) with
      | empty => rw [hcp] at hseg; exact hseg.elim
      | lit s =>
        rw [hcp] at h hseg
        obtain ⟨t, h3, h4⟩ := hseg
        exact .inl (hlit t s h4 h3 h)
      | rx r =>
        rw [hcp] at h hseg
        obtain ⟨l, h3, h4⟩ := hseg
        obtain ⟨hcaps, re, h5, h6⟩ := hrx r h
        right
        refine ⟨re, h6, ?_⟩
        intro cx e1 e2 b i j env hm
        obtain ⟨c', hl⟩ := hm
        obtain ⟨hr1, hr2⟩ := parse_reads h5
        obtain rfl := reads_unique hr1 h4.reads
        rw [← e1] at hl
        obtain ⟨sp, g0, g1, _, _, b1⟩ := static_sound h3 hr2 hl
        have hsp : sp = [] := by rw [hcaps] at g0; exact List.map_eq_nil_iff.1 g0
        subst hsp
        exact b1 env env .nil
      | parts cps => rw [hcp] at h; simp at h

/-- The pattern matches only non-empty parts of a line. -/
def OneLine (o : Opts) (p : CPat) : Prop :=
  ∀ cx : PatternSpec.Ctx, cx.ic = o.ignoreCase → cx.strict = o.strictWs → ∀ env b i j env', meaning cx p env b i j env' → i < j ∧ NoLF b i j

theorem compileStatic_sound {run : Run} {n : Nat} {p : CPat} {c : Compiled engine} (hp : ∀ ps, p = .match_ ps → ∀ x ∈ ps, PartOk x)
    (h : compileStatic engine run.opts p = .ok (some c)) : (c.pat (run.conf n) n).Sound (meaning (run.ctx n) p) := by
  rcases compileStatic_inv hp h with ⟨t, h1, rfl⟩ | ⟨re, rfl, h1⟩
  · exact lit_sound (run_fit run n) h1
  · show (regexPat (eng := engine) (run.opts.ignoreCase, re) [] n).Sound (meaning (run.ctx n) p)
    refine regex_sound (p := p) (run_fit run n) ?_
    intro b i j c env env' hit hl hcap cs h3 h4
    simp only [captured, Option.some.injEq] at h3
    subst h3
    simp only [bindAll, Option.some.injEq] at h4
    subst h4
    exact h1 (run.ctx n) rfl rfl _ _ _ _ ⟨c, hl⟩

theorem compileStatic_label {run : Run} {n : Nat} {p : CPat} {c : Compiled engine} (hp : ∀ ps, p = .match_ ps → ∀ x ∈ ps, PartOk x)
    (ho : OneLine run.opts p) (h : compileStatic engine run.opts p = .ok (some c)) :
    (c.pat (run.conf n) n).LabelSound (meaning (run.ctx n) p) := by
  intro b r env m i hrun hi
  rcases compileStatic_inv hp h with ⟨t, h1, rfl⟩ | ⟨re, rfl, h1⟩
  · rcases litPat_run (ic := run.opts.ignoreCase) (lit := litBytes run.opts t.flatten) (ps := n) b r env with ⟨s, e, h3, h4, h5, h6, _⟩ | ⟨h3, _⟩
    · have h' : some (MatchResult.ok ⟨s, e, 0, n⟩) = some m := by rw [← hrun]; exact (congrArg Prod.fst h3).symm
      simp only [Option.some.injEq] at h'
      rw [← h'] at hi
      simp only [MatchResult.ok, Option.some.injEq] at hi
      subst hi
      have hm : meaning (run.ctx n) p env b s e env := by
        unfold meaning
        rw [h1]
        apply literals_sound
        rw [← canonical_spaced]
        exact h6
      obtain ⟨g1, g2⟩ := ho _ rfl rfl _ _ _ _ _ hm
      exact ⟨h4, g1, h5, g2, env, hm⟩
    · have h' : some matchNone = some m := by rw [← hrun]; exact (congrArg Prod.fst h3).symm
      simp only [Option.some.injEq] at h'
      rw [← h'] at hi
      simp [matchNone, MatchResult.failed] at hi
  · have hr : (regexPat (eng := engine) (run.opts.ignoreCase, re) [] n).run b r env =
        (some m, ((regexPat (eng := engine) (run.opts.ignoreCase, re) [] n).run b r env).2) := Prod.ext hrun rfl
    rcases regexPat_run hr with ⟨hit, cs, h2, h3, h4, rfl⟩ | ⟨_, k, rfl⟩
    · have hf : find run.opts.ignoreCase re b r.start r.stop false = some hit := h2
      obtain ⟨a1, a2, a3, _, a4, _⟩ := find_some hf
      simp only [MatchResult.ok, Option.some.injEq] at hi
      subst hi
      have hm := h1 (run.ctx n) rfl rfl b hit.start hit.stop env ⟨_, a4⟩
      obtain ⟨g1, g2⟩ := ho _ rfl rfl _ _ _ _ _ hm
      exact ⟨a1, g1, a3, g2, env, hm⟩
    · simp [MatchResult.failed] at hi

/-! ## Whole files -/

theorem compileAll_spec (run : Run) : ∀ (ls : List CLine) (n : Nat) {lines : List (Line Vars)}, compileAll run ls n = .ok (some lines) →
    lines.length = ls.length ∧ ∀ k x, lines[k]? = some x → ∃ l, ls[k]? = some l ∧ compileLine run l (n + k) = .ok (some x)
  | [], n, lines, h => by
    simp only [compileAll, Except.ok.injEq, Option.some.injEq] at h
    subst h
    simp
  | l :: ls, n, lines, h => by
    unfold compileAll at h
    obtain ⟨c, h1, h2⟩ := bind_ok.1 h
    cases c with
    | none => simp at h2
    | some x =>
      dsimp only at h2
      obtain ⟨c, h3, h4⟩ := bind_ok.1 h2
      cases c with
      | none => simp at h4
      | some xs =>
        simp only [Except.ok.injEq, Option.some.injEq] at h4
        subst h4
        obtain ⟨h5, h6⟩ := compileAll_spec run ls (n + 1) h3
        refine ⟨by simp [h5], ?_⟩
        intro k y hy
        cases k with
        | zero =>
          simp only [List.getElem?_cons_zero, Option.some.injEq] at hy
          subst hy
          exact ⟨l, rfl, h1⟩
        | succ k =>
          simp only [List.getElem?_cons_succ] at hy
          obtain ⟨l', h7, h8⟩ := h6 k y hy
          exact ⟨l', h7, by rw [show n + (k + 1) = n + 1 + k by omega]; exact h8⟩

/-- What is required of a check file, given by its lines and the patterns of `--implicit-check-not`:
* `CHECK`, `CHECK-NEXT`, `CHECK-SAME`, `CHECK-COUNT`: well-formed patterns (as in C68);
* `CHECK-LABEL`: well-formed patterns which match only non-empty parts of lines;
* `CHECK-NOT`: the patterns, with the implicit ones, make a `StaticGroup`;
* `CHECK-DAG`: consecutive lines have distinct literals, or patterns as described at `RxGroup`;
* if there is a label, the other patterns before the first one do not match the empty string. -/
structure GoodFile (run : Run) (imp : List Str) (ls : List CLine) : Prop where
  positive : ∀ l ∈ ls, l.kind ≠ .not → l.kind ≠ .dag → l.kind ≠ .empty → l.kind ≠ .label → l.literal = false → WellFormed l.pattern
  label : ∀ l ∈ ls, l.kind = .label → (∀ ps, l.pattern = .match_ ps → ∀ x ∈ ps, PartOk x) ∧ OneLine run.opts l.pattern
  nots : StaticGroup run.opts ((ls.filter fun l => l.kind == .not).map CLine.pattern ++
    if imp.isEmpty then [] else [.regex (implicitSrc imp)])
  dags : ∀ a b c, ls = a ++ b ++ c → (∀ l ∈ b, l.kind = .dag) → DagGroup run.opts (b.map CLine.pattern)
  head : ∀ a l c, ls = a ++ l :: c → (∃ x ∈ c, x.kind = .label) → (∀ x ∈ a, x.kind ≠ .label) → l.kind ≠ .label → l.kind ≠ .empty →
    l.kind ≠ .not → NeverEmpty run.opts l.pattern

/-- The kind, the number and the matcher of a compiled line. -/
theorem compileLine_spec {run : Run} {l : CLine} {n : Nat} {x : Line Vars} (h : compileLine run l n = .ok (some x)) :
    x.kind = l.kind ∧ x.pat.pspan = n ∧
    (l.kind = .not ∨ l.kind = .dag ∨ l.kind = .empty → x.pat = nonePat n) ∧
    (l.kind = .label → ∃ c, compileStatic engine run.opts l.pattern = .ok (some c) ∧ x.pat = c.pat (run.conf n) n) ∧
    (l.kind ≠ .not → l.kind ≠ .dag → l.kind ≠ .empty → l.kind ≠ .label →
      ∃ c, (if l.literal then compileLiteral engine run.opts l.pattern else Pattern.compile engine run.opts l.pattern) = .ok (some c) ∧
        x.pat = c.pat (run.conf n) n) := by
  have hps : ∀ c : Compiled engine, (c.pat (run.conf n) n).pspan = n := by intro c; cases c <;> rfl
  unfold compileLine at h
  split at h
  · rename_i hk
    simp only [Except.ok.injEq, Option.some.injEq] at h
    subst h
    exact ⟨rfl, rfl, fun _ => rfl, fun h => (by rw [hk] at h; simp at h), fun h => absurd hk h⟩
  · rename_i hk
    simp only [Except.ok.injEq, Option.some.injEq] at h
    subst h
    exact ⟨rfl, rfl, fun _ => rfl, fun h => (by rw [hk] at h; simp at h), fun _ h => absurd hk h⟩
  · rename_i hk
    simp only [Except.ok.injEq, Option.some.injEq] at h
    subst h
    exact ⟨rfl, rfl, fun _ => rfl, fun h => (by rw [hk] at h; simp at h), fun _ _ h => absurd hk h⟩
  · rename_i hk
    obtain ⟨c, h1, h2⟩ := bind_ok.1 h
    simp only [Except.ok.injEq, Option.map_eq_some_iff] at h2
    obtain ⟨c, rfl, rfl⟩ := h2
    exact ⟨rfl, hps c, fun h => (by rw [hk] at h; simp at h), fun _ => ⟨c, h1, rfl⟩, fun _ _ _ h => absurd hk h⟩
  · rename_i k1 k2 k3 k4
    replace h : ((if l.literal then compileLiteral engine run.opts l.pattern else Pattern.compile engine run.opts l.pattern) >>=
        fun (x : Option (Compiled engine)) => (.ok (x.map fun c => (⟨l.kind, c.pat (run.conf n) n, []⟩ : Line Vars)) : P (Option (Line Vars)))) =
        .ok (some x) := by
      dsimp only at h
      split at h
      · rename_i hl
        rw [if_pos hl]; exact h
      · rename_i hl
        rw [if_neg hl]; exact h
    obtain ⟨c, h1, h2⟩ := bind_ok.1 h
    simp only [Except.ok.injEq, Option.map_eq_some_iff] at h2
    obtain ⟨c, rfl, rfl⟩ := h2
    refine ⟨rfl, hps c, fun h => ?_, fun h => absurd h k4, fun _ _ _ _ => ⟨c, h1, rfl⟩⟩
    rcases h with h | h | h
    · exact absurd h k1
    · exact absurd h k2
    · exact absurd h k3

section
variable {run : Run} {imp : List Str} {ls : List CLine} {lines : List (Line Vars)}

/-- The lines are those of the check file, with their numbers. -/
structure Numbered (ls : List CLine) (lines : List (Line Vars)) : Prop where
  same : lines.length = ls.length
  line : ∀ (k : Nat) (x : Line Vars), lines[k]? = some x → ∃ l : CLine, ls[k]? = some l ∧ x.kind = l.kind ∧ x.pat.pspan = k

theorem compileAll_numbered (h : compileAll run ls 0 = .ok (some lines)) : Numbered ls lines := by
  obtain ⟨h1, h2⟩ := compileAll_spec run ls 0 h
  refine ⟨h1, ?_⟩
  intro k x hx
  obtain ⟨l, h3, h4⟩ := h2 k x hx
  obtain ⟨h5, h6, _⟩ := compileLine_spec h4
  exact ⟨l, h3, h5, by simpa using h6⟩

theorem patAt_line {k : Nat} {x : Line Vars} {l : CLine} (hl : ls[k]? = some l) (hx : x.pat.pspan = k) :
    patAt (patsOf ls imp) x = l.pattern := by
  unfold patAt patsOf
  have hk : k < ls.length := (List.getElem?_eq_some_iff.1 hl).1
  rw [hx, List.getElem?_append_left (by simpa using hk), List.getElem?_map, hl]
  rfl

theorem Numbered.mem (h : Numbered ls lines) {x : Line Vars} (hx : x ∈ lines) :
    ∃ l ∈ ls, x.kind = l.kind ∧ patAt (patsOf ls imp) x = l.pattern := by
  obtain ⟨k, hk⟩ := List.mem_iff_getElem?.1 hx
  obtain ⟨l, h1, h2, h3⟩ := h.line k x hk
  exact ⟨l, List.mem_of_getElem? h1, h2, patAt_line h1 h3⟩

theorem Numbered.map (h : Numbered ls lines) (imp : List Str) :
    lines.map (fun x => (x.kind, patAt (patsOf ls imp) x)) = ls.map (fun l => (l.kind, l.pattern)) := by
  apply List.ext_getElem?
  intro k
  rw [List.getElem?_map, List.getElem?_map]
  cases hx : lines[k]? with
  | none =>
    rw [List.getElem?_eq_none_iff, h.same] at hx
    rw [List.getElem?_eq_none_iff.2 hx]
    rfl
  | some x =>
    obtain ⟨l, h1, h2, h3⟩ := h.line k x hx
    rw [h1, Option.map_some, Option.map_some, h2, patAt_line h1 h3]

theorem patAt_implicit {x : Line Vars} (hx : implicitLine ls imp = some x) :
    x.kind = .not ∧ x.pat = nonePat ls.length ∧ patAt (patsOf ls imp) x = .regex (implicitSrc imp) ∧ imp.isEmpty = false := by
  unfold implicitLine at hx
  split at hx
  · simp at hx
  · rename_i hi
    simp only [Option.some.injEq] at hx
    subst hx
    refine ⟨rfl, rfl, ?_, by simpa using hi⟩
    unfold patAt patsOf
    rw [if_neg hi, show (nonePat ls.length).pspan = ls.length from rfl, List.getElem?_append_right (by simp)]
    simp

theorem line_sound (hg : GoodFile run imp ls) (h : compileAll run ls 0 = .ok (some lines)) {x : Line Vars} (hx : x ∈ lines) :
    x.pat.Sound (lineMean run (patsOf ls imp) x) := by
  obtain ⟨k, hk⟩ := List.mem_iff_getElem?.1 hx
  obtain ⟨l, h1, h2⟩ := (compileAll_spec run ls 0 h).2 k x hk
  rw [Nat.zero_add] at h2
  have hl : l ∈ ls := List.mem_of_getElem? h1
  obtain ⟨h3, h4, h5, h6, h7⟩ := compileLine_spec h2
  unfold lineMean
  rw [patAt_line h1 h4, h4]
  by_cases k1 : l.kind = .not
  · rw [h5 (.inl k1)]; exact nonePat_sound _ _
  by_cases k2 : l.kind = .dag
  · rw [h5 (.inr (.inl k2))]; exact nonePat_sound _ _
  by_cases k3 : l.kind = .empty
  · rw [h5 (.inr (.inr k3))]; exact nonePat_sound _ _
  by_cases k4 : l.kind = .label
  · obtain ⟨c, h8, h9⟩ := h6 k4
    rw [h9]
    exact compileStatic_sound (hg.label l hl k4).1 h8
  · obtain ⟨c, h8, h9⟩ := h7 k1 k2 k3 k4
    rw [h9]
    cases hlit : l.literal with
    | true => rw [hlit] at h8; exact compileLiteral_sound h8
    | false => rw [hlit] at h8; exact compiled_sound (run_fit run k) (hg.positive l hl k1 k2 k3 k4 hlit) h8 k

/-- Lines taken from the file and the implicit line, such that consecutive `CHECK-DAG` lines were consecutive. -/
theorem goodLines (hg : GoodFile run imp ls) (h : compileAll run ls 0 = .ok (some lines)) {zs : List (Line Vars)}
    (hm : ∀ x ∈ zs, x ∈ lines ∨ implicitLine ls imp = some x)
    (hd : ∀ a b c, zs = a ++ b ++ c → (∀ l ∈ b, l.kind = .dag) → b = [] ∨ (∃ x ∈ lines, b = [x]) ∨ ∃ a' c', lines = a' ++ b ++ c') :
    GoodLines run (patsOf ls imp) zs := by
  have hn := compileAll_numbered h
  have hdl : ∀ b a' c', lines = a' ++ b ++ c' → (∀ l ∈ b, l.kind = .dag) → DagGroup run.opts (b.map (patAt (patsOf ls imp))) := by
    intro b a' c' he hk
    have hmap := hn.map imp
    rw [he, List.map_append, List.map_append] at hmap
    obtain ⟨l12, l3, e1, e2, e3⟩ := List.map_eq_append_iff.1 hmap.symm
    obtain ⟨l1, l2, rfl, e4, e5⟩ := List.map_eq_append_iff.1 e2
    have hk2 : ∀ l ∈ l2, l.kind = .dag := by
      intro l hl
      have : (l.kind, l.pattern) ∈ b.map (fun x => (x.kind, patAt (patsOf ls imp) x)) := by rw [← e5]; exact List.mem_map_of_mem (f := fun l : CLine => (l.kind, l.pattern)) hl
      obtain ⟨x, hx, hxe⟩ := List.mem_map.1 this
      simp only [Prod.mk.injEq] at hxe
      rw [← hxe.1]
      exact hk x hx
    have := hg.dags l1 l2 l3 e1 hk2
    have e6 := congrArg (List.map Prod.snd) e5
    rw [List.map_map, List.map_map] at e6
    have e7 : l2.map CLine.pattern = b.map (patAt (patsOf ls imp)) := e6
    rwa [e7] at this
  refine ⟨?_, ?_, ?_⟩
  · intro l hl hk
    rcases hm l hl with h1 | h1
    · exact line_sound hg h h1
    · obtain ⟨_, e, _⟩ := patAt_implicit h1
      rw [e]; exact nonePat_sound _ _
  · refine hg.nots.mono ?_
    intro q hq
    obtain ⟨l, hl, rfl⟩ := List.mem_map.1 hq
    obtain ⟨hl, hk⟩ := List.mem_filter.1 hl
    rcases hm l hl with h1 | h1
    · obtain ⟨l', h2, h3, h4⟩ := hn.mem (imp := imp) h1
      rw [h4]
      refine List.mem_append_left _ (List.mem_map_of_mem (List.mem_filter.2 ⟨h2, ?_⟩))
      rw [← h3]; exact hk
    · obtain ⟨_, _, e, hi⟩ := patAt_implicit h1
      rw [e, hi]
      simp
  · intro a b c he hk
    rcases hd a b c he hk with rfl | ⟨x, hx, rfl⟩ | ⟨a', c', he'⟩
    · exact .inl ⟨[], rfl, by simp, by simp⟩
    · obtain ⟨a', c', he'⟩ := List.append_of_mem hx
      exact hdl [x] a' c' (by simp [he']) hk
    · exact hdl b a' c' he' hk

theorem infix_cons_ne {α : Type} {P : α → Prop} {x : α} {l a b c : List α} (h : x :: l = a ++ b ++ c) (hx : ¬ P x) (hb : ∀ y ∈ b, P y) :
    b = [] ∨ ∃ a', l = a' ++ b ++ c := by
  cases a with
  | nil =>
    cases b with
    | nil => exact .inl rfl
    | cons y b =>
      simp only [List.nil_append, List.cons_append, List.cons.injEq] at h
      exact absurd (hb y (by simp)) (h.1 ▸ hx)
  | cons y a =>
    simp only [List.cons_append, List.cons.injEq] at h
    exact .inr ⟨a, h.2⟩

theorem good_block (hg : GoodFile run imp ls) (h : compileAll run ls 0 = .ok (some lines)) {a y c : List (Line Vars)}
    (he : lines = a ++ y ++ c) : GoodLines run (patsOf ls imp) ((implicitLine ls imp).toList ++ y) := by
  refine goodLines hg h ?_ ?_
  · intro x hx
    rcases List.mem_append.1 hx with hx | hx
    · exact .inr (by simpa using hx)
    · exact .inl (by rw [he]; simp [hx])
  · intro a1 b1 c1 h1 hk
    have hend : ∀ a2, y = a2 ++ b1 ++ c1 → ∃ a' c', lines = a' ++ b1 ++ c' := by
      intro a2 h2
      exact ⟨a ++ a2, c1 ++ c, by rw [he, h2]; simp⟩
    cases hi : implicitLine ls imp with
    | none =>
      rw [hi] at h1
      exact .inr (.inr (hend a1 (by simpa using h1)))
    | some i =>
      rw [hi] at h1
      obtain ⟨hik, _⟩ := patAt_implicit hi
      rcases infix_cons_ne (P := fun l : Line Vars => l.kind = .dag) (show i :: y = _ from h1) (by rw [hik]; simp) hk with h2 | ⟨a', h2⟩
      · exact .inl h2
      · exact .inr (.inr (hend a' h2))

theorem good_head (hg : GoodFile run imp ls) (h : compileAll run ls 0 = .ok (some lines)) :
    GoodLines run (patsOf ls imp) (headLines (implicitLine ls imp) lines) := by
  obtain ⟨⟨t, ht⟩, _⟩ := splitLabels_infix lines
  have hmem : ∀ l ∈ (splitLabels lines).1, l ∈ lines := by
    intro l hl; rw [ht]; simp [hl]
  cases hi : implicitLine ls imp with
  | none =>
    rw [headLines_none]
    have := good_block hg h (a := []) (y := (splitLabels lines).1) (c := t) (by simpa using ht)
    rwa [hi] at this
  | some i =>
    obtain ⟨hik, _⟩ := patAt_implicit hi
    have hsub : ∀ x ∈ headLines (some i) lines, x ∈ lines ∨ x = i := by
      intro x hx
      unfold headLines withImplicit at hx
      rcases List.mem_append.1 hx with hx | hx
      · exact .inr (by simpa using hx)
      · obtain ⟨l, hl, hx⟩ := List.mem_flatMap.1 hx
        split at hx
        · simp only [List.mem_singleton] at hx
          subst hx; exact .inl (hmem _ hl)
        · simp only [Option.toList_some, List.mem_cons, List.not_mem_nil, or_false] at hx
          rcases hx with rfl | hx
          · exact .inl (hmem _ hl)
          · exact .inr hx
    have hchain : (headLines (some i) lines).IsChain (fun x y => ¬ (x.kind = .dag ∧ y.kind = .dag)) := by
      unfold headLines
      generalize (splitLabels lines).1 = l1
      rw [Option.toList_some]
      have key : ∀ l1 : List (Line Vars), (l1.flatMap (withImplicit (some i))).IsChain (fun x y => ¬ (x.kind = .dag ∧ y.kind = .dag)) := by
        intro l1
        induction l1 with
        | nil => simp
        | cons l l1 ih =>
          rw [List.flatMap_cons]
          unfold withImplicit
          split
          · rename_i hk
            rw [List.singleton_append, List.isChain_cons]
            exact ⟨fun y _ hh => (by rw [hk] at hh; simp at hh), ih⟩
          · rw [Option.toList_some, List.cons_append, List.singleton_append, List.isChain_cons_cons, List.isChain_cons]
            exact ⟨fun hh => (by rw [hik] at hh; simp at hh), fun y _ hh => (by rw [hik] at hh; simp at hh), ih⟩
      rw [List.singleton_append, List.isChain_cons]
      exact ⟨fun y _ hh => (by rw [hik] at hh; simp at hh), key l1⟩
    refine goodLines hg h ?_ ?_
    · intro x hx
      rcases hsub x hx with h1 | rfl
      · exact .inl h1
      · exact .inr hi
    · intro a b c he hk
      match b, hk with
      | [], _ => exact .inl rfl
      | [x], hk =>
        right; left
        rcases hsub x (by rw [he]; simp) with h1 | rfl
        · exact ⟨x, h1, rfl⟩
        · have := hk x (by simp)
          rw [hik] at this; simp at this
      | x :: y :: b, hk =>
        exfalso
        have h2 : (x :: y :: b) <:+: headLines (some i) lines := ⟨a, c, he.symm⟩
        have h3 := hchain.infix h2
        rw [List.isChain_cons_cons] at h3
        exact h3.1 ⟨hk x (by simp), hk y (by simp)⟩

theorem Numbered.kinds (hn : Numbered ls lines) : lines.map Line.kind = ls.map CLine.kind := by
  have := congrArg (List.map Prod.fst) (hn.map [])
  rw [List.map_map, List.map_map] at this
  exact this

/-- Good check files meet the hypotheses of the theorems about passing tests. -/
theorem file_setting (hg : GoodFile run imp ls) (hcount : ∀ l ∈ ls, l.kind ≠ .count 0) (h : compileAll run ls 0 = .ok (some lines)) {b : Buf}
    (hlf : Readable (ls.map CLine.kind) b) :
    Setting (fileSet run (patsOf ls imp)) (lineMean run (patsOf ls imp)) (implicitLine ls imp) lines b := by
  have hn := compileAll_numbered h
  obtain ⟨⟨t, ht⟩, h2⟩ := splitLabels_infix lines
  refine ⟨⟨GoodLines run (patsOf ls imp), file_contracts _ _, good_head hg h, ?_⟩, ?_, ?_, ?_, ?_, hn.kinds ▸ hlf⟩
  · intro x hx
    obtain ⟨s, u, h3⟩ := h2 x hx
    exact good_block hg h (a := s ++ [x.1]) (c := u) (by rw [h3]; simp)
  · intro l hl
    exact (patAt_implicit hl).1
  · intro l hl
    obtain ⟨l', h3, h4, _⟩ := hn.mem (imp := imp) hl
    rw [h4]; exact hcount l' h3
  · intro l hl hk
    obtain ⟨k, hk'⟩ := List.mem_iff_getElem?.1 hl
    obtain ⟨l', h3, h4⟩ := (compileAll_spec run ls 0 h).2 k l hk'
    rw [Nat.zero_add] at h4
    obtain ⟨e1, e2, _, e4, _⟩ := compileLine_spec h4
    rw [e1] at hk
    obtain ⟨c, e5, e6⟩ := e4 hk
    obtain ⟨g1, g2⟩ := hg.label l' (List.mem_of_getElem? h3) hk
    unfold lineMean
    rw [patAt_line h3 e2, e2, e6]
    exact compileStatic_label g1 g2 e5
  · intro hne l hl hk1 hk2 env b s e env' hm
    have hle : s ≤ e := partsMatch_le hm
    rcases Nat.lt_or_ge s e with h3 | h3
    · exact h3
    · exfalso
      obtain rfl : s = e := by omega
      -- the line is before the first label
      have hl1 : l ∈ (splitLabels lines).1 := by
        unfold headLines withImplicit at hl
        rcases List.mem_append.1 hl with hl | hl
        · exact absurd (patAt_implicit (by simpa using hl)).1 hk2
        · obtain ⟨z, hz, hl⟩ := List.mem_flatMap.1 hl
          split at hl
          · simp only [List.mem_singleton] at hl
            subst hl; exact hz
          · rcases List.mem_cons.1 hl with rfl | hl
            · exact hz
            · exact absurd (patAt_implicit (by simpa using hl)).1 hk2
      have hlab : ∀ (ls : List (Line Vars)), (∀ x ∈ (splitLabels ls).1, x.kind ≠ .label) ∧
          ((splitLabels ls).2 ≠ [] → ∃ l0 t', ls = (splitLabels ls).1 ++ l0 :: t' ∧ l0.kind = .label) := by
        intro ls
        induction ls with
        | nil => simp [splitLabels]
        | cons z zs ih =>
          unfold splitLabels
          split
          · rename_i hz
            exact ⟨by simp, fun _ => ⟨z, zs, rfl, hz⟩⟩
          · rename_i hz
            refine ⟨?_, ?_⟩
            · intro x hx
              rcases List.mem_cons.1 hx with rfl | hx
              · exact hz
              · exact ih.1 x hx
            · intro h
              obtain ⟨l0, t', h5, h6⟩ := ih.2 h
              exact ⟨l0, t', by rw [List.cons_append]; exact congrArg _ h5, h6⟩
      obtain ⟨g1, g2⟩ := hlab lines
      obtain ⟨l0, t', g3, g4⟩ := g2 hne
      obtain ⟨a, c, g5⟩ := List.append_of_mem hl1
      have hmap := hn.map imp
      have g6 : lines = a ++ l :: (c ++ l0 :: t') := by rw [g3, g5]; simp
      rw [g6, List.map_append, List.map_cons] at hmap
      obtain ⟨l1, l2, rfl, e4, e5⟩ := List.map_eq_append_iff.1 hmap.symm
      obtain ⟨z, l3, rfl, e6, e7⟩ := List.map_eq_cons_iff.1 e5
      simp only [Prod.mk.injEq] at e6
      have kinds : ∀ {p : List CLine} {q : List (Line Vars)} {imp' : List CPat}, p.map (fun l => (l.kind, l.pattern)) = q.map (fun x => (x.kind, patAt imp' x)) →
          p.map CLine.kind = q.map Line.kind := by
        intro p q imp' hpq
        have := congrArg (List.map Prod.fst) hpq
        rw [List.map_map, List.map_map] at this
        exact this
      have := hg.head l1 z l3 rfl ?_ ?_ (by rw [e6.1]; exact g1 l hl1) (by rw [e6.1]; exact hk1) (by rw [e6.1]; exact hk2)
      · rw [e6.2] at this
        exact this _ rfl rfl _ _ _ _ hm
      · have h9 := kinds e7
        have : Kind.label ∈ l3.map CLine.kind := by
          rw [h9]
          simp [g4]
        obtain ⟨x, hx, hxe⟩ := List.mem_map.1 this
        exact ⟨x, hx, hxe⟩
      · intro x hx
        have h9 := kinds e4
        have : x.kind ∈ a.map Line.kind := by rw [← h9]; exact List.mem_map_of_mem hx
        obtain ⟨y, hy, hye⟩ := List.mem_map.1 this
        rw [← hye]
        exact g1 y (by rw [g5]; simp [hy])

end

end Litcheck.Sets
