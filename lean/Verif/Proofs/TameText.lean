import Verif.Proofs.TamePlain
import Verif.Proofs.TameFile
import Verif.Proofs.PatternTotal

/-!
# Check files of literal text and regular expressions: the run ends without a panic
-/

namespace Litcheck.Sets
open Litcheck.Smart Litcheck.Spec Litcheck.RegexSpec Litcheck.PatternSpec Litcheck.Pattern
open Litcheck.Regex hiding Items
open Litcheck.Lex (Part Match CPat CLine VarName Expr Op)

/-- Literal text and regular expressions only: no `[[..]]`. -/
def Plain (p : CPat) : Prop := ∀ x ∈ partsOf p, ∀ m, x ≠ Part.match_ m

theorem fold_plain : ∀ (ps : List Part) (st : CSt), (∀ x ∈ ps, ∀ m, x ≠ Part.match_ m) → st.out = [] → st.caps = [] →
    (ps.foldl compactStep st).out = [] ∧ (ps.foldl compactStep st).caps = []
  | [], st, _, h1, h2 => ⟨h1, h2⟩
  | x :: ps, st, h, h1, h2 => by
    rw [List.foldl_cons]
    refine fold_plain ps _ (fun y hy => h y (by simp [hy])) ?_ ?_
    · cases x with
      | literal s => exact h1
      | regex s => exact h1
      | match_ m => exact absurd rfl (h (.match_ m) (by simp) m)
    · cases x with
      | literal s => exact h2
      | regex s => simp [compactStep, CSt.addRx, h2]
      | match_ m => exact absurd rfl (h (.match_ m) (by simp) m)

theorem compact_plain {p : CPat} (h : Plain p) :
    (partsOf p = [] ∧ compact p = .empty) ∨ (∃ s, compact p = .lit s) ∨ ∃ s, compact p = .rx ⟨s, []⟩ := by
  cases p with
  | empty => exact .inl ⟨rfl, rfl⟩
  | literal s => exact .inr (.inl ⟨s, rfl⟩)
  | regex s => exact .inr (.inr ⟨s, rfl⟩)
  | match_ ps =>
    cases ps with
    | nil => exact .inl ⟨rfl, rfl⟩
    | cons q qs =>
      right
      obtain ⟨h1, h2⟩ := fold_plain (q :: qs) ⟨[], [], [], true⟩ h rfl rfl
      rw [show compact (.match_ (q :: qs)) = (if ((q :: qs).foldl compactStep ⟨[], [], [], true⟩).out.isEmpty then
          if ((q :: qs).foldl compactStep ⟨[], [], [], true⟩).litMode then .lit ((q :: qs).foldl compactStep ⟨[], [], [], true⟩).text
          else .rx ⟨((q :: qs).foldl compactStep ⟨[], [], [], true⟩).text, ((q :: qs).foldl compactStep ⟨[], [], [], true⟩).caps⟩
        else .parts ((q :: qs).foldl compactStep ⟨[], [], [], true⟩).flush) from rfl, h1, h2]
      simp only [List.isEmpty_nil, if_true]
      split
      · exact .inl ⟨_, rfl⟩
      · exact .inr ⟨_, rfl⟩

/-- Patterns without uses of variables and expressions are a text or a regular expression. -/
theorem compact_unused {p : CPat} (h : ∀ x ∈ partsOf p, ¬ Uses x) :
    (partsOf p = [] ∧ compact p = .empty) ∨ (∃ s, compact p = .lit s) ∨ ∃ r, compact p = .rx r := by
  have hout : ∀ (ps : List Part) (st : CSt), (∀ x ∈ ps, ¬ Uses x) → (ps.foldl compactStep st).out = st.out := by
    intro ps
    induction ps with
    | nil => intro st _; rfl
    | cons x ps ih =>
      intro st h
      rw [List.foldl_cons, ih _ (fun y hy => h y (by simp [hy])), static_out (h x (by simp))]
  cases p with
  | empty => exact .inl ⟨rfl, rfl⟩
  | literal s => exact .inr (.inl ⟨s, rfl⟩)
  | regex s => exact .inr (.inr ⟨_, rfl⟩)
  | match_ ps =>
    cases ps with
    | nil => exact .inl ⟨rfl, rfl⟩
    | cons q qs =>
      right
      have h1 := hout (q :: qs) ⟨[], [], [], true⟩ h
      rw [show compact (.match_ (q :: qs)) = (if ((q :: qs).foldl compactStep ⟨[], [], [], true⟩).out.isEmpty then
          if ((q :: qs).foldl compactStep ⟨[], [], [], true⟩).litMode then .lit ((q :: qs).foldl compactStep ⟨[], [], [], true⟩).text
          else .rx ⟨((q :: qs).foldl compactStep ⟨[], [], [], true⟩).text, ((q :: qs).foldl compactStep ⟨[], [], [], true⟩).caps⟩
        else .parts ((q :: qs).foldl compactStep ⟨[], [], [], true⟩).flush) from rfl, h1]
      simp only [List.isEmpty_nil, if_true]
      split
      · exact .inl ⟨_, rfl⟩
      · exact .inr ⟨_, rfl⟩

theorem regexPat_tame {prog : engine.Prog} {caps : List Cap} {n : Nat} : (regexPat (eng := engine) prog caps n).Tame where
  found := by
    intro b r env m env' h1 h2 h hok
    rcases regexPat_run h with ⟨hit, cs, h3, _, _, rfl⟩ | ⟨_, k, rfl⟩
    · have hf : find prog.1 prog.2 b r.start r.stop false = some hit := h3
      obtain ⟨a1, a2, a3, _⟩ := find_some hf
      exact ⟨_, rfl, a1, a2, a3⟩
    · exact absurd hok (by simp [MatchResult.failed, MatchResult.isOk, MatchType.isOk])
  related := by
    intro b r env m env' f h hf
    rcases regexPat_run h with ⟨hit, cs, h3, _, _, rfl⟩ | ⟨_, k, rfl⟩
    · simp [MatchResult.ok] at hf
    · simp only [MatchResult.failed, MatchType.failed.injEq] at hf
      rw [← hf]

theorem alwaysPat_tame (n : Nat) : (alwaysPat n).Tame where
  found := by
    intro b r env m env' h1 h2 h hok
    simp only [alwaysPat, Prod.mk.injEq, Option.some.injEq] at h
    rw [← h.1]
    exact ⟨_, rfl, Nat.le_refl _, Nat.le_refl _, h1⟩
  related := by
    intro b r env m env' f h hf
    simp only [alwaysPat, Prod.mk.injEq, Option.some.injEq] at h
    rw [← h.1] at hf
    simp [MatchResult.ok] at hf

theorem wsLen_le : ∀ b : Buf, wsLen b ≤ b.length
  | [] => Nat.le_refl _
  | x :: xs => by
    unfold wsLen
    split
    · omega
    · have := wsLen_le xs
      simp only [List.length_cons]; omega

theorem whitespacePat_tame (n : Nat) : (whitespacePat n).Tame where
  found := by
    intro b r env m env' h1 h2 h hok
    simp only [whitespacePat] at h
    split at h
    · simp only [Prod.mk.injEq, Option.some.injEq] at h
      rw [← h.1] at hok
      exact absurd hok (by simp [matchNone, MatchResult.failed, MatchResult.isOk, MatchType.isOk])
    · rename_i x xs hs
      split at h
      · simp only [Prod.mk.injEq, Option.some.injEq] at h
        rw [← h.1]
        have := wsLen_le (x :: xs)
        rw [← hs] at this
        have hl : (sliceOf b r.start r.stop).length ≤ r.stop - r.start := by
          simp only [sliceOf, List.length_take, List.length_drop]; omega
        refine ⟨_, rfl, Nat.le_refl _, Nat.le_add_right _ _, ?_⟩
        rw [← hs]
        show r.start + wsLen (sliceOf b r.start r.stop) ≤ r.stop
        omega
      · simp only [Prod.mk.injEq, Option.some.injEq] at h
        rw [← h.1] at hok
        exact absurd hok (by simp [matchNone, MatchResult.failed, MatchResult.isOk, MatchType.isOk])
  related := by
    intro b r env m env' f h hf
    simp only [whitespacePat] at h
    split at h
    · simp only [Prod.mk.injEq, Option.some.injEq] at h
      rw [← h.1] at hf
      simp only [matchNone, MatchResult.failed, MatchType.failed.injEq] at hf
      rw [← hf]
    · split at h
      · simp only [Prod.mk.injEq, Option.some.injEq] at h
        rw [← h.1] at hf
        simp [MatchResult.ok] at hf
      · simp only [Prod.mk.injEq, Option.some.injEq] at h
        rw [← h.1] at hf
        simp only [matchNone, MatchResult.failed, MatchType.failed.injEq] at hf
        rw [← hf]

theorem litPat_tame (ic : Bool) (lit : Buf) (n : Nat) : (litPat ic lit n : Pat Vars).Tame := (litPat_sound ic lit n).tame

/-- A pattern without uses is compiled, or rejected, and its matcher is harmless. -/
theorem compileRx_plain {run : Run} {r : Pattern.Rx} (n : Nat) : ∃ c, compileRx engine run.opts r = .ok c ∧ ∀ x, c = some x → (x.pat (run.conf n) n).Tame := by
  unfold compileRx
  split
  · exact ⟨_, rfl, by simp⟩
  · refine ⟨_, rfl, ?_⟩
    intro x hx
    simp only [Option.some.injEq] at hx
    subst hx
    exact regexPat_tame

theorem compile_plain {run : Run} {p : CPat} (h : ∀ x ∈ partsOf p, ¬ Uses x) (n : Nat) :
    ∃ c, Pattern.compile engine run.opts p = .ok c ∧ ∀ x, c = some x → (x.pat (run.conf n) n).Tame := by
  unfold Pattern.compile
  rcases compact_unused h with ⟨_, h⟩ | ⟨s, h⟩ | ⟨s, h⟩
  · rw [h]
    refine ⟨_, rfl, ?_⟩
    intro x hx
    simp only [Option.some.injEq] at hx
    subst hx
    exact alwaysPat_tame n
  · rw [h]
    simp only [compileLit]
    split
    · exact ⟨_, rfl, by simp⟩
    · split
      · split
        · refine ⟨_, rfl, ?_⟩
          intro x hx
          simp only [Option.some.injEq] at hx
          subst hx
          exact whitespacePat_tame n
        · split
          · exact ⟨_, rfl, by simp⟩
          · refine ⟨_, rfl, ?_⟩
            intro x hx
            simp only [Option.some.injEq] at hx
            subst hx
            exact regexPat_tame (caps := [])
      · refine ⟨_, rfl, ?_⟩
        intro x hx
        simp only [Option.some.injEq] at hx
        subst hx
        exact litPat_tame _ _ _
  · rw [h]
    exact compileRx_plain n

theorem oneLine_parts {o : Opts} {p : CPat} (h : OneLine o p) : partsOf p ≠ [] := by
  intro he
  have := (h ⟨weak, o.ignoreCase, o.strictWs, 0⟩ rfl rfl Bindings.empty [] 0 0 Bindings.empty (by
    unfold meaning
    rw [he]
    exact .nil)).1
  omega

/-- A label which uses no variables, and matches only non-empty parts of lines. -/
theorem compileStatic_plain {run : Run} {p : CPat} (hpl : ∀ x ∈ partsOf p, ¬ Uses x) (hp : ∀ ps, p = .match_ ps → ∀ x ∈ ps, PartOk x) (ho : OneLine run.opts p) (n : Nat) :
    ∃ c, compileStatic engine run.opts p = .ok c ∧ ∀ x, c = some x → (x.pat (run.conf n) n).Tame ∧ (x.pat (run.conf n) n).OneLine := by
  suffices h : ∃ c, compileStatic engine run.opts p = .ok c by
    obtain ⟨c, hc⟩ := h
    refine ⟨c, hc, ?_⟩
    intro x hx
    subst hx
    exact ⟨(compileStatic_sound hp hc).tame, (compileStatic_label hp ho hc).oneLine⟩
  unfold compileStatic
  rcases compact_unused hpl with ⟨h1, _⟩ | ⟨s, h⟩ | ⟨s, h⟩
  · exact absurd h1 (oneLine_parts ho)
  · rw [h]
    dsimp only
    split
    · rename_i hs
      exfalso
      have hs : s = [] := by simpa using hs
      subst hs
      have ht : ∃ t : List Str, partsOf p = t.map Part.literal ∧ [] = t.flatten := by
        cases p with
        | empty => simp [compact] at h
        | literal s => simp only [compact, Compact.lit.injEq] at h; subst h; exact ⟨[[]], rfl, rfl⟩
        | regex s => simp [compact] at h
        | match_ ps =>
          cases ps with
          | nil => simp [compact] at h
          | cons q qs =>
            have hseg := compact_segs (parts := q :: qs) (by simp) (hp _ rfl)
            rw [h] at hseg
            exact hseg
      obtain ⟨t, ht1, ht2⟩ := ht
      have := (ho ⟨weak, run.opts.ignoreCase, run.opts.strictWs, 0⟩ rfl rfl Bindings.empty [] 0 0 Bindings.empty (by
        unfold meaning
        rw [ht1]
        apply literals_sound
        rw [← canonical_spaced, ← ht2]
        have hc : canonicalizeHorizontalWhitespace [] run.opts.strictWs = [] := by cases run.opts.strictWs <;> rfl
        rw [hc]
        exact ⟨rfl, by simp [utf8, OccursAt]⟩)).1
      omega
    · exact ⟨_, rfl⟩
  · rw [h]
    dsimp only
    split
    · obtain ⟨c, hc, _⟩ := compileRx_plain (run := run) (r := s) n
      exact ⟨c, hc⟩
    · exact ⟨_, rfl⟩

/-- A pattern which may use variables: it is well-formed, its expressions are safe, and its first part matches no empty text. -/
structure Calm (run : Run) (p : CPat) : Prop where
  wf : WellFormed p
  safe : ∀ line, ∀ x ∈ partsOf p, SafePart run.checked line x
  head : ∀ x, (partsOf p).head? = some x → NeverEmpty run.opts (.match_ [x])

/-- What is asked of a check file:
* labels use no variable and no expression, the patterns of other lines (but `CHECK-NOT` and `CHECK-DAG` lines) either use none or are `Calm`;
  a `{LITERAL}` line has some text;
* labels match only non-empty parts of lines, `CHECK-SAME` patterns are not only whitespace and match no empty text;
* of the lines of a group of consecutive `CHECK-NOT` (with the implicit patterns) or `CHECK-DAG` lines, no two have the same text, and none
  matches the empty text, uses a variable or captures a number;
* the directives are in order. -/
structure PlainFile (run : Run) (imp : List Str) (ls : List CLine) : Prop where
  fixed : ∀ l ∈ ls, l.kind = .label → ∀ x ∈ partsOf l.pattern, ¬ Uses x
  calm : ∀ l ∈ ls, l.kind ≠ .label → l.kind ≠ .not → l.kind ≠ .dag → l.kind ≠ .empty → (∀ x ∈ partsOf l.pattern, ¬ Uses x) ∨ Calm run l.pattern
  literal : ∀ l ∈ ls, l.literal = true → l.kind ≠ .empty → ∃ s, l.pattern = .literal s ∧ s ≠ []
  label : ∀ l ∈ ls, l.kind = .label → (∀ ps, l.pattern = .match_ ps → ∀ x ∈ ps, PartOk x) ∧ OneLine run.opts l.pattern
  same : ∀ l ∈ ls, l.kind = .same → WellFormed l.pattern ∧ NeverEmpty run.opts l.pattern
  nots : ∀ a b c, ls = a ++ b ++ c → (∀ l ∈ b, l.kind = .not) →
    PlainGroup run.opts ((if imp.isEmpty then [] else [.regex (implicitSrc imp)]) ++ b.map CLine.pattern)
  dags : ∀ a b c, ls = a ++ b ++ c → (∀ l ∈ b, l.kind = .dag) → PlainGroup run.opts (b.map CLine.pattern)
  order : OrderlyFile (!imp.isEmpty) (ls.map CLine.kind)

/-- What a compiled line is. -/
structure LineTame (x : Line Vars) : Prop where
  tame : x.kind ≠ .not → x.kind ≠ .dag → x.kind ≠ .empty → x.pat.Tame
  same : x.kind = .same → x.pat.NeverEmpty
  label : x.kind = .label → x.pat.OneLine

section
variable {run : Run} {imp : List Str} {ls : List CLine}

theorem neverEmpty_pat {p : Pat Vars} {cx : PatternSpec.Ctx} {o : Opts} {q : CPat} (h : p.Sound (meaning cx q)) (h1 : cx.ic = o.ignoreCase)
    (h2 : cx.strict = o.strictWs) (hne : NeverEmpty o q) : p.NeverEmpty := by
  intro b r env m env' i k1 k2 k3 hok hi
  obtain ⟨i', g1, g2, g3, g4, g5⟩ := h.found b r env m env' k1 k2 k3 hok
  rw [hi] at g1
  simp only [Option.some.injEq] at g1
  subst g1
  rcases Nat.lt_or_eq_of_le g3 with h3 | h3
  · exact h3
  · rw [← h3] at g5
    exact absurd g5 (hne cx h1 h2 env b i.start env')

theorem compileLine_tame (hf : PlainFile run imp ls) {l : CLine} (hl : l ∈ ls) (n : Nat) :
    ∃ c, compileLine run l n = .ok c ∧ ∀ x, c = some x → LineTame x := by
  have hcompile : l.kind ≠ .not → l.kind ≠ .dag → l.kind ≠ .empty → l.kind ≠ .label → ∃ c,
      (if l.literal then compileLiteral engine run.opts l.pattern else Pattern.compile engine run.opts l.pattern) = .ok c ∧
      ∀ x, c = some x → (x.pat (run.conf n) n).Tame := by
    intro k1 k2 k3 k4
    cases hlit : l.literal with
    | true =>
      obtain ⟨s, hs, hne⟩ := hf.literal l hl hlit k3
      rw [if_pos rfl, hs]
      unfold compileLiteral
      dsimp only
      rw [if_neg (by simpa using hne)]
      refine ⟨_, rfl, ?_⟩
      intro x hx
      simp only [Option.some.injEq] at hx
      subst hx
      exact litPat_tame _ _ _
    | false =>
      rw [if_neg (by simp)]
      rcases hf.calm l hl k4 k1 k2 k3 with h | h
      · exact compile_plain h n
      · obtain ⟨c, hc⟩ := compile_answers (o := run.opts) h.wf
        refine ⟨c, hc, ?_⟩
        intro x hx
        subst hx
        exact (compiled_sound (run_fit run n) h.wf hc n).tame
  have hok : ∃ c, compileLine run l n = .ok c := by
    unfold compileLine
    split
    · exact ⟨_, rfl⟩
    · exact ⟨_, rfl⟩
    · exact ⟨_, rfl⟩
    · rename_i hk
      obtain ⟨c, hc, _⟩ := compileStatic_plain (hf.fixed l hl hk) (hf.label l hl hk).1 (hf.label l hl hk).2 n
      rw [hc]
      exact ⟨_, rfl⟩
    · rename_i k1 k2 k3 k4
      obtain ⟨c, hc, _⟩ := hcompile k1 k2 k3 k4
      dsimp only
      split
      · rename_i h
        rw [if_pos h] at hc
        rw [hc]; exact ⟨_, rfl⟩
      · rename_i h
        rw [if_neg h] at hc
        rw [hc]; exact ⟨_, rfl⟩
  obtain ⟨c, hc⟩ := hok
  refine ⟨c, hc, ?_⟩
  intro x hx
  subst hx
  obtain ⟨h1, h2, h3, h4, h5⟩ := compileLine_spec hc
  have hlab : l.kind = .label → x.pat.Tame ∧ x.pat.OneLine := by
    intro k
    obtain ⟨c, g1, g2⟩ := h4 k
    obtain ⟨c', g3, g4⟩ := compileStatic_plain (hf.fixed l hl k) (hf.label l hl k).1 (hf.label l hl k).2 n
    rw [g1] at g3
    simp only [Except.ok.injEq] at g3
    rw [g2]
    exact g4 c g3.symm
  refine ⟨?_, ?_, ?_⟩
  · rw [h1]
    intro k1 k2 k3
    by_cases k4 : l.kind = .label
    · exact (hlab k4).1
    · obtain ⟨c, g1, g2⟩ := h5 k1 k2 k3 k4
      obtain ⟨c', g3, g4⟩ := hcompile k1 k2 k3 k4
      rw [g1] at g3
      simp only [Except.ok.injEq] at g3
      rw [g2]
      exact g4 c g3.symm
  · rw [h1]
    intro k
    obtain ⟨c, g1, g2⟩ := h5 (by simp [k]) (by simp [k]) (by simp [k]) (by simp [k])
    obtain ⟨hw, hne⟩ := hf.same l hl k
    rw [g2]
    refine neverEmpty_pat (cx := run.ctx n) (o := run.opts) (q := l.pattern) ?_ rfl rfl hne
    cases hlit : l.literal with
    | true => rw [hlit] at g1; exact compileLiteral_sound g1
    | false => rw [hlit] at g1; exact compiled_sound (run_fit run n) hw g1 n
  · rw [h1]
    intro k
    exact (hlab k).2

theorem compileAll_tame (hf : PlainFile run imp ls) : ∀ (ms : List CLine) (n : Nat), (∀ l ∈ ms, l ∈ ls) →
    ∃ c, compileAll run ms n = .ok c ∧ ∀ xs, c = some xs → ∀ x ∈ xs, LineTame x
  | [], n, _ => ⟨some [], rfl, by simp⟩
  | l :: ms, n, hm => by
    obtain ⟨c, hc, h1⟩ := compileLine_tame hf (hm l (by simp)) n
    obtain ⟨c', hc', h2⟩ := compileAll_tame hf ms (n + 1) (fun x hx => hm x (by simp [hx]))
    simp only [compileAll, hc, bind, Except.bind]
    cases c with
    | none => exact ⟨_, rfl, by simp⟩
    | some x =>
      simp only [hc']
      cases c' with
      | none => exact ⟨_, rfl, by simp⟩
      | some xs =>
        refine ⟨_, rfl, ?_⟩
        intro ys hys
        simp only [Option.some.injEq] at hys
        subst hys
        intro y hy
        rcases List.mem_cons.1 hy with rfl | hy
        · exact h1 _ rfl
        · exact h2 _ rfl y hy

theorem PlainGroup.mono {o : Opts} {ps qs : List CPat} (h : PlainGroup o ps) (hs : List.Sublist qs ps) : PlainGroup o qs :=
  ⟨h.static.mono fun q hq => hs.subset hq, (hs.map srcText).nodup h.texts⟩

/-- A run of lines of the same kind, in the file. -/
theorem infix_lines {lines g : List (Line Vars)} (hn : Numbered ls lines) (hg : g <:+: lines) {k : Kind} (hk : ∀ l ∈ g, l.kind = k) :
    ∃ a b c, ls = a ++ b ++ c ∧ (∀ l ∈ b, l.kind = k) ∧ b.map CLine.pattern = g.map (patAt (patsOf ls imp)) := by
  obtain ⟨a', c', he⟩ := hg
  have hmap := hn.map imp
  rw [← he, List.map_append, List.map_append] at hmap
  obtain ⟨l12, l3, e1, e2, e3⟩ := List.map_eq_append_iff.1 hmap.symm
  obtain ⟨l1, l2, rfl, e4, e5⟩ := List.map_eq_append_iff.1 e2
  refine ⟨l1, l2, l3, e1, ?_, ?_⟩
  · intro l hl
    have : (l.kind, l.pattern) ∈ g.map (fun x => (x.kind, patAt (patsOf ls imp) x)) := by rw [← e5]; exact List.mem_map_of_mem (f := fun l : CLine => (l.kind, l.pattern)) hl
    obtain ⟨x, hx, hxe⟩ := List.mem_map.1 this
    simp only [Prod.mk.injEq] at hxe
    rw [← hxe.1]
    exact hk x hx
  · have e6 := congrArg (List.map Prod.snd) e5
    rw [List.map_map, List.map_map] at e6
    exact e6

theorem fileSet_total {g : List (Line Vars)} (hg : PlainGroup run.opts (g.map (patAt (patsOf ls imp)))) (hne : g ≠ []) :
    (∃ r, (fileSet run (patsOf ls imp)).nots g = .ok r ∧ ∀ p, r = some p → p.Located) ∧
    ∃ r, (fileSet run (patsOf ls imp)).dags g = .ok r ∧ ∀ d, r = some d → d.Tame := by
  have hg' : PlainGroup run.opts ((g.map fun l => (((patsOf ls imp)[l.pat.pspan]?).getD .empty, l.pat.pspan)).map Prod.fst) := by
    rw [List.map_map]; exact hg
  obtain ⟨c, hc, _⟩ := plainGroup_total hg' (by simpa using hne) run.opts.ignoreCase run.conf run.check.enableVarScope
  constructor
  · simp only [fileSet, hc, bind, Except.bind]
    refine ⟨_, rfl, ?_⟩
    intro p hp
    obtain ⟨set, hset, rfl⟩ := Option.map_eq_some_iff.1 hp
    subst hset
    exact plainGroup_not hg' hc run.conf
  · simp only [fileSet, hc, bind, Except.bind]
    refine ⟨_, rfl, ?_⟩
    intro p hp
    obtain ⟨set, hset, rfl⟩ := Option.map_eq_some_iff.1 hp
    subst hset
    exact plainGroup_dag hg' hc run.opts.ignoreCase run.conf run.check.enableVarScope

/-- The run of a plain check file ends with a verdict. -/
theorem verifyLines_total (hf : PlainFile run imp ls) (env : Vars) {b : Buf} (hlf : Readable (ls.map CLine.kind) b) : ∃ v, verifyLines run imp ls env b = .ok v := by
  obtain ⟨c, hc, h1⟩ := compileAll_tame hf ls 0 (fun _ h => h)
  unfold verifyLines
  simp only [hc, bind, Except.bind]
  cases c with
  | none => exact ⟨_, rfl⟩
  | some lines =>
    have hn := compileAll_numbered hc
    have hkinds : lines.map Line.kind = ls.map CLine.kind := by
      have := congrArg (List.map Prod.fst) (hn.map imp)
      rw [List.map_map, List.map_map] at this
      exact this
    have himp : ∀ l ∈ implicitLine ls imp, l.kind = .not := fun l hl => (patAt_implicit (imp := imp) hl).1
    have hsome : (implicitLine ls imp).isSome = !imp.isEmpty := by
      unfold implicitLine
      cases imp.isEmpty <;> rfl
    have ht := h1 lines rfl
    refine verify_total (fileTame himp ?_ (fun l hl => (ht l hl).tame) (fun l hl => (ht l hl).same) (fun l hl => (ht l hl).label) ?_ ?_) himp env (hkinds ▸ hlf)
    · rw [hkinds, hsome]; exact hf.order
    · intro g hr hne hk
      refine (fileSet_total ?_ hne).1
      rcases hr with hr | ⟨i, g', k1, rfl, k3⟩
      · obtain ⟨a, b, c, e1, e2, e3⟩ := infix_lines (imp := imp) hn hr hk
        rw [← e3]
        exact (hf.nots a b c e1 e2).mono (List.sublist_append_right _ _)
      · obtain ⟨a, b, c, e1, e2, e3⟩ := infix_lines (imp := imp) hn k3 (fun l hl => hk l (by simp [hl]))
        obtain ⟨_, _, e4, e5⟩ := patAt_implicit k1
        have := hf.nots a b c e1 e2
        rw [e5] at this
        rw [List.map_cons, e4, ← e3]
        simpa using this
    · intro g hr hne hk
      refine (fileSet_total ?_ hne).2
      obtain ⟨a, b, c, e1, e2, e3⟩ := infix_lines (imp := imp) hn hr hk
      rw [← e3]
      exact hf.dags a b c e1 e2

end
end Litcheck.Sets
