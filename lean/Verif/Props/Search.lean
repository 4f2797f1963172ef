import Verif.Proofs.Search
import Verif.Proofs.Expr
import Verif.Props.Pattern

/-!
# Properties C70, C71: does the search for a pattern with variables find a match, and does it end?
-/

namespace Litcheck
open Spec RegexSpec PatternSpec Smart Pattern
open Litcheck.Lex (Part Match CPat VarName Expr Op)
open Litcheck.Regex (utf8 engine utf8_injective)

/-- The search for the pattern ends after some number of attempts. (A pattern which uses no variable is searched in one.) -/
def Ends (o : Opts) (line : Nat) (checked : Bool) (p : CPat) (b : Buf) (r : Rng) (env : Vars) : Prop :=
  ∀ ops, Pattern.compile engine o p = .ok (some (.smart ops)) → ∃ attempts, tryMatch (pconf o line checked) ops 0 attempts b r env ≠ .hang

/-- The operations of a pattern with variables. -/
theorem compile_smart {o : Opts} {p : CPat} {ops : List (MOp engine)} (hw : WellFormed p)
    (h : Pattern.compile engine o p = .ok (some (.smart ops))) :
    ∃ x xs cps, partsOf p = x :: xs ∧ SegList (x :: xs) cps ∧ lowerParts engine o cps = .ok (some ops) := by
  have hl : ∀ s, compileLit engine o s ≠ .ok (some (.smart ops)) := by
    intro s h
    unfold compileLit at h
    split at h
    · simp at h
    · split at h
      · split at h
        · simp at h
        · split at h <;> simp at h
      · simp at h
  have hx : ∀ x, compileRx engine o x ≠ .ok (some (.smart ops)) := by
    intro x h
    unfold compileRx at h
    split at h <;> simp at h
  unfold Pattern.compile at h
  cases p with
  | empty => simp [compact] at h
  | literal s => exact absurd h (hl _)
  | regex s => exact absurd h (hx _)
  | match_ ps =>
    cases ps with
    | nil => simp [compact] at h
    | cons q qs =>
      have hseg := compact_segs (parts := q :: qs) (by simp) (hw.parts _ rfl)
      cases hcp : compact (.match_ (q :: qs)) with
      | empty => rw [hcp] at hseg; exact hseg.elim
      | lit s => rw [hcp] at h; exact absurd h (hl _)
      | rx x => rw [hcp] at h; exact absurd h (hx _)
      | parts cps =>
        rw [hcp] at h hseg
        dsimp only at h
        cases hlp : lowerParts engine o cps with
        | error => rw [hlp] at h; simp [bind, Except.bind] at h
        | ok x =>
          rw [hlp] at h
          cases x with
          | none => simp [bind, Except.bind] at h
          | some ops' =>
            simp only [bind, Except.bind, Except.ok.injEq, Option.some.injEq, Compiled.smart.injEq] at h
            subst h
            exact ⟨q, qs, cps, rfl, hseg.list, hlp⟩

theorem tryMatch_hang {cf : Conf engine} {op : MOp engine} {ops : List (MOp engine)} {pspan fuel : Nat} {b : Buf} {r : Rng} {env : Vars} :
    tryMatch cf (op :: ops) pspan fuel b r env = .hang ↔ search cf b r.stop false op ops env fuel r.start = none := by
  unfold tryMatch
  dsimp only
  split
  · rename_i h; simp [h]
  · rename_i h; simp [h]
  · rename_i h; simp [h]
  · rename_i h; simp [h]
  · rename_i h
    constructor
    · intro h'
      split at h'
      · split at h' <;> simp at h'
      · simp at h'
    · intro h'; rw [h] at h'; simp at h'

section
variable {o : Opts} {line : Nat} {checked : Bool} {p : CPat} {b : Buf} {r : Rng} {env : Vars}

/-- **C71**, the number of attempts which the model makes (`smartPat`) decides whether the search ends: if it is not enough, the
search goes on for ever; and more attempts do not change the outcome. -/
theorem C71_decided {ops : List (MOp engine)} (cf : Conf engine) (pspan : Nat) :
    (tryMatch cf ops pspan (b.length + 2) b r env = .hang ↔ ∀ attempts, tryMatch cf ops pspan attempts b r env = .hang) ∧
    ∀ attempts, tryMatch cf ops pspan attempts b r env ≠ .hang →
      tryMatch cf ops pspan attempts b r env = tryMatch cf ops pspan (b.length + 2) b r env := by
  cases ops with
  | nil => simp [tryMatch]
  | cons op ops =>
    have h1 : tryMatch cf (op :: ops) pspan (b.length + 2) b r env = .hang ↔
        ∀ attempts, tryMatch cf (op :: ops) pspan attempts b r env = .hang := by
      constructor
      · intro h n
        rw [tryMatch_hang] at h ⊢
        exact (search_decided (n := b.length + 1) (by omega) h).1 n
      · intro h; exact h _
    refine ⟨h1, ?_⟩
    intro n hn
    have h2 : tryMatch cf (op :: ops) pspan (b.length + 2) b r env ≠ .hang := fun h => hn (h1.1 h n)
    rw [Ne, tryMatch_hang] at hn h2
    obtain ⟨x, hx⟩ := Option.ne_none_iff_exists'.1 hn
    obtain ⟨y, hy⟩ := Option.ne_none_iff_exists'.1 h2
    have h3 := search_mono hx (max n (b.length + 2)) (by omega)
    have h4 := search_mono hy (max n (b.length + 2)) (by omega)
    rw [h3] at h4
    simp only [Option.some.injEq] at h4
    subst h4
    simp only [tryMatch, hx, hy]

/-- **C71**: the search ends if the range ends before the input, or if the first part does not match the empty text at
the end of the input. -/
theorem C71_terminates_partial (hw : WellFormed p) (hb : r.stop ≤ b.length)
    (hc : r.stop < b.length ∨ ∀ x, (partsOf p).head? = some x → ∀ env', ¬ PartMatches (pctx weak o line) b env b.length b.length env' x) :
    Ends o line checked p b r env := by
  intro ops hops
  obtain ⟨x, xs, cps, hp, hs, hl⟩ := compile_smart hw hops
  refine ⟨b.length + 2, ?_⟩
  intro hh
  cases ops with
  | nil => simp [tryMatch] at hh
  | cons op ops =>
    rw [tryMatch_hang] at hh
    obtain ⟨_, q, p', hq, ha⟩ := search_decided (n := b.length + 1) (by omega) hh
    obtain ⟨h1, st, st1, _, hm⟩ := stuck_empty hb hq ha
    rcases hc with hc | hc
    · omega
    · obtain ⟨env', h⟩ := first_empty (pfit o line checked) hs hl (Nat.le_refl _) hm
      exact hc x (by rw [hp]; rfl) env' h

end

/-- A pattern which begins with text: its search ends. -/
example : Ends plainOpts 1 true mixedPat mixedBuf ⟨0, 10⟩ bangVars := by
  refine C71_terminates_partial mixed_wellFormed (by decide) (.inr ?_)
  intro x hx env' h
  simp only [mixedPat, partsOf, List.head?_cons, Option.some.injEq] at hx
  subst hx
  obtain ⟨_, s', h1, h2⟩ := h
  have hs : s' = "x=".toList := by
    rcases h1 with h1 | ⟨_, h1⟩
    · exact h1
    · rw [h1]; decide
  subst hs
  have := h2.1
  exact absurd this (by decide)

example : ∃ ops, Pattern.compile engine plainOpts mixedPat = .ok (some (.smart ops)) := ⟨_, rfl⟩

/-! ## Searches which do not end, and matches which are missed -/

/-- Is it a search which does not end? -/
def isHang : Outcome → Bool
  | .hang => true
  | _ => false

theorem hangs_of {x : Outcome} (h : isHang x = true) : x = .hang := by cases x <;> simp_all [isHang]

/-- `{{.*}}[[X]]`. -/
def starPat : CPat := .match_ [.regex ".*".toList, .match_ (.substitution (.user ['X']) none)]

/-- `X` is `b`. -/
def bVars : Vars := noVars.insert (.user "X") (.str ['b'])

/-- The input `ab`. -/
def abBuf : Buf := [97, 98]

theorem bVars_text {line : Nat} {t : Str} : Text line bVars none (.var (.user ['X'])) t ↔ t = ['b'] := by
  have e : bVars.get (keyOf (.user ['X'])) = .ok (some (.str ['b'])) := rfl
  constructor
  · intro h
    cases h with
    | str h => rw [e] at h; simp only [Except.ok.injEq, Option.some.injEq, Val.str.injEq] at h; exact h.symm
    | num h => cases h with
      | var h => rw [e] at h; simp at h
  · rintro rfl; exact .str e

/-- The search for `{{.*}}[[X]]` in `ab` does not end, though `ab` matches if `X` is `b`. -/
theorem C71_ends_refuted :
    ¬ Ends plainOpts 1 true starPat abBuf ⟨0, 2⟩ bVars ∧ meaning (pctx documented plainOpts 1) starPat bVars abBuf 0 2 bVars := by
  constructor
  · intro h
    obtain ⟨n, hn⟩ := h _ rfl
    refine hn ((C71_decided _ _).1.1 ?_ n)
    exact hangs_of (by decide +kernel)
  · refine .cons (k := 1) ⟨rfl, _, rfl, [], ?_⟩ (.cons ⟨rfl, _, bVars_text.2 rfl, ?_⟩ .nil)
    · exact (Regex.find_some (ic := false) (b := abBuf) (hi := 1) (lo := 0) (anchored := false) (h := ⟨0, 1, []⟩) rfl).2.2.2.2.1
    · exact ⟨rfl, fun k x hk => by
        rcases k with _ | k
        · simp only [show utf8 ['b'] = [98] from rfl, List.getElem?_cons_zero, Option.some.injEq] at hk; subst hk; exact ⟨98, rfl, .inl rfl⟩
        · simp [show utf8 ['b'] = [98] from rfl] at hk⟩

/-- The bytes `lit` are found at `i`. -/
theorem occurs_of {ic : Bool} {lit : Buf} {b : Buf} {i j : Nat} (h : hitAt ic b b.length i lit = true) (hj : j = i + lit.length) :
    Occurs ic lit b i j := ⟨hj, (hitAt_iff.1 h).2⟩

/-- `aa[[X]]`. -/
def overlapPat : CPat := .match_ [.literal ['a', 'a'], .match_ (.substitution (.user ['X']) none)]

/-- `aa[[X]]` is not found in `aaab`, though `aab` matches if `X` is `b`. -/
theorem C70_overlap_refuted :
    (∃ m env', Searched plainOpts 1 true overlapPat [97, 97, 97, 98, 32] ⟨0, 5⟩ bVars m env' ∧ m.isOk = false) ∧
    meaning (pctx documented plainOpts 1) overlapPat bVars [97, 97, 97, 98, 32] 1 4 bVars := by
  constructor
  · exact ⟨_, _, ⟨_, rfl, rfl⟩, by decide +kernel⟩
  · exact .cons (k := 3) ⟨rfl, _, .inl rfl, occurs_of (by decide +kernel) rfl⟩
      (.cons ⟨rfl, _, bVars_text.2 rfl, occurs_of (by decide +kernel) rfl⟩ .nil)

/-- `[[X]][[B:.+]]`. -/
def lastPat : CPat := .match_ [.match_ (.substitution (.user ['X']) none), .match_ (.substitution (.user ['B']) (some ".+".toList))]

/-- `[[X]][[B:.+]]` is not found in `bc`, which matches if `X` is `b`. -/
theorem C70_capture_refuted :
    (∃ m env', Searched plainOpts 1 true lastPat [98, 99] ⟨0, 2⟩ bVars m env' ∧ m.isOk = false) ∧
    ∃ env', meaning (pctx documented plainOpts 1) lastPat bVars [98, 99] 0 2 env' := by
  constructor
  · exact ⟨_, _, ⟨_, rfl, rfl⟩, by decide +kernel⟩
  · exact ⟨_, .cons (k := 1) ⟨rfl, _, bVars_text.2 rfl, occurs_of (by decide +kernel) rfl⟩
      (.cons ⟨⟨_, rfl, [], (Regex.find_some (ic := false) (b := [98, 99]) (hi := 2) (lo := 1) (anchored := false) (h := ⟨1, 2, []⟩) rfl).2.2.2.2.1⟩,
        ['c'], rfl, rfl⟩ .nil)⟩

/-- The expression of a part which only inserts a text, and the format which is asked for. -/
def inserts : Part → Option (Expr × Option NumFmt)
  | .match_ (.substitution x none) => some (.var x, none)
  | .match_ (.numeric f none (some e)) => some (e, f)
  | _ => none

/-- **C70**, for a pattern which is one substitution or one expression: if a match is reported, none starts before it, and if
none is reported there is none. -/
theorem C70_single_partial {o : Opts} {line : Nat} {checked : Bool} {q : Part} {b : Buf} {r : Rng} {env env' : Vars} {m : MatchResult}
    {x : Expr × Option NumFmt} (hq : inserts q = some x) (hr : r.start ≤ r.stop) (hb : r.stop ≤ b.length) (h : Searched o line checked (.match_ [q]) b r env m env') :
    (∃ i, m.info = some i ∧ m.isOk = true ∧
      ∀ s e env'', r.start ≤ s → e ≤ r.stop → meaning (pctx weak o line) (.match_ [q]) env b s e env'' → i.start ≤ s) ∨
    (m.isOk = false ∧ ∀ s e env'', r.start ≤ s → e ≤ r.stop → ¬ meaning (pctx weak o line) (.match_ [q]) env b s e env'') := by
  have hops : ∃ ty, explicitFormat ty = x.2 ∧ Pattern.compile engine o (.match_ [q]) = .ok (some (.smart [.subst x.1 ty])) := by
    unfold inserts at hq
    split at hq
    · simp only [Option.some.injEq] at hq; subst hq; exact ⟨none, rfl, rfl⟩
    · rename_i f e; simp only [Option.some.injEq] at hq; subst hq; exact ⟨some (.number f), rfl, rfl⟩
    · simp at hq
  obtain ⟨ty, hty, hcomp⟩ := hops
  obtain ⟨c, h1, h2⟩ := h
  rw [hcomp] at h1
  simp only [Except.ok.injEq, Option.some.injEq] at h1
  subst h1
  have hmean : ∀ s e env'', meaning (pctx weak o line) (.match_ [q]) env b s e env'' → ∃ t, Text line env x.2 x.1 t ∧ Stands weak o.ignoreCase b t s e := by
    intro s e env'' hm
    cases hm with
    | cons h1 h2 =>
      cases h2
      unfold inserts at hq
      split at hq
      · simp only [Option.some.injEq] at hq; subst hq
        obtain ⟨_, t, ht, hs⟩ := h1
        exact ⟨t, ht, hs⟩
      · simp only [Option.some.injEq] at hq; subst hq
        obtain ⟨_, t, ht, hs⟩ := h1
        exact ⟨t, ht, hs⟩
      · simp at hq
  have hstart : min r.start b.length = r.start := by omega
  simp only [Compiled.pat, smartPat, tryMatch, search, attempt, matchPart, start, pconf, hstart] at h2
  cases hev : evalExpr checked line env ty x.1 with
  | no f => exact absurd hev (evalExpr_not_no _ _)
  | err => rw [hev] at h2; simp [Smart.Step.bind] at h2
  | panic => rw [hev] at h2; simp [Smart.Step.bind] at h2
  | yes v =>
    rw [hev] at h2
    simp only [Smart.Step.bind] at h2
    have ht := substSrc_sound hev
    rw [hty] at ht
    cases hbuild : engine.build o.ignoreCase (substText v ty) with
    | none => rw [hbuild] at h2; simp at h2
    | some prog =>
      rw [hbuild] at h2
      simp only at h2
      obtain ⟨re, hp, rfl⟩ := build_some hbuild
      have hocc : ∀ s e, Stands weak o.ignoreCase b (substText v ty) s e → RegexSpec.Matches o.ignoreCase b re s e := by
        intro s e ho
        unfold Stands at ho
        split at ho
        · rename_i hpl
          rw [reads_unique (Regex.parse_reads hp).1 (plain_items _ hpl).reads]
          exact ⟨[], (Regex.lang_chars _).2 ⟨ho, rfl⟩⟩
        · obtain ⟨re', hp', hm⟩ := ho
          rw [hp] at hp'
          simp only [Option.some.injEq] at hp'
          subst hp'
          exact hm
      have hsearch : engine.search (o.ignoreCase, re) b r.start r.stop false = Regex.find o.ignoreCase re b r.start r.stop false := rfl
      cases hf : Regex.find o.ignoreCase re b r.start r.stop false with
      | none =>
        rw [hsearch, hf] at h2
        simp only [Prod.mk.injEq, Option.some.injEq] at h2
        right
        refine ⟨by rw [← h2.1]; rfl, ?_⟩
        intro s e env'' hs he hm
        obtain ⟨t, ht', ho⟩ := hmean _ _ _ hm
        rw [text_unique ht' ht] at ho
        exact Regex.find_none hf s e hs he (by simp) (hocc _ _ ho)
      | some hit =>
        rw [hsearch, hf] at h2
        simp only [matchParts, convertible, List.all_nil, if_true, Prod.mk.injEq, Option.some.injEq] at h2
        obtain ⟨rfl, _⟩ := h2
        left
        refine ⟨_, rfl, rfl, ?_⟩
        intro s e env'' hs he hm
        obtain ⟨t, ht', ho⟩ := hmean _ _ _ hm
        rw [text_unique ht' ht] at ho
        by_contra hlt
        exact (Regex.find_some hf).2.2.2.2.2 s e hs (by simpa using hlt) he (hocc _ _ ho)

/-- `[[X]]` in `ab`, where `X` is `b`. -/
example : ∃ m env', Searched plainOpts 1 true (.match_ [.match_ (.substitution (.user ['X']) none)]) abBuf ⟨0, 2⟩ bVars m env' ∧ m.isOk = true :=
  ⟨_, _, ⟨_, rfl, rfl⟩, by decide +kernel⟩

end Litcheck
