import Verif.Proofs.WordsReport
import Verif.Props.Search

/-!
# Property C70 for patterns of words
-/

namespace Litcheck
open Spec RegexSpec PatternSpec Smart Pattern
open Litcheck.Lex (Part Match CPat VarName Expr Op)
open Litcheck.Regex (utf8 engine utf8_injective)

section
variable {o : Opts} {line : Nat} {checked : Bool} {ps tail : List Part} {ws : List Str} {b : Buf} {r : Rng} {env : Vars}

/-- **C70**, for patterns which are words up to the last use of a variable or expression, as they are documented: if no sequence
of words at the front overlaps itself (all the words only if something follows them), and the part after the last use
captures at most strings and is made of literals only, or captures nothing and does not match the empty text at the end of
the range, or no match of the pattern ends at the end of the range, then a match is reported if there is one, and it is a
first one. -/
theorem C70_words_partial (hps : List.Forall₂ (WordOf o.strictWs checked line env) ps ws) (hne : ∀ w ∈ ws, w ≠ []) (hlast : ∃ qs m, ps = qs ++ [.match_ m])
    (hu : ∀ p ∈ tail, ¬ Uses p) (hok : ∀ p ∈ tail, PartOk p) (hcan : ∀ p ∈ tail, Canonical o.strictWs p) (hnum : ∀ p ∈ tail, NoNumber p)
    (hbd : ∀ k, 0 < k → k ≤ ws.length → (k = ws.length → tail ≠ []) → ¬ Bordered o.ignoreCase (utf8 (ws.take k).flatten))
    (hend : (∀ p ∈ tail, ∃ s, p = .literal s) ∨
      ((∀ p ∈ tail, ¬ Captures p) ∧ ∀ env', ¬ PartsMatch (pctx documented o line) b env tail r.stop r.stop env') ∨
      ∀ s env', r.start ≤ s → ¬ meaning (pctx documented o line) (.match_ (ps ++ tail)) env b s r.stop env')
    (h1 : r.start ≤ r.stop) (h2 : r.stop ≤ b.length) {m : MatchResult} {env' : Vars} (h : Searched o line checked (.match_ (ps ++ tail)) b r env m env') :
    FirstOrNone (meaning (pctx documented o line) (.match_ (ps ++ tail))) b r.start r.stop env m := by
  obtain ⟨c, hc, hr⟩ := h
  exact (words_report (cx := pctx documented o line) (cf := pconf o line checked) rfl rfl rfl rfl (fun _ _ => rfl) hps hne hlast hu hok hcan hnum hbd hend hc h1 h2).1 m env' hr

/-- **C70**, there is a result: if besides the part after the last use captures nothing and the pattern can be compiled, there
is neither a panic nor a diagnostic, and the search ends. -/
theorem C70_words_total_partial (hps : List.Forall₂ (WordOf o.strictWs checked line env) ps ws) (hne : ∀ w ∈ ws, w ≠ []) (hlast : ∃ qs m, ps = qs ++ [.match_ m])
    (hu : ∀ p ∈ tail, ¬ Uses p) (hok : ∀ p ∈ tail, PartOk p) (hcan : ∀ p ∈ tail, Canonical o.strictWs p) (hcap : ∀ p ∈ tail, ¬ Captures p)
    (hbd : ∀ k, 0 < k → k ≤ ws.length → (k = ws.length → tail ≠ []) → ¬ Bordered o.ignoreCase (utf8 (ws.take k).flatten))
    (hend : (∀ p ∈ tail, ∃ s, p = .literal s) ∨ ∀ env', ¬ PartsMatch (pctx documented o line) b env tail r.stop r.stop env')
    (h1 : r.start ≤ r.stop) (h2 : r.stop ≤ b.length) {c : Compiled engine} (hc : Pattern.compile engine o (.match_ (ps ++ tail)) = .ok (some c)) :
    ∃ m env', Searched o line checked (.match_ (ps ++ tail)) b r env m env' ∧
      FirstOrNone (meaning (pctx documented o line) (.match_ (ps ++ tail))) b r.start r.stop env m := by
  have hnum : ∀ p ∈ tail, NoNumber p := fun p hp f x e he => hcap p hp (.inr ⟨f, x, e, he⟩)
  have key := words_report (cx := pctx documented o line) (cf := pconf o line checked) (pspan := 0) rfl rfl rfl rfl (fun _ _ => rfl) hps hne hlast hu hok hcan hnum hbd
    (by rcases hend with hend | hend
        · exact .inl hend
        · exact .inr (.inl ⟨hcap, hend⟩)) hc h1 h2
  obtain ⟨m, env', h⟩ := key.2 hcap
  exact ⟨m, env', ⟨c, hc, h⟩, key.1 m env' h⟩

/-- **C70**, a text and then one use, as in `text[[X]]` or `text[[#N+1]]`, in a build of the program without checks for overflow,
or if there is none: the match is found if the text does not overlap itself, whatever the value. -/
theorem C70_text_use_partial {s t : Str} {q : Part} {x : Expr × Option NumFmt} (hs : s ≠ []) (hcan : o.strictWs = true ∨ ∀ c ∈ s, isNonCanonicalHorizontalWhitespace c = false)
    (hq : inserts q = some x) (ht : Text line env x.2 x.1 t) (hplain : plainText t = true) (hne : t ≠ []) (hfit : checked = true → AllFit line env x.1)
    (hbd : ¬ Bordered o.ignoreCase (utf8 s)) (h1 : r.start ≤ r.stop) (h2 : r.stop ≤ b.length) :
    ∃ m env', Searched o line checked (.match_ [.literal s, q]) b r env m env' ∧
      FirstOrNone (meaning (pctx documented o line) (.match_ [.literal s, q])) b r.start r.stop env m := by
  have hw : WordOf o.strictWs checked line env q t ∧ ∃ m, q = .match_ m ∧ ∃ ops, lowerMatch engine o m = .ok (some ops) ∧
      compact (.match_ [.literal s, q]) = .parts (CSt.flush ⟨[], s, [], true⟩ ++ [.dyn m]) := by
    obtain ⟨a, as, rfl⟩ := List.exists_cons_of_ne_nil hs
    unfold inserts at hq
    split at hq
    · simp only [Option.some.injEq] at hq; subst hq; exact ⟨.use ht hplain, _, rfl, _, rfl, rfl⟩
    · simp only [Option.some.injEq] at hq; subst hq; exact ⟨.expr ht hplain hfit, _, rfl, _, rfl, rfl⟩
    · simp at hq
  obtain ⟨hw, m, rfl, ops, hops, hcomp⟩ := hw
  have hc : ∃ c, Pattern.compile engine o (.match_ ([.literal s, .match_ m] ++ [])) = .ok (some c) := by
    have : lowerParts engine o (CSt.flush ⟨[], s, [], true⟩ ++ [.dyn m]) = .ok (some ([.literal (litBytes o s)] ++ ops)) := by
      refine lowerParts_append ?_ (lowerParts_one hops)
      unfold CSt.flush
      dsimp only
      rw [if_neg (by simpa using hs), if_pos rfl]
      refine lowerParts_one ?_
      simp only [lowerPart, buildLiteral]
      rw [if_neg (by simpa using hs)]
    refine ⟨.smart ([.literal (litBytes o s)] ++ ops), ?_⟩
    rw [List.append_nil]
    unfold Pattern.compile
    rw [hcomp]
    simp only [this, bind, Except.bind]
  obtain ⟨c, hc⟩ := hc
  refine C70_words_total_partial (ps := [.literal s, .match_ m]) (tail := []) (ws := [s, t]) (.cons (.lit hcan) (.cons hw .nil)) ?_ ⟨[.literal s], m, rfl⟩ (by simp) (by simp) (by simp) (by simp) ?_
    (.inl (by simp)) h1 h2 hc
  · intro w hw
    simp only [List.mem_cons, List.not_mem_nil, or_false] at hw
    rcases hw with rfl | rfl
    · exact hs
    · exact hne
  · intro k k1 k2 k3
    have : k = 1 := by
      simp only [List.length_cons, List.length_nil, ne_eq, not_true_eq_false, imp_false] at k2 k3
      omega
    subst this
    simpa using hbd

end

/-- Does a text overlap itself? -/
def borderedB (ic : Bool) (w : Buf) : Bool :=
  (List.range w.length).any fun d => decide (0 < d) && hitAt ic w w.length d (w.take (w.length - d))

theorem not_bordered_of {ic : Bool} {w : Buf} (h : borderedB ic w = false) : ¬ Bordered ic w := by
  rintro ⟨d, h1, h2, h3⟩
  have : borderedB ic w = true := by
    unfold borderedB
    rw [List.any_eq_true]
    refine ⟨d, List.mem_range.2 h2, ?_⟩
    rw [Bool.and_eq_true, decide_eq_true_eq]
    exact ⟨h1, hitAt_iff.2 ⟨by simp; omega, h3⟩⟩
  rw [this] at h
  cases h

/-- The words of the pattern which overlaps itself, `aa[[X]]`: the hypothesis which C70 needs does not hold. -/
example : Bordered false (utf8 "aa".toList) := ⟨1, by decide, by decide, (hitAt_iff (stop := 2) (ic := false)).1 (by decide +kernel) |>.2⟩

/-- `add [[X]], {{[a-z]+}};`. -/
def addPat : CPat := .match_ ([.literal "add ".toList, .match_ (.substitution (.user ['X']) none)] ++ [.literal ", ".toList, .regex "[a-z]+".toList, .literal ";".toList])

/-- The input `add b; add b, cc; `. -/
def addBuf : Buf := [97, 100, 100, 32, 98, 59, 32, 97, 100, 100, 32, 98, 44, 32, 99, 99, 59, 32]

/-- C70 says something about `add [[X]], {{[a-z]+}};` where `X` is `b`. -/
example : ∃ m env', Searched plainOpts 1 true addPat addBuf ⟨0, 18⟩ bVars m env' ∧
    FirstOrNone (meaning (pctx documented plainOpts 1) addPat) addBuf 0 18 bVars m := by
  refine C70_words_total_partial (ws := ["add ".toList, ['b']]) (.cons (.lit (.inr (by decide))) (.cons (.use (bVars_text.2 rfl) (by decide)) .nil)) (by decide)
    ⟨[_], _, rfl⟩ ?_ ?_ ?_ ?_ ?_ (.inr ?_) (by decide) (by decide) rfl
  · simp [Uses]
  · intro p hp
    simp only [List.mem_cons, List.not_mem_nil, or_false] at hp
    rcases hp with rfl | rfl | rfl
    · trivial
    · exact ⟨_, _, rfl⟩
    · trivial
  · intro p hp s hs
    simp only [List.mem_cons, List.not_mem_nil, or_false] at hp
    rcases hp with rfl | rfl | rfl
    · cases hs; right; decide
    · cases hs
    · cases hs; right; decide
  · simp [Captures]
  · intro k k1 k2 k3
    apply not_bordered_of
    have : k = 1 ∨ k = 2 := by simp at k2; omega
    rcases this with rfl | rfl <;> decide +kernel
  · intro env' h
    cases h with
    | cons h1 h2 =>
      obtain ⟨_, s', h3, h4⟩ := h1
      have : s' = ", ".toList := by
        rcases h3 with h3 | ⟨_, h3⟩
        · exact h3
        · rw [h3]; decide
      subst this
      obtain ⟨y, hy, _⟩ := h4.2 0 44 rfl
      have : addBuf[18 + 0]? = none := rfl
      rw [this] at hy
      cases hy

/-- It is found, and not in the first line where only the words are. -/
example : ∃ m env', Searched plainOpts 1 true addPat addBuf ⟨0, 18⟩ bVars m env' ∧ m.info.map (·.start) = some 7 ∧ m.isOk = true :=
  ⟨_, _, ⟨_, rfl, rfl⟩, by decide +kernel, by decide +kernel⟩

/-- `add [[X]], [[Y:[a-z]+]]`. -/
def addCapPat : CPat := .match_ ([.literal "add ".toList, .match_ (.substitution (.user ['X']) none)] ++
  [.literal ", ".toList, .match_ (.substitution (.user ['Y']) (some "[a-z]+".toList))])

/-- C70 says something about `add [[X]], [[Y:[a-z]+]]` where `X` is `b`: no match ends where the input does. -/
example : ∃ m env', Searched plainOpts 1 true addCapPat addBuf ⟨0, 18⟩ bVars m env' ∧ m.isOk = true ∧
    FirstOrNone (meaning (pctx documented plainOpts 1) addCapPat) addBuf 0 18 bVars m := by
  refine ⟨_, _, ⟨_, rfl, rfl⟩, by decide +kernel, ?_⟩
  refine C70_words_partial (checked := true) (r := ⟨0, 18⟩) (ws := ["add ".toList, ['b']]) (.cons (.lit (.inr (by decide))) (.cons (.use (bVars_text.2 rfl) (by decide)) .nil)) (by decide)
    ⟨[_], _, rfl⟩ ?_ ?_ ?_ ?_ ?_ (.inr (.inr ?_)) (by decide) (by decide) ⟨_, rfl, rfl⟩
  · simp [Uses]
  · intro p hp
    simp only [List.mem_cons, List.not_mem_nil, or_false] at hp
    rcases hp with rfl | rfl
    · trivial
    · exact ⟨⟨by decide, by decide, by decide⟩, _, (Regex.parse_reads (show Regex.parse "[a-z]+".toList = some _ from rfl)).1⟩
  · intro p hp s hs
    simp only [List.mem_cons, List.not_mem_nil, or_false] at hp
    rcases hp with rfl | rfl
    · cases hs; right; decide
    · cases hs
  · simp [NoNumber]
  · intro k k1 k2 k3
    apply not_bordered_of
    have : k = 1 ∨ k = 2 := by simp at k2; omega
    rcases this with rfl | rfl <;> decide +kernel
  · intro s env' _ h
    obtain ⟨k, env1, h1, h2⟩ := partsMatch_append.1 (show PartsMatch _ _ _ ([Part.literal "add ".toList, .match_ (.substitution (.user ['X']) none), .literal ", ".toList] ++
      [.match_ (.substitution (.user ['Y']) (some "[a-z]+".toList))]) _ _ _ from h)
    cases h2 with
    | cons h3 h4 =>
      cases h4
      obtain ⟨⟨re, hre, c, hl⟩, _⟩ := h3
      have hre' : Regex.parse "[a-z]+".toList = some (.rep (.cls false [(97, 122)]) 1 none true) := rfl
      rw [hre'] at hre
      cases hre
      have hk := Regex.Lang.le _ _ _ _ hl
      obtain ⟨d, hd⟩ := Regex.ends_complete (hi := 18) _ _ _ _ hl (by decide)
      have key : ∀ k < 19, ¬ 18 ∈ (Regex.Re.ends false addBuf 18 (.rep (.cls false [(97, 122)]) 1 none true) k).map Prod.fst := by decide +kernel
      exact key k (show k < 19 by exact Nat.lt_succ_of_le hk) (List.mem_map_of_mem hd)

end Litcheck
