import Verif.Proofs.Documented
import Verif.Proofs.Script

/-!
# Properties C68 – C70: patterns with regular expressions and variables

The specification is `Verif/Spec/Pattern.lean`, with `Verif/Spec/Regex.lean` for regular expressions.
-/

namespace Litcheck
open Spec RegexSpec PatternSpec Smart Pattern
open Litcheck.Lex (Part Match CPat VarName Expr Op)
open Litcheck.Regex (utf8 engine utf8_injective)

/-- The settings of a search. -/
def pconf (o : Opts) (line : Nat) (checked : Bool) : Conf engine := ⟨o.ignoreCase, line, checked⟩

/-- The same settings, for the specification. -/
def pctx (rd : Reading) (o : Opts) (line : Nat) : PatternSpec.Ctx := ⟨rd, o.ignoreCase, o.strictWs, line⟩

theorem pfit (o : Opts) (line : Nat) (checked : Bool) : Fit (pctx weak o line) o (pconf o line checked) := ⟨rfl, rfl, rfl, rfl, rfl⟩

/-- The pattern is compiled, and searching the range `r` of the input in `env` gives `m` and `env'`. -/
def Searched (o : Opts) (line : Nat) (checked : Bool) (p : CPat) (b : Buf) (r : Rng) (env : Vars) (m : MatchResult) (env' : Vars) : Prop :=
  ∃ c, Pattern.compile engine o p = .ok (some c) ∧ (c.pat (pconf o line checked) 0).run b r env = (some m, env')

/-- No options. -/
def plainOpts : Opts := ⟨false, false⟩

/-- An environment without variables. -/
def noVars : Vars := ⟨fun _ => none, fun _ => none, fun _ => none⟩

section
variable {o : Opts} {line : Nat} {checked : Bool} {p : CPat} {b : Buf} {r : Rng} {env env' : Vars} {m : MatchResult}

/-- **C68**, for the reading which the program guarantees (`weak`) and for patterns whose parts can be read by themselves: a
match which is reported lies in the searched range, its bytes are matched by the parts one after the other, and the variables
are bound to what the parts captured. -/
theorem C68_reported_partial (hw : WellFormed p) (hr : r.start ≤ r.stop) (hb : r.stop ≤ b.length)
    (h : Searched o line checked p b r env m env') (hok : m.isOk = true) :
    ∃ i, m.info = some i ∧ r.start ≤ i.start ∧ i.start ≤ i.stop ∧ i.stop ≤ r.stop ∧
      meaning (pctx weak o line) p env b i.start i.stop env' := by
  obtain ⟨c, h1, h2⟩ := h
  exact (compiled_sound (pfit o line checked) hw h1 0).found b r env m env' hr hb h2 hok

/-- **C68**, for the reading of the documentation: if in addition no number is both captured and compared, and there are no
special characters in the variables and in the input. -/
theorem C68_documented_partial (hw : WellFormed p) (hc : ∀ x ∈ partsOf p, ¬ Constrains x) (he : PlainVars env) (hp : PlainInput b)
    (hr : r.start ≤ r.stop) (hb : r.stop ≤ b.length) (h : Searched o line checked p b r env m env') (hok : m.isOk = true) :
    ∃ i, m.info = some i ∧ r.start ≤ i.start ∧ i.start ≤ i.stop ∧ i.stop ≤ r.stop ∧
      meaning (pctx documented o line) p env b i.start i.stop env' := by
  obtain ⟨i, h1, h2, h3, h4, h5⟩ := C68_reported_partial hw hr hb h hok
  exact ⟨i, h1, h2, h3, h4, parts_documented (cx := pctx weak o line) rfl hp h5 hc he⟩

/-- **C69**: a pattern which uses no variable (its literals have only blanks for whitespace, or whitespace is strict): if a
match is reported, no match of the range starts before it; if none is, there is none; otherwise a number was captured which
cannot be converted. -/
theorem C69_leftmost_partial (hw : WellFormed p) (hu : ∀ x ∈ partsOf p, ¬ Uses x) (hcan : ∀ x ∈ partsOf p, Canonical o.strictWs x)
    (hr : r.start ≤ r.stop) (hb : r.stop ≤ b.length) (h : Searched o line checked p b r env m env') :
    (∃ i, m.info = some i ∧ m.isOk = true ∧
      ∀ s e env'', r.start ≤ s → e ≤ r.stop → meaning (pctx weak o line) p env b s e env'' → i.start ≤ s) ∨
    (m.isOk = false ∧ ∀ s e env'', r.start ≤ s → e ≤ r.stop → ¬ meaning (pctx weak o line) p env b s e env'') ∨
    m = .failed ⟨.foundConstraintFailed, true⟩ := by
  obtain ⟨c, h1, h2⟩ := h
  cases static_report (pfit o line checked) hw hu hcan h1 hr hb h2 with
  | found h3 h4 h5 => exact .inl ⟨_, h3, h4, h5⟩
  | absent h3 h4 => exact .inr (.inl ⟨h3, h4⟩)
  | unconverted h3 => exact .inr (.inr h3)

end

/-- `x=[[#N:]] {{[a-z]+}}[[A]]`. -/
def mixedPat : CPat := .match_ [.literal "x=".toList, .match_ (.numeric none (some (.user ['N'])) none), .literal [' '],
  .regex "[a-z]+".toList, .match_ (.substitution (.user ['A']) none)]

theorem mixed_wellFormed : WellFormed mixedPat where
  parts := by
    intro ps h x hx
    cases h
    simp only [List.mem_cons, List.not_mem_nil, or_false] at hx
    rcases hx with rfl | rfl | rfl | rfl | rfl
    · trivial
    · exact ⟨⟨by decide, by decide, by decide⟩, by simp [Regex.okPrecision, plainFormat]⟩
    · trivial
    · exact ⟨_, _, rfl⟩
    · trivial
  visible := by
    intro t h hne
    exfalso
    have : Part.match_ (.numeric none (some (.user ['N'])) none) ∈ t.map Part.literal := by rw [← h]; simp [mixedPat, partsOf]
    simp at this

/-- `A` is `7!`. -/
def bangVars : Vars := noVars.insert (.user "A") (.str "7!".toList)

/-- The input `x=42 ab7! `. -/
def mixedBuf : Buf := [120, 61, 52, 50, 32, 97, 98, 55, 33, 32]

/-- The hypotheses of C68 are met by a pattern with a literal, a number, a regular expression and a variable. -/
example : ∃ m env', Searched plainOpts 1 true mixedPat mixedBuf ⟨0, 10⟩ bangVars m env' ∧ m.isOk = true :=
  ⟨_, _, ⟨_, rfl, rfl⟩, by decide +kernel⟩

example : (∀ x ∈ partsOf mixedPat, ¬ Constrains x) ∧ PlainInput mixedBuf ∧ PlainVars bangVars := by
  refine ⟨?_, by unfold PlainInput; decide, ?_⟩
  · intro x hx
    simp only [mixedPat, partsOf, List.mem_cons, List.not_mem_nil, or_false] at hx
    rcases hx with rfl | rfl | rfl | rfl | rfl <;> exact id
  · refine plain_insert ?_ (fun s hs => by cases hs; decide)
    intro k s h
    cases k <;> simp [Bindings.get, noVars] at h

/-- `{{[a-c]+}}=[[#N:]]` meets the hypotheses of C69. -/
example : (∃ m env', Searched plainOpts 1 true (.match_ [.regex "[a-c]+".toList, .literal ['='],
      .match_ (.numeric none (some (.user ['N'])) none)]) [32, 97, 98, 61, 52, 50] ⟨0, 6⟩ noVars m env' ∧ m.isOk = true) ∧
    ∀ x ∈ [Part.regex "[a-c]+".toList, .literal ['='], .match_ (.numeric none (some (.user ['N'])) none)],
      ¬ Uses x ∧ Canonical false x := by
  refine ⟨⟨_, _, ⟨_, rfl, rfl⟩, by decide +kernel⟩, ?_⟩
  intro x hx
  simp only [List.mem_cons, List.not_mem_nil, or_false] at hx
  rcases hx with rfl | rfl | rfl
  · exact ⟨id, fun s h => by cases h⟩
  · exact ⟨id, fun s h => by cases h; right; decide⟩
  · exact ⟨id, fun s h => by cases h⟩

/-! ## Where the documentation and the program differ -/

/-- `[[#X: 5]]`. -/
def fivePat : CPat := .match_ [.match_ (.numeric none (some (.user ['X'])) (some (.num 5)))]

/-- The input: `7` and a blank. -/
def sevenBuf : Buf := [55, 32]

theorem seven_slice (a c : Nat) : ∀ x ∈ sliceOf sevenBuf a c, x = 55 ∨ x = 32 := by
  intro x hx
  unfold sliceOf at hx
  have := List.mem_of_mem_take (List.mem_of_mem_drop hx)
  simpa [sevenBuf] using this

/-- `[[#X: 5]]` is reported to match `7`, which contains no 5: constraints are not enforced. -/
theorem C68_constraint_refuted :
    (∃ m env', Searched plainOpts 1 true fivePat sevenBuf ⟨0, 2⟩ noVars m env' ∧ m.isOk = true) ∧
    ∀ i j env', ¬ meaning (pctx documented plainOpts 1) fivePat noVars sevenBuf i j env' := by
  constructor
  · exact ⟨_, _, ⟨_, rfl, rfl⟩, by decide +kernel⟩
  · intro i j env' h
    unfold meaning fivePat partsOf at h
    cases h with
    | cons h1 h2 =>
      obtain ⟨t, v, f', hu, hm, hd, _, _, hc⟩ := h1
      obtain ⟨w, g, hv, hvw⟩ := hc _ rfl
      obtain rfl := hvw rfl
      cases hv
      simp only [Option.getD_none, plainFormat, MatchesFormat, Denotes] at hm hd
      have hch : ∀ c ∈ t, c = '7' := by
        intro c hc
        have hdig := (isDec_iff c).1 (hm.1 c hc)
        have h5 : c.toNat.toUInt8 ∈ utf8 t := by
          unfold Regex.utf8
          rw [List.mem_flatMap]
          exact ⟨c, hc, by rw [show Regex.encode c.toNat = [c.toNat.toUInt8] from if_pos (by omega)]; simp⟩
        rw [hu] at h5
        have h6 := seven_slice _ _ _ h5
        have h7 : c.toNat.toUInt8.toNat = c.toNat := by simp; omega
        rcases h6 with h6 | h6 <;> rw [h6] at h7
        · exact Char.ext (UInt32.toNat_inj.1 h7.symm)
        · simp at h7; omega
      obtain ⟨n, rfl⟩ : ∃ n, t = List.replicate n '7' := ⟨t.length, List.eq_replicate_of_mem hch⟩
      have hp : ∀ n, n ≠ 0 → 7 ≤ positional 10 (List.replicate n '7') := by
        intro n
        induction n with
        | zero => simp
        | succ n ih =>
          intro _
          rw [List.replicate_succ, positional, show digitValue '7' = 7 by decide]
          have : 1 ≤ 10 ^ (List.replicate n '7').length := Nat.one_le_pow _ _ (by decide)
          omega
      have hn : n ≠ 0 := by rintro rfl; have := hm.2.1; simp at this
      have := hp n hn
      omega

/-- `[[A]]`. -/
def usePat : CPat := .match_ [.match_ (.substitution (.user ['A']) none)]

/-- `A` is `a.c`. -/
def dotVars : Vars := noVars.insert (.user "A") (.str "a.c".toList)

/-- The input `abc`. -/
def abcBuf : Buf := [97, 98, 99]

/-- `[[A]]` is reported to match `abc`, which does not contain the value `a.c` of `A`: values are read as regular
expressions. -/
theorem C68_value_refuted :
    (∃ m env', Searched plainOpts 1 true usePat abcBuf ⟨0, 3⟩ dotVars m env' ∧ m.isOk = true) ∧
    ∀ i j env', ¬ meaning (pctx documented plainOpts 1) usePat dotVars abcBuf i j env' := by
  constructor
  · exact ⟨_, _, ⟨_, rfl, rfl⟩, by decide +kernel⟩
  · intro i j env' h
    unfold meaning usePat partsOf at h
    cases h with
    | cons h1 h2 =>
      obtain ⟨_, t, ht, hs⟩ := h1
      have e : dotVars.get (keyOf (.user ['A'])) = .ok (some (.str "a.c".toList)) := rfl
      have : t = "a.c".toList := by
        cases ht with
        | str h => rw [e] at h; simp only [Except.ok.injEq, Option.some.injEq, Val.str.injEq] at h; exact h.symm
        | num h => cases h with
          | var h => rw [e] at h; simp at h
      subst this
      have ho : Occurs false (utf8 "a.c".toList) abcBuf i _ := hs
      obtain ⟨y, h3, h4⟩ := ho.2 1 46 rfl
      have h5 : y ∈ abcBuf := List.mem_of_getElem? h3
      have h6 : y = 46 := by
        rcases h4 with h4 | h4
        · exact h4.symm
        · cases h4.1
      subst h6
      exact absurd h5 (by decide)

/-- `{{a|b}}c`. -/
def barPat : CPat := .match_ [.regex "a|b".toList, .literal ['c']]

/-- `{{a|b}}c` is reported to match `a`, though nothing of the input is `c`: the two parts become `a|bc`. -/
theorem C68_alternatives_refuted :
    (∃ m env', Searched plainOpts 1 true barPat [97] ⟨0, 1⟩ noVars m env' ∧ m.isOk = true) ∧
    ∀ rd i j env', ¬ meaning (pctx rd plainOpts 1) barPat noVars [97] i j env' := by
  constructor
  · exact ⟨_, _, ⟨_, rfl, rfl⟩, by decide +kernel⟩
  · intro rd i j env' h
    unfold meaning barPat partsOf at h
    cases h with
    | cons _ h =>
      cases h with
      | cons h _ =>
        obtain ⟨_, s', h1, h2⟩ := h
        have hs : s' = ['c'] := by
          rcases h1 with h1 | ⟨_, h1⟩
          · exact h1
          · rw [h1]; decide
        subst hs
        obtain ⟨y, h3, h4⟩ := h2.2 0 99 rfl
        have h5 : y ∈ ([97] : Buf) := List.mem_of_getElem? h3
        simp only [List.mem_singleton] at h5
        subst h5
        rcases h4 with h4 | h4
        · exact absurd h4 (by decide)
        · cases h4.1

/-- White space in ASCII. -/
def isBlank (x : Nat) : Prop := x = 32 ∨ x = 9 ∨ x = 10 ∨ x = 12 ∨ x = 13

theorem isAsciiWs_iff (x : Nat) : isAsciiWs x = true ↔ isBlank x := by
  simp [isAsciiWs, isBlank, or_assoc]

theorem wsLen_spec : ∀ l : Buf, wsLen l ≤ l.length ∧ (∀ i < wsLen l, ∃ x, l[i]? = some x ∧ isBlank x.toNat ∧ x ≠ 10) ∧
    ∀ x, l[wsLen l]? = some x → ¬ isBlank x.toNat ∨ x = 10
  | [] => by simp [wsLen]
  | x :: l => by
    rw [wsLen]
    split
    · rename_i h
      refine ⟨by simp, by simp, fun y hy => ?_⟩
      simp only [List.getElem?_cons_zero, Option.some.injEq] at hy
      subst hy
      rw [Bool.or_eq_true] at h
      rcases h with h | h
      · exact .inr (by simpa [LF] using h)
      · left
        rw [← isAsciiWs_iff]
        simpa using h
    · rename_i h
      obtain ⟨h1, h2, h3⟩ := wsLen_spec l
      rw [Bool.or_eq_true, not_or] at h
      refine ⟨by simpa using h1, ?_, ?_⟩
      · intro i hi
        cases i with
        | zero => exact ⟨x, rfl, (isAsciiWs_iff _).1 (by simpa using h.2), by simpa [LF] using h.1⟩
        | succ i => simpa using h2 i (by omega)
      · simpa using h3

section
variable {o : Opts} {line : Nat} {checked : Bool} {b : Buf} {r : Rng} {env env' : Vars} {m : MatchResult}

/-- **C69** (part): a pattern which is only white space matches the white space at the beginning of the range, up to the end of the line, and nothing
when there is none there. -/
theorem C69_blank_partial {s : Str} (hne : s ≠ []) (hs : ∀ c ∈ s, isBlank c.toNat) (hr : r.stop ≤ b.length)
    (h : Searched o line checked (.literal s) b r env m env') :
    env' = env ∧
    (m.isOk = true ↔ ∃ x, r.start < r.stop ∧ b[r.start]? = some x ∧ isBlank x.toNat) ∧
    ∀ i, m = .ok i → i.start = r.start ∧ i.stop ≤ r.stop ∧
      (∀ k, i.start ≤ k → k < i.stop → ∃ x, b[k]? = some x ∧ isBlank x.toNat ∧ x ≠ 10) ∧
      (i.stop < r.stop → ∃ x, b[i.stop]? = some x ∧ (¬ isBlank x.toNat ∨ x = 10)) := by
  obtain ⟨c, hc, hrun⟩ := h
  have hw : s.all (fun c => isAsciiWs c.toNat) = true := by
    rw [List.all_eq_true]
    exact fun c hc => (isAsciiWs_iff _).2 (hs c hc)
  have ht : (Script.trim s).isEmpty = true := by
    rw [Script.trim_empty]
    intro c hc
    have hb : c.val.toNat = 32 ∨ c.val.toNat = 9 ∨ c.val.toNat = 10 ∨ c.val.toNat = 12 ∨ c.val.toNat = 13 := hs c hc
    have hv : c.val = 32 ∨ c.val = 9 ∨ c.val = 10 ∨ c.val = 12 ∨ c.val = 13 := by
      rcases hb with h | h | h | h | h
      · exact .inl (UInt32.toNat_inj.1 h)
      · exact .inr (.inl (UInt32.toNat_inj.1 h))
      · exact .inr (.inr (.inl (UInt32.toNat_inj.1 h)))
      · exact .inr (.inr (.inr (.inl (UInt32.toNat_inj.1 h))))
      · exact .inr (.inr (.inr (.inr (UInt32.toNat_inj.1 h))))
    unfold BParse.isWs
    rcases hv with h | h | h | h | h <;> rw [h] <;> decide
  have hcc : c = .whitespace := by
    unfold Pattern.compile at hc
    have : compact (.literal s) = .lit s := rfl
    rw [this] at hc
    dsimp only at hc
    unfold compileLit at hc
    rw [if_neg (by simpa using hne), if_pos ht, if_pos hw] at hc
    simpa using hc.symm
  subst hcc
  have hget := sliceOf_get b r.start r.stop
  simp only [Compiled.pat, whitespacePat] at hrun
  have hx0 : ∀ x, (sliceOf b r.start r.stop)[0]? = some x ↔ r.start < r.stop ∧ b[r.start]? = some x := by
    intro x
    rw [hget]
    by_cases hlt : r.start < r.stop <;> simp [hlt]
  cases hsl : sliceOf b r.start r.stop with
  | nil =>
    rw [hsl] at hrun hx0
    dsimp only at hrun
    injection hrun with e1 e2
    injection e1 with e1
    subst e1
    refine ⟨e2.symm, ⟨fun h => absurd h (by decide), ?_⟩, fun i hi => by cases hi⟩
    rintro ⟨x, h1, h2, h3⟩
    exact absurd ((hx0 x).2 ⟨h1, h2⟩) (by simp)
  | cons x xs =>
    rw [hsl] at hrun hx0 hget
    dsimp only at hrun
    obtain ⟨hlt, hbx⟩ := (hx0 x).1 rfl
    have hlen : (x :: xs).length ≤ r.stop - r.start := by
      rw [← hsl]
      unfold sliceOf
      simp only [List.length_drop, List.length_take]
      omega
    obtain ⟨w1, w2, w3⟩ := wsLen_spec (x :: xs)
    split at hrun
    · rename_i hxw
      injection hrun with e1 e2
      injection e1 with e1
      subst e1
      refine ⟨e2.symm, ⟨fun _ => ⟨x, hlt, hbx, (isAsciiWs_iff _).1 hxw⟩, fun _ => rfl⟩, ?_⟩
      intro i hi
      injection hi with _ hi
      injection hi with hi
      subst hi
      dsimp only
      refine ⟨rfl, by omega, ?_, ?_⟩
      · intro k hk1 hk2
        obtain ⟨y, hy, h3⟩ := w2 (k - r.start) (by omega)
        rw [hget, if_pos (by omega), show r.start + (k - r.start) = k by omega] at hy
        exact ⟨y, hy, h3⟩
      · intro hk
        have : b[r.start + wsLen (x :: xs)]? = some (b[r.start + wsLen (x :: xs)]'(by omega)) := List.getElem?_eq_getElem (by omega)
        refine ⟨_, this, w3 _ ?_⟩
        rw [hget, if_pos hk]
        exact this
    · rename_i hxw
      injection hrun with e1 e2
      injection e1 with e1
      subst e1
      refine ⟨e2.symm, ⟨fun h => absurd h (by decide), ?_⟩, fun i hi => by cases hi⟩
      rintro ⟨y, h1, h2, h3⟩
      rw [hbx] at h2
      injection h2 with h2
      subst h2
      exact absurd ((isAsciiWs_iff _).2 h3) hxw

end

/-- It is compiled so, and found at the beginning. -/
example : Searched plainOpts 1 true (.literal [' ', '\t']) [32, 12, 97] ⟨0, 3⟩ noVars (.ok ⟨0, 2, 0, 0⟩) noVars := ⟨_, rfl, rfl⟩

/-- C69 is false of patterns which are only white space: there is a blank, but it is not at the beginning. -/
theorem C69_blank_refuted :
    Searched plainOpts 1 true (.literal [' ']) [97, 32, 98] ⟨0, 3⟩ noVars matchNone noVars ∧
    meaning (pctx documented plainOpts 1) (.literal [' ']) noVars [97, 32, 98] 1 2 noVars := by
  constructor
  · exact ⟨_, rfl, rfl⟩
  · refine .cons ⟨rfl, _, .inl rfl, ?_⟩ .nil
    refine ⟨rfl, ?_⟩
    intro k c hk
    refine ⟨c, ?_, .inl rfl⟩
    match k, hk with
    | 0, hk => exact hk
    | k + 1, hk => exact absurd hk (by rw [show utf8 [' '] = [32] from rfl]; simp)

/-- C69 is false of literals with tabs: `a<TAB>b` is not found in `a<TAB>b`. -/
theorem C69_tab_refuted :
    (∃ m env', Searched plainOpts 1 true (.literal ['a', '\t', 'b']) [97, 9, 98] ⟨0, 3⟩ noVars m env' ∧ m.isOk = false) ∧
    meaning (pctx documented plainOpts 1) (.literal ['a', '\t', 'b']) noVars [97, 9, 98] 0 3 noVars := by
  constructor
  · exact ⟨_, _, ⟨_, rfl, rfl⟩, by decide +kernel⟩
  · refine .cons ⟨rfl, _, .inl rfl, ?_⟩ .nil
    refine ⟨rfl, ?_⟩
    intro k c hk
    refine ⟨c, ?_, .inl rfl⟩
    rw [Nat.zero_add]
    exact hk

/-- Forty digits, a blank and `1`. -/
def longBuf : Buf := List.replicate 40 57 ++ [32, 49]

/-- C69 is false of numbers which do not fit: `[[#N:]]` fails on them and does not go on to the next. -/
theorem C69_number_refuted :
    (∃ m env', Searched plainOpts 1 true (.match_ [.match_ (.numeric none (some (.user ['N'])) none)]) longBuf ⟨0, 42⟩ noVars m env' ∧ m.isOk = false) ∧
    ∃ env', meaning (pctx documented plainOpts 1) (.match_ [.match_ (.numeric none (some (.user ['N'])) none)]) noVars longBuf 41 42 env' := by
  constructor
  · exact ⟨_, _, ⟨_, rfl, rfl⟩, by decide +kernel⟩
  · refine ⟨_, .cons ⟨['1'], 1, none, by decide, ?_, ?_, rfl, rfl, by simp⟩ .nil⟩
    · simp only [Option.getD_none, plainFormat, MatchesFormat]
      unfold IsDec DigitCount
      decide
    · simp only [Option.getD_none, plainFormat, Denotes]
      decide

end Litcheck
