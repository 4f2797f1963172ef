import Verif.Proofs.BoolExpr

/-!
# C35, C36, C37: feature expressions

Property theorems. Specification: `Verif/Spec/BoolExpr.lean`. `rx` is any regular expression engine.
-/

namespace Litcheck.BSpec

open Litcheck.BParse

/-! ## C36 -/

/-- C36, exact: parsing a text succeeds with `e` exactly when the text before any NUL is a sequence of tokens that
writes `e` in the grammar. Besides the documented tokens a pattern opened by a single brace is accepted. -/
theorem C36_accepts (rx : Rx) (s : Str) (e : BExpr) :
    parse rx s = .ok e ↔ ∃ ts, Text true (s.takeWhile (· != '\x00')) ts ∧ Derives rx .or e ts := by
  rw [parse_iff]
  constructor
  · rintro ⟨st, ts, st', h1, h2, h3, h4⟩
    exact ⟨ts, (steps_text ts s).1 ⟨st, st', h1, h2, h3⟩, h4⟩
  · rintro ⟨ts, h1, h2⟩
    obtain ⟨st, st', a, b, c⟩ := (steps_text ts s).2 h1
    exact ⟨st, ts, st', a, b, c, h2⟩

/-- Every text of the documented grammar is a text of the accepted one. -/
theorem text_lone {s : Str} {ts : List Tok} (h : Text false s ts) : Text true s ts := by
  induction h with
  | done ws h => exact .done ws h
  | token ws w r t ts h1 h2 h3 _ ih =>
    refine .token ws w r t ts h1 ?_ h3 ih
    cases h2 with
    | lparen => exact .lparen
    | rparen => exact .rparen
    | and => exact .and
    | or => exact .or
    | not => exact .not
    | ident _ a b => exact .ident _ a b
    | pattern p a b => exact .pattern p a b
    | lone p a => cases a

/-- An accepted text none of whose patterns begins with a brace is a documented one. -/
theorem text_documented {s : Str} {ts : List Tok} (h : Text true s ts)
    (hp : ∀ p, Tok.pattern p ∈ ts → p.head? ≠ some '{') : Text false s ts := by
  induction h with
  | done ws h => exact .done ws h
  | token ws w r t ts h1 h2 h3 _ ih =>
    refine .token ws w r t ts h1 ?_ h3 (ih fun p h => hp p (by simp [h]))
    cases h2 with
    | lparen => exact .lparen
    | rparen => exact .rparen
    | and => exact .and
    | or => exact .or
    | not => exact .not
    | ident _ a b => exact .ident _ a b
    | pattern p a b => exact .pattern p a b
    | lone p a => exact absurd rfl (hp ('{' :: p) (by simp))

theorem takeWhile_nul {s : Str} (h : '\x00' ∉ s) : s.takeWhile (· != '\x00') = s := by
  have := visible_append (r := []) h
  simpa [visible] using this

/-- C36: a text written in the documented grammar parses to the expression it writes. -/
theorem C36_documented_accepted (rx : Rx) (s : Str) (ts : List Tok) (e : BExpr) (hn : '\x00' ∉ s)
    (ht : Text false s ts) (hd : Derives rx .or e ts) : parse rx s = .ok e := by
  rw [C36_accepts, takeWhile_nul hn]
  exact ⟨ts, text_lone ht, hd⟩

/-- C36, for texts without a NUL in which no pattern begins with a brace: parsing accepts exactly the documented
grammar. -/
theorem C36_documented_partial (rx : Rx) (s : Str) (e : BExpr) (hn : '\x00' ∉ s)
    (hp : ∀ ts, Text true s ts → ∀ p, Tok.pattern p ∈ ts → p.head? ≠ some '{') :
    parse rx s = .ok e ↔ ∃ ts, Text false s ts ∧ Derives rx .or e ts := by
  rw [C36_accepts, takeWhile_nul hn]
  constructor
  · rintro ⟨ts, a, b⟩
    exact ⟨ts, text_documented a (hp ts a), b⟩
  · rintro ⟨ts, a, b⟩
    exact ⟨ts, text_lone a, b⟩

/-- C36 for texts without braces or NUL: parsing accepts exactly the documented grammar. -/
theorem C36_plain (rx : Rx) (s : Str) (e : BExpr) (hn : '\x00' ∉ s) (hb : '{' ∉ s) :
    parse rx s = .ok e ↔ ∃ ts, Text false s ts ∧ Derives rx .or e ts := by
  refine C36_documented_partial rx s e hn ?_
  intro ts ht
  induction ht with
  | done => simp
  | token ws w r t ts _ hl _ _ ih =>
    intro p hm
    have hbr : '{' ∉ r := fun h => hb (by simp [h])
    have hnr : '\x00' ∉ r := fun h => hn (by simp [h])
    rcases List.mem_cons.1 hm with rfl | hm
    · exfalso
      apply hb
      cases hl with
      | pattern => simp
      | lone => simp
    · exact ih hnr hbr p hm

/-- Every text gets an answer: the model's bound on recursion is never what decides. -/
theorem C36_total (rx : Rx) (s : Str) : parse rx s ≠ .error .fuel := parse_fuel rx s

theorem text_no_nul {s : Str} {ts : List Tok} (h : Text false s ts) (hb : '{' ∉ s) : '\x00' ∉ s := by
  induction h with
  | done ws hw =>
    intro hm
    have := hw _ hm
    rw [nul_not_ws] at this
    cases this
  | token ws w r t ts hw hl _ _ ih =>
    have ih := ih fun h => hb (by simp [h])
    intro hm
    rcases List.mem_append.1 hm with hm | hm
    · rcases List.mem_append.1 hm with hm | hm
      · have := hw _ hm
        rw [nul_not_ws] at this
        cases this
      · have hb : '{' ∉ w := fun h => hb (by simp [h])
        cases hl with
        | lparen => revert hm; decide
        | rparen => revert hm; decide
        | and => revert hm; decide
        | or => revert hm; decide
        | not => revert hm; decide
        | ident _ _ hall => exact absurd ((identChar_iff _).2 (hall _ hm)) (by decide)
        | pattern => exact hb (by simp)
        | lone => exact hb (by simp)
    · exact ih hm

/-- C36 at full strength is refuted: what follows a NUL is ignored, so this text outside the grammar is accepted. -/
theorem C36_nul_refuted (rx : Rx) :
    parse rx "a\x00 && )".toList = .ok (.var ['a']) ∧ ¬∃ ts, Text false "a\x00 && )".toList ts := by
  constructor
  · rw [C36_accepts]
    refine ⟨[.ident ['a']], ?_, .orAnd _ _ (.andNot _ _ (.var ['a'] (by decide) (by decide)))⟩
    have e : "a\x00 && )".toList.takeWhile (· != '\x00') = [] ++ ['a'] ++ [] := by decide +kernel
    rw [e]
    exact .token [] ['a'] [] _ _ (by simp) (.ident _ (by simp) (by unfold IdentChar; decide +kernel))
      (by intro s c r' _ h; cases h) (.done [] (by simp))
  · rintro ⟨ts, h⟩
    exact text_no_nul h (by decide) (by decide)

/-- C36 at full strength is refuted: a pattern opened by a single brace is accepted, and the brace taken as part of
the regular expression. -/
theorem C36_lone_refuted (rx : Rx) (h : rx.compiles "([)({])".toList = true) :
    parse rx "{{[}}{]}}".toList = .ok (.pattern "([)({])".toList) := by
  rw [C36_accepts]
  refine ⟨[.pattern ['['], .pattern ['{', ']']], ?_, ?_⟩
  · refine .token [] "{{[}}".toList "{]}}".toList _ _ (by simp) (.pattern ['['] (by simp) (by decide)) ?_ ?_
    · intro s c r' h; cases h
    · refine .token [] "{]}}".toList [] _ _ (by simp) (.lone [']'] rfl (by decide) (by decide)) ?_ (.done [] (by simp))
      intro s c r' h; cases h
  · exact .orAnd _ _ (.andNot _ _ (.pattern [.pattern ['['], .pattern ['{', ']']] (by simp [Part]) ⟨['['], by simp⟩ h))

/-- C36, the meaning: an expression evaluates to true exactly when it holds of the features. -/
theorem C36_meaning (rx : Rx) (features : List Str) (e : BExpr) :
    e.evaluate rx features = true ↔ Holds rx (· ∈ features) e := by
  induction e with
  | lit b => simp [BExpr.evaluate, Holds]
  | var s => simp [BExpr.evaluate, Holds]
  | pattern re => simp [BExpr.evaluate, Holds]
  | not x ih => simp [BExpr.evaluate, Holds, ← ih]
  | and x y ihx ihy => simp [BExpr.evaluate, Holds, ihx, ihy]
  | or x y ihx ihy => simp [BExpr.evaluate, Holds, ihx, ihy]

/-- A regular expression engine that accepts everything. -/
def anyRx : Rx := ⟨fun _ => true, fun _ _ => true⟩

/-- `!` binds tighter than `&&`, and `&&` tighter than `||`; operators associate to the left. -/
example : parse anyRx "!a && b || c || d && (e || f)".toList =
    .ok (.or (.or (.and (.not (.var ['a'])) (.var ['b'])) (.var ['c'])) (.and (.var ['d']) (.or (.var ['e']) (.var ['f'])))) := by
  decide +kernel

/-- Texts outside the grammar are rejected. -/
example : parse anyRx "a &&".toList = .error .unexpectedEof ∧ parse anyRx "a b".toList = .error .unexpectedToken ∧
    parse anyRx "(a".toList = .error .unexpectedEof ∧ parse anyRx "a & b".toList = .error (.unexpectedChar ' ') := by
  decide +kernel

/-! ## C35 -/

/-- The tokens an expression is printed as. -/
def toks : BExpr → List Tok
  | .lit true => [.ident "true".toList]
  | .lit false => [.ident "false".toList]
  | .var s => [.ident s]
  | .pattern re => [.pattern re]
  | .not x => .not :: toks x
  | .and x y => [.lparen] ++ (toks x ++ [.and] ++ toks y) ++ [.rparen]
  | .or x y => [.lparen] ++ (toks x ++ [.or] ++ toks y) ++ [.rparen]

theorem derives_toks (rx : Rx) : ∀ e : BExpr, Plain e → Derives rx .not e (toks e)
  | .lit true, _ => .litTrue
  | .lit false, _ => .litFalse
  | .var s, h => .var s h.2.2.1 h.2.2.2
  | .pattern _, h => h.elim
  | .not x, h => .not _ _ (derives_toks rx x h)
  | .and x y, h =>
    .paren _ _ (.orAnd _ _ (.and _ _ _ _ (.andNot _ _ (derives_toks rx x h.1)) (derives_toks rx y h.2)))
  | .or x y, h =>
    .paren _ _ (.or _ _ _ _ (.orAnd _ _ (.andNot _ _ (derives_toks rx x h.1))) (.andNot _ _ (derives_toks rx y h.2)))

/-- A text does not begin with a character of identifiers. -/
def Break (r : Str) : Prop := ∀ c r', r = c :: r' → ¬IdentChar c

theorem text_print : ∀ (e : BExpr) (r : Str) (ts : List Tok), Plain e → Break r → Text false r ts →
    Text false (e.print ++ r) (toks e ++ ts)
  | .lit true, r, ts, _, hb, ht =>
    .token [] "true".toList r _ _ (by simp) (.ident _ (by decide) (by unfold IdentChar; decide +kernel))
      (fun _ c r' _ h => hb c r' h) ht
  | .lit false, r, ts, _, hb, ht =>
    .token [] "false".toList r _ _ (by simp) (.ident _ (by decide) (by unfold IdentChar; decide +kernel))
      (fun _ c r' _ h => hb c r' h) ht
  | .var s, r, ts, h, hb, ht =>
    .token [] s r _ _ (by simp) (.ident _ h.1 h.2.1) (fun _ c r' _ h => hb c r' h) ht
  | .pattern _, _, _, h, _, _ => h.elim
  | .not x, r, ts, h, hb, ht =>
    .token [] ['!'] _ _ _ (by simp) .not (by intro s c r' h; cases h) (text_print x r ts h hb ht)
  | .and x y, r, ts, h, hb, ht => by
    have brk : ∀ c r, ¬IdentChar c → Break (c :: r) := by
      rintro c r hc _ _ ⟨⟩; exact hc
    have h1 : Text false ([')'] ++ r) (.rparen :: ts) :=
      .token [] [')'] r _ _ (by simp) .rparen (by intro s c r' h; cases h) ht
    have h2 := text_print y _ _ h.2 (brk ')' r (by unfold IdentChar; decide +kernel)) h1
    have h3 : Text false ([' '] ++ ['&', '&'] ++ ([' '] ++ (y.print ++ ([')'] ++ r)))) (.and :: (toks y ++ (.rparen :: ts))) := by
      refine .token [' '] ['&', '&'] _ _ _ (by decide) .and (by intro s c r' h; cases h) ?_
      exact text_space h2
    have h4 := text_print x _ _ h.1 (brk ' ' _ (by unfold IdentChar; decide +kernel)) h3
    have h5 : Text false ([] ++ ['('] ++ (x.print ++ _)) (.lparen :: _) :=
      .token [] ['('] _ _ _ (by simp) .lparen (by intro s c r' h; cases h) h4
    simpa [BExpr.print, toks] using h5
  | .or x y, r, ts, h, hb, ht => by
    have brk : ∀ c r, ¬IdentChar c → Break (c :: r) := by
      rintro c r hc _ _ ⟨⟩; exact hc
    have h1 : Text false ([')'] ++ r) (.rparen :: ts) :=
      .token [] [')'] r _ _ (by simp) .rparen (by intro s c r' h; cases h) ht
    have h2 := text_print y _ _ h.2 (brk ')' r (by unfold IdentChar; decide +kernel)) h1
    have h3 : Text false ([' '] ++ ['|', '|'] ++ ([' '] ++ (y.print ++ ([')'] ++ r)))) (.or :: (toks y ++ (.rparen :: ts))) := by
      refine .token [' '] ['|', '|'] _ _ _ (by decide) .or (by intro s c r' h; cases h) ?_
      exact text_space h2
    have h4 := text_print x _ _ h.1 (brk ' ' _ (by unfold IdentChar; decide +kernel)) h3
    have h5 : Text false ([] ++ ['('] ++ (x.print ++ _)) (.lparen :: _) :=
      .token [] ['('] _ _ _ (by simp) .lparen (by intro s c r' h; cases h) h4
    simpa [BExpr.print, toks] using h5
where
  text_space {s : Str} {ts : List Tok} (h : Text false s ts) : Text false ([' '] ++ s) ts := by
    cases h with
    | done _ hw => exact .done _ (by
        intro c hc
        rcases List.mem_cons.1 hc with rfl | hc
        · decide
        · exact hw c hc)
    | token ws w r t ts h1 h2 h3 h4 =>
      have : Text false (([' '] ++ ws) ++ w ++ r) (t :: ts) := .token _ w r t ts (by
        intro c hc
        rcases List.mem_cons.1 hc with rfl | hc
        · decide
        · exact h1 c hc) h2 h3 h4
      simpa using this

theorem nul_not_identChar : ¬IdentChar '\x00' := by
  rw [← identChar_iff]; decide

theorem nul_not_print : ∀ e : BExpr, Plain e → '\x00' ∉ e.print
  | .lit true, _ => by decide
  | .lit false, _ => by decide
  | .var s, h => fun hm => nul_not_identChar (h.2.1 _ hm)
  | .pattern _, h => h.elim
  | .not x, h => by
    have := nul_not_print x h
    simpa [BExpr.print] using this
  | .and x y, h => by
    have h1 := nul_not_print x h.1
    have h2 := nul_not_print y h.2
    simp only [BExpr.print, List.mem_append, not_or]
    exact ⟨⟨⟨⟨by decide, h1⟩, by decide⟩, h2⟩, by decide⟩
  | .or x y, h => by
    have h1 := nul_not_print x h.1
    have h2 := nul_not_print y h.2
    simp only [BExpr.print, List.mem_append, not_or]
    exact ⟨⟨⟨⟨by decide, h1⟩, by decide⟩, h2⟩, by decide⟩

/-- C35: printing any expression without patterns, whose names are legal identifiers other than the literals, and
parsing the text gives the expression back. -/
theorem C35_round_trip (rx : Rx) (e : BExpr) (h : Plain e) : parse rx e.print = .ok e := by
  have ht := text_print e [] [] h (by intro c r' h; cases h) (.done [] (by simp))
  simp only [List.append_nil] at ht
  exact C36_documented_accepted rx _ _ e (nul_not_print e h) ht (.orAnd _ _ (.andNot _ _ (derives_toks rx e h)))

theorem text_ident {lone : Bool} {s : Str} {ts : List Tok} (h : Text lone s ts) :
    ∀ w, Tok.ident w ∈ ts → w ≠ [] ∧ ∀ c ∈ w, IdentChar c := by
  induction h with
  | done => simp
  | token ws w r t ts _ hl _ _ ih =>
    intro w' hm
    rcases List.mem_cons.1 hm with rfl | hm
    · cases hl with
      | ident _ a b => exact ⟨a, b⟩
    · exact ih w' hm

theorem derives_plain {rx : Rx} {l : Level} {e : BExpr} {ts : List Tok} (h : Derives rx l e ts)
    (hi : ∀ w, Tok.ident w ∈ ts → w ≠ [] ∧ ∀ c ∈ w, IdentChar c) (hp : PatternFree e) : Plain e := by
  induction h with
  | or a b s t _ _ iha ihb =>
    exact ⟨iha (fun w h => hi w (by simp [h])) hp.1, ihb (fun w h => hi w (by simp [h])) hp.2⟩
  | and a b s t _ _ iha ihb =>
    exact ⟨iha (fun w h => hi w (by simp [h])) hp.1, ihb (fun w h => hi w (by simp [h])) hp.2⟩
  | orAnd _ _ _ ih => exact ih hi hp
  | andNot _ _ _ ih => exact ih hi hp
  | not a s _ ih => exact ih (fun w h => hi w (by simp [h])) hp
  | paren a s _ ih => exact ih (fun w h => hi w (by simp [h])) hp
  | litTrue => trivial
  | litFalse => trivial
  | var s h1 h2 => exact ⟨(hi s (by simp)).1, (hi s (by simp)).2, h1, h2⟩
  | pattern => exact hp.elim

/-- C35 for expressions that come from a text: whatever pattern-free expression a text parses to, its printed form
parses to the same expression. -/
theorem C35_reparse (rx : Rx) (s : Str) (e : BExpr) (h : parse rx s = .ok e) (hp : PatternFree e) :
    parse rx e.print = .ok e := by
  obtain ⟨ts, ht, hd⟩ := (C36_accepts rx s e).1 h
  exact C35_round_trip rx e (derives_plain hd (text_ident ht) hp)

/-- The restriction to pattern-free expressions is needed: a pattern printed and parsed again gains a group. -/
theorem C35_pattern_refuted (rx : Rx) (hc : ∀ s, rx.compiles s = true) :
    ∃ e, parse rx "{{a}}".toList = .ok e ∧ parse rx e.print ≠ .ok e := by
  have key : ∀ (p : Str), p ≠ [] → '}' ∉ p → '\x00' ∉ p →
      parse rx (['{', '{'] ++ p ++ ['}', '}']) = .ok (.pattern (['('] ++ p ++ [')'])) := by
    intro p h1 h2 h3
    have ht : Text false ([] ++ (['{', '{'] ++ p ++ ['}', '}']) ++ []) [.pattern p] :=
      .token [] _ [] _ _ (by simp) (.pattern p h1 h2) (by intro s c r' h; cases h) (.done [] (by simp))
    have hd : Derives rx .not (.pattern (regexOf [.pattern p])) [.pattern p] :=
      .pattern _ (by simp [Part]) ⟨p, by simp⟩ (hc _)
    have := C36_documented_accepted rx _ _ _ (by simp [h3]) ht (.orAnd _ _ (.andNot _ _ hd))
    simpa [regexOf] using this
  refine ⟨_, key ['a'] (by decide) (by decide) (by decide), ?_⟩
  have h2 := key "(a)".toList (by decide) (by decide) (by decide)
  intro h
  exact absurd (h2.symm.trans h) (by decide)

/-- `Plain` is met by an expression with every operator. -/
example : Plain (.or (.and (.not (.var "linux".toList)) (.lit true)) (.var "target=x86_64".toList)) := by
  refine ⟨⟨⟨by decide, ?_, by decide, by decide⟩, trivial⟩, by decide, ?_, by decide, by decide⟩ <;>
  · unfold IdentChar; decide +kernel

/-! ## C37 -/

theorem featureReport_eq (header : Str) (hh : header ≠ []) (wanted : BExpr → Bool) : ∀ (es : List BExpr) (buf : Str),
    featureReport header wanted buf es =
      if es.filter wanted = [] then buf
      else (if buf = [] then header else buf ++ ", ".toList) ++
        (", ".toList).intercalate ((es.filter wanted).map BExpr.print)
  | [], buf => by simp [featureReport]
  | e :: es, buf => by
    by_cases h : wanted e = true
    · have hb : ((if buf.isEmpty then header else buf ++ [',', ' ']) ++ e.print) ≠ [] := by
        by_cases hb : buf = []
        · simp [hb, hh]
        · cases buf <;> simp_all
      rw [featureReport, if_pos h, featureReport_eq header hh wanted es, List.filter_cons_of_pos h, if_neg (by simp : ¬(e :: es.filter wanted) = [])]
      have hbuf : (if buf.isEmpty then header else buf ++ [',', ' ']) = (if buf = [] then header else buf ++ ", ".toList) := by
        cases buf <;> rfl
      by_cases hf : es.filter wanted = []
      · rw [if_pos hf, hf, hbuf]
        simp [List.intercalate]
      · rw [if_neg hf, if_neg hb, hbuf]
        obtain ⟨x, xs, hx⟩ := List.exists_cons_of_ne_nil hf
        rw [hx]
        simp [List.intercalate, List.intersperse]
    · rw [featureReport, if_neg h, featureReport_eq header hh wanted es, List.filter_cons_of_neg h]

open Classical in
/-- C37, REQUIRES: nothing is missing exactly when every required expression holds; otherwise the report lists exactly
the required expressions that do not hold, in order. -/
theorem C37_required (rx : Rx) (features : List Str) (required : List BExpr) :
    (missingFeatures rx features required = none ↔ ∀ e ∈ required, Holds rx (· ∈ features) e) ∧
    ∀ msg, missingFeatures rx features required = some msg →
      msg = "Test requires the following unavailable features: ".toList ++
        (", ".toList).intercalate ((required.filter fun e => ¬Holds rx (· ∈ features) e).map BExpr.print) := by
  have hf : (required.filter fun e => !e.evaluate rx features) = required.filter fun e => ¬Holds rx (· ∈ features) e := by
    refine List.filter_congr fun e _ => ?_
    have := C36_meaning rx features e
    by_cases h : e.evaluate rx features = true
    · simp [h, this.1 h]
    · simp [h, mt this.2 h]
  unfold missingFeatures
  simp only []
  rw [featureReport_eq _ (by decide), hf]
  by_cases hn : (required.filter fun e => ¬Holds rx (· ∈ features) e) = []
  · rw [if_pos hn]
    refine ⟨?_, by simp⟩
    simpa using hn
  · rw [if_neg hn, if_pos rfl]
    constructor
    · constructor
      · intro h; simp at h
      · intro h
        exact absurd (List.filter_eq_nil_iff.2 fun e he => by simp [h e he]) hn
    · intro msg h
      simpa using h.symm

open Classical in
/-- C37, UNSUPPORTED: nothing is reported exactly when no unsupported expression holds; otherwise the report lists
exactly those that hold, in order. -/
theorem C37_unsupported (rx : Rx) (features : List Str) (unsupported : List BExpr) :
    (unsupportedFeatures rx features unsupported = none ↔ ∀ e ∈ unsupported, ¬Holds rx (· ∈ features) e) ∧
    ∀ msg, unsupportedFeatures rx features unsupported = some msg →
      msg = "Test does not support the following features: ".toList ++
        (", ".toList).intercalate ((unsupported.filter fun e => Holds rx (· ∈ features) e).map BExpr.print) := by
  have hf : (unsupported.filter fun e => e.evaluate rx features) = unsupported.filter fun e => Holds rx (· ∈ features) e := by
    refine List.filter_congr fun e _ => ?_
    have := C36_meaning rx features e
    by_cases h : e.evaluate rx features = true
    · simp [h, this.1 h]
    · simp [h, mt this.2 h]
  unfold unsupportedFeatures
  simp only []
  rw [featureReport_eq _ (by decide), hf]
  by_cases hn : (unsupported.filter fun e => Holds rx (· ∈ features) e) = []
  · rw [if_pos hn]
    refine ⟨?_, by simp⟩
    simpa using hn
  · rw [if_neg hn, if_pos rfl]
    constructor
    · constructor
      · intro h; simp at h
      · intro h
        exact absurd (List.filter_eq_nil_iff.2 fun e he => by simp [h e he]) hn
    · intro msg h
      simpa using h.symm

/-- A feature that is there, one that is missing, and the report. -/
example : missingFeatures anyRx ["linux".toList] [.var "linux".toList, .not (.var "linux".toList), .var "x".toList] =
    some "Test requires the following unavailable features: !linux, x".toList := by decide +kernel

end Litcheck.BSpec
