import Verif.Proofs.Unambiguous

/-!
# C64, C65, C66: reading check files

`Spec/Lexer.lean` says what the directives of a text are, `Spec/CheckLine.lean` what a directive means.
-/

namespace Litcheck

open Lex LexSpec

/-- The prefixes of checks that are looked for. -/
abbrev checkPfx (cfg : Cfg) : List Str := orElse cfg.checkPrefixes ["CHECK".toList]

/-- The prefixes of comments that are looked for. -/
abbrev commentPfx (cfg : Cfg) : List Str := orElse cfg.commentPrefixes ["COM".toList, "RUN".toList]

/-- Whether white space is kept. -/
abbrev strictWs (cfg : Cfg) : Bool := cfg.strictWhitespace || cfg.matchFullLines

/-- All prefixes given are used, and none is given twice. -/
def PrefixesUsed (cfg : Cfg) (ds : List Directive) : Prop :=
  cfg.checkPrefixes.Nodup ∧ ∀ p ∈ cfg.checkPrefixes, ∃ d ∈ checkDirectives ds, d.pfx = p

/-- The conditions on the text and on the prefixes under which check files are read as described. -/
structure Readable (cfg : Cfg) (text : Str) : Prop where
  checks : NoSpace (checkPfx cfg)
  comments : NoSpace (commentPfx cfg)
  mods : ModsOnOneLine text
  nul : text.head? ≠ some '\x00'

theorem Readable.clean {cfg : Cfg} {text : Str} (h : Readable cfg text) : Clean cfg := by
  rintro p (hp | hp)
  · exact h.checks p hp
  · exact h.comments p hp

theorem unused_iff (cfg : Cfg) (ds : List Directive) : unusedPrefixes (used ds) [] cfg.checkPrefixes = [] ↔ PrefixesUsed cfg ds := by
  rw [unusedPrefixes_nil]
  unfold PrefixesUsed used checkDirectives
  simp

/-- What the parser does, given the directives. -/
theorem parse_ok_iff {cfg : Cfg} {text : Str} (hr : Readable cfg text) (allow : Bool) :
    ∃ ds, Recognised (checkPfx cfg) (commentPfx cfg) true (lines text) ds ∧
      ∀ ls, parse cfg allow text = .ok ls ↔
        List.Forall₂ (Reads (strictWs cfg)) (checkDirectives ds) ls ∧ (allow = true ∨ PrefixesUsed cfg ds) := by
  obtain ⟨ds, h1, h2⟩ := parse_spec hr.clean allow text hr.mods hr.nul
  refine ⟨ds, h1, fun ls => ?_⟩
  have hw := Recognised.written h1
  rw [h2, ← readAll_iff cfg hw, ← unused_iff]
  cases readAll cfg ds with
  | error e => simp [bind, Except.bind]
  | ok ls' =>
    simp only [bind, Except.bind]
    by_cases hu : unusedPrefixes (used ds) [] cfg.checkPrefixes = []
    · rw [if_neg (by simp [hu])]
      simp [hu]
    · cases allow
      · rw [if_pos (by simp [hu])]
        simp [hu]
      · rw [if_neg (by simp)]
        simp

/-- **C64.** A check file is accepted with the check lines `ls` exactly if `ls` are the meanings of its check directives, in order, and all given
prefixes are used (unless that is allowed). -/
theorem C64_parse_iff {cfg : Cfg} {text : Str} (hr : Readable cfg text) (hu : Unambiguous (checkPfx cfg) (commentPfx cfg)) (allow : Bool)
    (ls : List CLine) :
    parse cfg allow text = .ok ls ↔
      ∃ ds, Recognised (checkPfx cfg) (commentPfx cfg) true (lines text) ds ∧
        List.Forall₂ (Reads (strictWs cfg)) (checkDirectives ds) ls ∧ (allow = true ∨ PrefixesUsed cfg ds) := by
  obtain ⟨ds, h1, h2⟩ := parse_ok_iff hr allow
  rw [h2]
  constructor
  · intro h
    exact ⟨ds, h1, h⟩
  · rintro ⟨ds', h3, h⟩
    obtain rfl := Recognised.unique hu h1 h3
    exact h

/-- **C64**, for any prefixes: the check lines of an accepted file are the meanings of directives that are written there. -/
theorem C64_parse_sound {cfg : Cfg} {text : Str} (hr : Readable cfg text) {allow : Bool} {ls : List CLine} (h : parse cfg allow text = .ok ls) :
    ∃ ds, Recognised (checkPfx cfg) (commentPfx cfg) true (lines text) ds ∧
      List.Forall₂ (Reads (strictWs cfg)) (checkDirectives ds) ls ∧ (allow = true ∨ PrefixesUsed cfg ds) := by
  obtain ⟨ds, h1, h2⟩ := parse_ok_iff hr allow
  exact ⟨ds, h1, (h2 ls).1 h⟩

/-- **C64**, the documented rule: each line may have one directive, the leftmost. Partial: no directive may be the first thing on an indented
line; `C64_indented_refuted` shows why. -/
theorem C64_documented_partial {cfg : Cfg} {text : Str} (hr : Readable cfg text)
    (hi : ∀ l ∈ lines text, ∀ a b, l = a ++ b → a ≠ [] → a.all asciiWs → ∀ d, ¬ Begins (checkPfx cfg) (commentPfx cfg) b d)
    {allow : Bool} {ls : List CLine} (h : parse cfg allow text = .ok ls) :
    ∃ ds, Documented (checkPfx cfg) (commentPfx cfg) (lines text) ds ∧
      List.Forall₂ (Reads (strictWs cfg)) (checkDirectives ds) ls ∧ (allow = true ∨ PrefixesUsed cfg ds) := by
  obtain ⟨ds, h1, h2⟩ := C64_parse_sound hr h
  exact ⟨ds, Recognised.documented h1 hi, h2⟩

/-- **C66.** A check file is rejected exactly if one of its check directives means nothing, or a given prefix is not used. -/
theorem C66_rejected_iff {cfg : Cfg} {text : Str} (hr : Readable cfg text) (hu : Unambiguous (checkPfx cfg) (commentPfx cfg)) (allow : Bool) {ds : List Directive}
    (hd : Recognised (checkPfx cfg) (commentPfx cfg) true (lines text) ds) :
    (∃ e, parse cfg allow text = .error e) ↔
      (∃ d ∈ checkDirectives ds, ∀ l, ¬ Reads (strictWs cfg) d l) ∨ (allow = false ∧ ¬ PrefixesUsed cfg ds) := by
  obtain ⟨ds', h1, h2⟩ := parse_ok_iff hr allow
  obtain rfl := Recognised.unique hu h1 hd
  have key : (∃ ls, List.Forall₂ (Reads (strictWs cfg)) (checkDirectives ds') ls) ↔ ¬ ∃ d ∈ checkDirectives ds', ∀ l, ¬ Reads (strictWs cfg) d l := by
    generalize checkDirectives ds' = xs
    induction xs with
    | nil => simp
    | cons x xs ih =>
      constructor
      · rintro ⟨ls, h⟩
        cases h with
        | cons h1 h2 =>
          rintro ⟨d, hd, hl⟩
          obtain rfl | hd := List.mem_cons.1 hd
          · exact hl _ h1
          · exact ih.1 ⟨_, h2⟩ ⟨d, hd, hl⟩
      · intro h
        have hx : ∃ l, Reads (strictWs cfg) x l := by
          by_contra hx
          exact h ⟨x, by simp, fun l hl => hx ⟨l, hl⟩⟩
        obtain ⟨l, hl⟩ := hx
        obtain ⟨ls, hls⟩ := ih.2 fun ⟨d, hd, hl⟩ => h ⟨d, by simp [hd], hl⟩
        exact ⟨l :: ls, .cons hl hls⟩
  have : (∃ e, parse cfg allow text = .error e) ↔ ¬ ∃ ls, parse cfg allow text = .ok ls := by
    cases parse cfg allow text <;> simp
  rw [this]
  simp only [h2, exists_and_right, key]
  generalize (∃ d ∈ checkDirectives ds', ∀ l, ¬ Reads (strictWs cfg) d l) = A
  generalize PrefixesUsed cfg ds' = B
  cases allow <;> simp <;> tauto

/-- The pattern without parts: white space only. -/
theorem parts_nil {s : Str} {segs : List Seg} (hs : Split s segs none) {ps : List Part} (hp : Parts true segs ps) : ps = [] ↔ s.all ws := by
  have hsp : ∀ c, ws c = true → c ≠ '{' ∧ c ≠ '[' := by
    intro c hc
    constructor <;> (rintro rfl; exact absurd hc (by decide))
  cases hp with
  | nil =>
    cases hs
    simp
  | @text _ s' segs ps qs h1 h2 =>
    cases hs with
    | @text _ rest _ _ h3 h4 h5 h6 =>
      by_cases he : segs = []
      · subst he
        cases h2
        cases h6
        simp only [List.append_nil]
        have : TextPart true true s' ps := h1
        unfold TextPart at this
        simp only [if_true] at this
        rw [this]
        split
        · simp_all
        · simp_all
      · have h7 : qs ≠ [] := by
          cases h2 with
          | nil => exact absurd rfl he
          | @text _ s2 _ _ _ h8 h9 =>
            exfalso
            cases h6 with
            | text h10 h11 =>
              obtain h12 | h12 := h5
              · simp at h12
                exact h10 h12.1
              · exact h11 [] s2 rfl h10 h12
          | regex => simp
          | block => simp
        constructor
        · intro h
          simp at h
          exact absurd h.2 h7
        · intro h
          exfalso
          rw [List.all_append, Bool.and_eq_true] at h
          obtain rfl | h8 := h5
          · have := split_nil h6 rfl
            exact he this.1
          · obtain ⟨r, rfl⟩ | ⟨r, rfl, -⟩ := h8
            · have := List.all_eq_true.1 h.2 '{' (by simp)
              exact absurd this (by decide)
            · have := List.all_eq_true.1 h.2 '[' (by simp)
              exact absurd this (by decide)
  | regex =>
    cases hs with
    | regex =>
      simp only [reduceCtorEq, false_iff]
      intro h
      have := List.all_eq_true.1 h '{' (by simp [Seg.src])
      exact absurd this (by decide)
  | block =>
    simp only [reduceCtorEq, false_iff]
    intro h
    cases hs with
    | numeric =>
      have := List.all_eq_true.1 h '[' (by simp [Seg.src])
      exact absurd this (by decide)
    | block =>
      have := List.all_eq_true.1 h '[' (by simp [Seg.src])
      exact absurd this (by decide)

theorem parts_exist {first : Bool} {segs : List Seg} : (∃ ps, Parts first segs ps) ↔
    ∀ nm s, .block nm s ∈ segs → ∃ ts m, Lexes nm true s ts ∧ G.IsMatch ((if nm then [.hash] else []) ++ ts) m := by
  induction segs generalizing first with
  | nil =>
    constructor
    · intro _ nm s h
      cases h
    · intro _
      exact ⟨[], .nil⟩
  | cons seg segs ih =>
    constructor
    · rintro ⟨ps, h⟩ nm s hm
      cases h with
      | text _ h =>
        simp at hm
        exact ih.1 ⟨_, h⟩ nm s hm
      | regex _ h =>
        simp at hm
        exact ih.1 ⟨_, h⟩ nm s hm
      | block h1 h2 h3 =>
        obtain hm | hm := List.mem_cons.1 hm
        · cases hm
          exact ⟨_, _, h1, h2⟩
        · exact ih.1 ⟨_, h3⟩ nm s hm
    · intro h
      cases seg with
      | text s =>
        obtain ⟨qs, hq⟩ := (ih (first := first)).2 fun nm s hm => h nm s (by simp [hm])
        exact ⟨_, .text rfl hq⟩
      | regex s =>
        obtain ⟨qs, hq⟩ := (ih (first := false)).2 fun nm s hm => h nm s (by simp [hm])
        exact ⟨_, .regex ((trim_iff _ _).1 rfl) hq⟩
      | block nm s =>
        obtain ⟨qs, hq⟩ := (ih (first := false)).2 fun nm s hm => h nm s (by simp [hm])
        obtain ⟨ts, m, h1, h2⟩ := h nm s (by simp)
        exact ⟨_, .block h1 h2 hq⟩

/-- **C66.** When a check directive means something: a count must be from 1 to 255; with a modifier it may not be `CHECK-EMPTY`; without, all
blocks are closed and well-formed, and the pattern is blank exactly for `CHECK-EMPTY`. -/
theorem C66_readable_iff (strict : Bool) (d : Directive) :
    (∃ l, Reads strict d l) ↔
      (∃ k, KindOf d.head k) ∧
      if d.mods ≠ 0 then d.head ≠ .kind .empty
      else ∃ segs, Split (patternOf strict d.text) segs none ∧
        (∀ nm s, .block nm s ∈ segs → ∃ ts m, Lexes nm true s ts ∧ G.IsMatch ((if nm then [.hash] else []) ++ ts) m) ∧
        (d.head = .kind .empty ↔ (patternOf strict d.text).all ws) := by
  have hk : ∀ {k}, KindOf d.head k → (k = .empty ↔ d.head = .kind .empty) := by
    intro k h
    generalize d.head = hd at h
    cases h with
    | kind h => simp
    | count => simp
  constructor
  · rintro ⟨l, h⟩
    cases h with
    | literal h1 h2 h3 =>
      refine ⟨⟨_, h1⟩, ?_⟩
      rw [if_pos h2]
      exact fun h => h3 ((hk h1).2 h)
    | pattern h1 h2 h3 h4 h5 =>
      refine ⟨⟨_, h1⟩, ?_⟩
      rw [if_neg (by simpa using h2)]
      refine ⟨_, h3, parts_exist.1 ⟨_, h4⟩, ?_⟩
      rw [← hk h1, ← parts_nil h3 h4]
      cases h5 with
      | empty => simp
      | literal h => simp [h]
      | regex h => simp [h]
      | parts h h' => simp [h, h']
  · rintro ⟨⟨k, h1⟩, h⟩
    split at h
    · rename_i hm
      exact ⟨_, .literal h1 hm fun hk' => h ((hk h1).1 hk')⟩
    · rename_i hm
      obtain ⟨segs, h2, h3, h4⟩ := h
      obtain ⟨ps, h5⟩ := (parts_exist (first := true)).2 h3
      rw [← hk h1, ← parts_nil h2 h5] at h4
      have : ∃ p, PatternOf k ps p := by
        by_cases he : k = .empty
        · subst he
          obtain rfl := h4.1 rfl
          exact ⟨_, .empty⟩
        · have hne : ps ≠ [] := fun h => he (h4.2 h)
          by_cases hl : ∃ s, ps = [.literal s]
          · obtain ⟨s, rfl⟩ := hl
            exact ⟨_, .literal he⟩
          · by_cases hx : ∃ s, ps = [.regex s]
            · obtain ⟨s, rfl⟩ := hx
              exact ⟨_, .regex he⟩
            · exact ⟨_, .parts he hne (fun s h => hl ⟨s, h⟩) (fun s h => hx ⟨s, h⟩)⟩
      obtain ⟨p, hp⟩ := this
      exact ⟨_, .pattern h1 (by simpa using hm) h2 h5 hp⟩

/-- **C65.** A pattern is split into text and blocks in exactly one way, -/
theorem C65_split_unique (s : Str) : ∃ segs u, Split s segs u ∧ ∀ segs' u', Split s segs' u' → segs' = segs ∧ u' = u := by
  obtain ⟨segs, u, h, -⟩ := scan_line s
  refine ⟨segs, u, h, fun segs' u' h' => ?_⟩
  obtain ⟨rfl, rfl⟩ := Split.unique h h'
  exact ⟨rfl, rfl⟩

/-- and what is written is what the parts are, one after the other. -/
theorem C65_split_concat {s : Str} {segs : List Seg} (h : Split s segs none) : s = (segs.map Seg.src).flatten := by
  generalize hu : (none : Option Open) = u at h
  induction h with
  | nil => rfl
  | text _ _ _ _ ih => subst hu; simp [Seg.src, ← ih rfl]
  | regex _ _ ih => subst hu; simp [← ih rfl]
  | numeric _ _ ih => subst hu; simp [← ih rfl]
  | block _ _ _ _ ih => subst hu; simp [← ih rfl]
  | openRegex => cases hu
  | openNumeric => cases hu
  | openBlock => cases hu

end Litcheck
