import Verif.Proofs.ReadLine

/-! # What the parser makes of a directive -/

namespace Litcheck.Lex

open Litcheck.Script (trim trimStart trimEnd)
open LexSpec

theorem dropWhile_append {p : Char → Bool} {a b : Str} (h : a.all p) : (a ++ b).dropWhile p = b.dropWhile p := by
  induction a with
  | nil => rfl
  | cons c a ih =>
    simp only [List.all_cons, Bool.and_eq_true] at h
    simp [h.1, ih h.2]

theorem dropWhile_stop {p : Char → Bool} {a : Str} (h : Not1 p a) : a.dropWhile p = a := by
  cases a with
  | nil => rfl
  | cons c a =>
    have : p c = false := h c (by simp)
    simp [this]

theorem all_reverse {p : Char → Bool} {a : Str} : a.reverse.all p = a.all p := by
  rw [Bool.eq_iff_iff, List.all_eq_true, List.all_eq_true]
  simp

/-- Trimming takes off the white space at both ends. -/
theorem trim_iff (s t : Str) : trim s = t ↔ Trimmed s t := by
  constructor
  · rintro rfl
    refine ⟨s.takeWhile ws, ((trimStart s).reverse.takeWhile ws).reverse, ?_, all_takeWhile _ _, ?_, ?_, ?_⟩
    · have h1 : s = s.takeWhile ws ++ trimStart s := (List.takeWhile_append_dropWhile).symm
      have h2 : trimStart s = trim s ++ ((trimStart s).reverse.takeWhile ws).reverse := by
        show trimStart s = ((trimStart s).reverse.dropWhile ws).reverse ++ _
        rw [← List.reverse_append, List.takeWhile_append_dropWhile, List.reverse_reverse]
      rw [← h2, ← h1]
    · rw [all_reverse]; exact all_takeWhile _ _
    · have h2 : trimStart s = trim s ++ ((trimStart s).reverse.takeWhile ws).reverse := by
        show trimStart s = ((trimStart s).reverse.dropWhile ws).reverse ++ _
        rw [← List.reverse_append, List.takeWhile_append_dropWhile, List.reverse_reverse]
      intro c hc
      apply dropWhile_head (p := ws) (s := s)
      show c ∈ (trimStart s).head?
      rw [h2, List.head?_append]
      rw [Option.mem_def] at hc ⊢
      rw [hc]
      rfl
    · show Not1 ws ((trimStart s).reverse.dropWhile ws).reverse.reverse
      rw [List.reverse_reverse]
      exact dropWhile_head
  · rintro ⟨a, b, rfl, ha, hb, h1, h2⟩
    unfold trim trimEnd trimStart
    show (((a ++ (t ++ b)).dropWhile ws).reverse.dropWhile ws).reverse = t
    rw [dropWhile_append ha]
    cases t with
    | nil =>
      have := dropWhile_append (p := ws) (a := b) (b := []) hb
      rw [List.append_nil] at this
      rw [List.nil_append, this]
      rfl
    | cons c t =>
      rw [dropWhile_stop (a := c :: t ++ b) (by intro d hd; exact h1 d (by simpa using hd)), List.reverse_append,
        dropWhile_append (by rw [all_reverse]; exact hb), dropWhile_stop h2, List.reverse_reverse]

theorem trim_nil_iff (s : Str) : trim s = [] ↔ s.all ws := by
  rw [trim_iff]
  constructor
  · rintro ⟨a, b, rfl, ha, hb, -⟩
    rw [List.nil_append, List.all_append, ha, hb]
    rfl
  · intro h
    refine ⟨s, [], by simp, h, rfl, ?_, ?_⟩ <;> intro c hc <;> cases hc

theorem stripSpace_eq (s : Str) : stripSpace s = lessSpace s := rfl

/-- What a block means. -/
theorem blockOf_iff (nm : Bool) (s : Str) (m : Match) :
    blockOf nm s = .ok m ↔ ∃ ts, Lexes nm true s ts ∧ G.IsMatch ((if nm then [.hash] else []) ++ ts) m := by
  have hl := fun ts => lexBlock_iff nm s.length true s (Nat.le_refl _) ts
  unfold blockOf blockTokens
  constructor
  · intro h
    cases hi : innerTokens (lexBlock nm s.length true s) with
    | error e => rw [hi] at h; cases h
    | ok ts =>
      rw [hi] at h
      refine ⟨ts, (hl ts).1 hi, ?_⟩
      simp only [Except.map, bind, Except.bind] at h
      have he : (if nm then [.hash] else []) ++ ts = if nm then Token.hash :: ts else ts := by cases nm <;> rfl
      rw [he]
      generalize (if nm then Token.hash :: ts else ts) = ts' at h
      split at h
      · cases h
      · split at h
        · rename_i m' hm
          simp at h
          subst h
          exact (pMatch_iff _ _).1 hm
        · cases h
  · rintro ⟨ts, h1, h2⟩
    rw [(hl ts).2 h1]
    simp only [Except.map, bind, Except.bind]
    have he : (if nm then [.hash] else []) ++ ts = if nm then Token.hash :: ts else ts := by cases nm <;> rfl
    rw [he] at h2
    rw [if_neg, (pMatch_iff _ _).2 h2]
    intro h0
    rw [h0, ← pMatch_iff] at h2
    cases h2

theorem textParts_iff (first last : Bool) (s : Str) (ps : List Part) : TextPart first last s ps ↔ ps = textParts first last s := by
  unfold TextPart textParts
  cases last
  · simp only [Bool.false_eq_true, if_false, Bool.and_eq_true]
    rfl
  · simp only [if_true, trim_nil_iff]
    rfl

theorem map_ok {ε α β : Type} {f : α → β} {x : Except ε α} {y : β} : x.map f = .ok y ↔ ∃ a, x = .ok a ∧ f a = y := by
  cases x <;> simp [Except.map]

theorem readSegs_iff (first : Bool) (segs : List Seg) (u : Option Open) (ps : List Part) :
    readSegs first segs u = .ok ps ↔ u = none ∧ Parts first segs ps := by
  induction segs generalizing first ps with
  | nil =>
    cases u with
    | none =>
      constructor
      · intro h
        obtain rfl : [] = ps := by simpa [readSegs] using h
        exact ⟨rfl, .nil⟩
      · rintro ⟨-, h⟩
        cases h
        rfl
    | some o => cases o <;> simp [readSegs]
  | cons seg segs ih =>
    cases seg with
    | text s =>
      rw [readSegs, map_ok]
      constructor
      · rintro ⟨qs, h1, rfl⟩
        obtain ⟨rfl, h2⟩ := (ih _ _).1 h1
        simp only [and_true]
        exact ⟨trivial, .text ((textParts_iff _ _ _ _).2 rfl) h2⟩
      · rintro ⟨rfl, h⟩
        cases h with
        | text h1 h2 =>
          refine ⟨_, (ih _ _).2 ⟨rfl, h2⟩, ?_⟩
          rw [textParts_iff] at h1
          rw [h1]
          simp
    | regex s =>
      rw [readSegs, map_ok]
      constructor
      · rintro ⟨qs, h1, rfl⟩
        obtain ⟨rfl, h2⟩ := (ih _ _).1 h1
        exact ⟨rfl, .regex ((trim_iff _ _).1 rfl) h2⟩
      · rintro ⟨rfl, h⟩
        cases h with
        | regex h1 h2 =>
          refine ⟨_, (ih _ _).2 ⟨rfl, h2⟩, ?_⟩
          rw [(trim_iff _ _).2 h1]
    | block nm s =>
      rw [readSegs]
      constructor
      · intro h
        cases hb : blockOf nm s with
        | error e => rw [hb] at h; cases h
        | ok m =>
          rw [hb] at h
          obtain ⟨qs, h1, rfl⟩ := map_ok.1 h
          obtain ⟨rfl, h2⟩ := (ih _ _).1 h1
          obtain ⟨ts, h3, h4⟩ := (blockOf_iff _ _ _).1 hb
          exact ⟨rfl, .block h3 h4 h2⟩
      · rintro ⟨rfl, h⟩
        cases h with
        | block h1 h2 h3 =>
          rw [(blockOf_iff _ _ _).2 ⟨_, h1, h2⟩]
          exact map_ok.2 ⟨_, (ih _ _).2 ⟨rfl, h3⟩, rfl⟩

theorem readPattern_iff (cfg : Cfg) (text : Str) (ps : List Part) :
    readPattern cfg text = .ok ps ↔
      ∃ segs, Split (patternOf (cfg.strictWhitespace || cfg.matchFullLines) text) segs none ∧ Parts true segs ps := by
  obtain ⟨segs, u, h1, h2, -⟩ := readPattern_eq cfg text
  rw [h2, readSegs_iff]
  constructor
  · rintro ⟨rfl, h⟩
    exact ⟨segs, h1, h⟩
  · rintro ⟨segs', h3, h4⟩
    obtain ⟨rfl, rfl⟩ := Split.unique h1 h3
    exact ⟨rfl, h4⟩

theorem buildPattern_iff (k : Kind) (ps : List Part) (p : CPat) : buildPattern k ps = .ok p ↔ PatternOf k ps p := by
  unfold buildPattern
  by_cases hk : k = .empty
  · subst hk
    rw [if_pos rfl]
    constructor
    · intro h
      split at h
      · subst_vars
        simp at h
        subst h
        exact .empty
      · cases h
    · intro h
      cases h with
      | empty => rfl
      | literal h => exact absurd rfl h
      | regex h => exact absurd rfl h
      | parts h => exact absurd rfl h
  · rw [if_neg hk]
    constructor
    · intro h
      split at h
      · cases h
      · simp at h; subst h; exact .literal hk
      · simp at h; subst h; exact .regex hk
      · rename_i h1 h2 h3
        simp at h; subst h
        exact .parts hk h1 h2 h3
    · intro h
      cases h with
      | empty => exact absurd rfl hk
      | literal h => rfl
      | regex h => rfl
      | parts h h1 h2 h3 =>
        split
        · exact absurd rfl h1
        · exact absurd rfl (h2 _)
        · exact absurd rfl (h3 _)
        · rfl

theorem readCheck_iff (cfg : Cfg) (k : Kind) (mods : Nat) (text : Str) (l : CLine) :
    readCheck cfg k mods text = .ok l ↔ k ≠ .count 0 ∧
      ((mods ≠ 0 ∧ k ≠ .empty ∧ l = ⟨k, true, .literal (literalOf (cfg.strictWhitespace || cfg.matchFullLines) text)⟩) ∨
       (mods = 0 ∧ ∃ segs ps p, Split (patternOf (cfg.strictWhitespace || cfg.matchFullLines) text) segs none ∧ Parts true segs ps ∧
          PatternOf k ps p ∧ l = ⟨k, false, p⟩)) := by
  unfold readCheck
  by_cases h0 : k = .count 0
  · rw [if_pos h0]; simp [h0]
  rw [if_neg h0]
  by_cases hm : mods = 0
  · rw [if_neg (by simpa using hm)]
    constructor
    · intro h
      cases hr : readPattern cfg text with
      | error e => rw [hr] at h; cases h
      | ok ps =>
        rw [hr] at h
        simp only [bind, Except.bind] at h
        split at h
        · cases h
        · rename_i p hp
          simp at h
          obtain ⟨segs, h1, h2⟩ := (readPattern_iff _ _ _).1 hr
          exact ⟨h0, .inr ⟨hm, segs, ps, p, h1, h2, (buildPattern_iff _ _ _).1 hp, h.symm⟩⟩
    · rintro ⟨-, ⟨h, -⟩ | ⟨-, segs, ps, p, h1, h2, h3, rfl⟩⟩
      · exact absurd hm h
      · rw [(readPattern_iff _ _ _).2 ⟨segs, h1, h2⟩]
        simp only [bind, Except.bind, (buildPattern_iff _ _ _).2 h3]
  · rw [if_pos hm]
    by_cases hk : k = .empty
    · rw [if_pos hk]; simp [hk, hm]
    · rw [if_neg hk]
      simp only [Except.ok.injEq, hm, hk, ne_eq, h0, not_false_eq_true, true_and, false_and, or_false]
      exact ⟨fun h => h.symm, fun h => h.symm⟩

theorem parseU8_eq {ds : Str} (h : ds.all Char.isDigit) :
    parseU8 ds = if Spec.positional 10 ds ≤ 255 then some (Spec.positional 10 ds) else none := by
  unfold parseU8
  rw [Litcheck.readDigits_positional (by omega) ds (fun c hc => Litcheck.toDigit_dec ((isDigit_iff c).1 (List.all_eq_true.1 h c hc))) 0 (by omega)]
  simp

/-- A directive as it may be written. -/
def Written (d : Directive) : Prop :=
  match d.head with
  | .comment => True
  | .kind k => ∃ w, word k = some w
  | .count ds => ds.all Char.isDigit

theorem Begins.written {cs cm : List Str} {s : Str} {d : Directive} (h : Begins cs cm s d) : Written d := by
  cases h with
  | comment => trivial
  | kind _ h => exact ⟨_, h⟩
  | count _ _ h => exact h

/-- What the parser makes of a directive. -/
theorem readDirective_iff (cfg : Cfg) {d : Directive} (hw : Written d) (o : Option CLine) :
    readDirective cfg d = .ok o ↔
      (d.head = .comment ∧ o = none) ∨ ∃ l, o = some l ∧ Reads (cfg.strictWhitespace || cfg.matchFullLines) d l := by
  obtain ⟨pfx, head, mods, text⟩ := d
  unfold readDirective
  dsimp only
  cases head with
  | comment =>
    constructor
    · intro h
      exact .inl ⟨rfl, by simpa [eq_comm] using h⟩
    · rintro (⟨-, rfl⟩ | ⟨l, rfl, h⟩)
      · rfl
      · cases h with
        | literal h => cases h
        | pattern h => cases h
  | kind k =>
    obtain ⟨w, hw⟩ := hw
    dsimp only
    rw [map_ok]
    have hk0 : k ≠ .count 0 := by rintro rfl; cases hw
    constructor
    · rintro ⟨l, h, rfl⟩
      refine .inr ⟨l, rfl, ?_⟩
      obtain ⟨-, ⟨h1, h2, rfl⟩ | ⟨h1, segs, ps, p, h2, h3, h4, rfl⟩⟩ := (readCheck_iff _ _ _ _ _).1 h
      · exact .literal (d := ⟨pfx, .kind k, mods, text⟩) (.kind hw) h1 h2
      · exact .pattern (d := ⟨pfx, .kind k, mods, text⟩) (.kind hw) h1 h2 h3 h4
    · rintro (⟨h, -⟩ | ⟨l, rfl, h⟩)
      · cases h
      · refine ⟨l, (readCheck_iff _ _ _ _ _).2 ⟨hk0, ?_⟩, rfl⟩
        cases h with
        | literal h1 h2 h3 =>
          cases h1
          exact .inl ⟨h2, h3, rfl⟩
        | pattern h1 h2 h3 h4 h5 =>
          cases h1
          exact .inr ⟨h2, _, _, _, h3, h4, h5, rfl⟩
  | count ds =>
    dsimp only
    have hds : ds.all Char.isDigit := hw
    rw [parseU8_eq hds]
    by_cases hle : Spec.positional 10 ds ≤ 255
    · rw [if_pos hle]
      dsimp only
      rw [map_ok]
      constructor
      · rintro ⟨l, h, rfl⟩
        refine .inr ⟨l, rfl, ?_⟩
        obtain ⟨h0, h⟩ := (readCheck_iff _ _ _ _ _).1 h
        have h1 : 1 ≤ Spec.positional 10 ds := by
          rcases Nat.eq_zero_or_pos (Spec.positional 10 ds) with he | he
          · exact absurd (by rw [he]) h0
          · exact he
        obtain ⟨h1, h2, rfl⟩ | ⟨h1, segs, ps, p, h2, h3, h4, rfl⟩ := h
        · exact .literal (d := ⟨pfx, .count ds, mods, text⟩) (.count (by assumption) hle) h1 h2
        · exact .pattern (d := ⟨pfx, .count ds, mods, text⟩) (.count (by assumption) hle) h1 h2 h3 h4
      · rintro (⟨h, -⟩ | ⟨l, rfl, h⟩)
        · cases h
        · refine ⟨l, (readCheck_iff _ _ _ _ _).2 ?_, rfl⟩
          cases h with
          | literal h1 h2 h3 =>
            cases h1 with
            | count h4 h5 => exact ⟨by intro h; simp at h; omega, .inl ⟨h2, h3, rfl⟩⟩
          | pattern h1 h2 h3 h4 h5 =>
            cases h1 with
            | count h6 h7 => exact ⟨by intro h; simp at h; omega, .inr ⟨h2, _, _, _, h3, h4, h5, rfl⟩⟩
    · rw [if_neg hle]
      constructor
      · intro h; cases h
      · rintro (⟨h, -⟩ | ⟨l, rfl, h⟩)
        · cases h
        · exfalso
          cases h with
          | literal h1 h2 h3 =>
            cases h1 with
            | count h4 h5 => exact hle h5
          | pattern h1 h2 h3 h4 h5 =>
            cases h1 with
            | count h6 h7 => exact hle h7

theorem readAll_iff (cfg : Cfg) {ds : List Directive} (hw : ∀ d ∈ ds, Written d) (ls : List CLine) :
    readAll cfg ds = .ok ls ↔ List.Forall₂ (Reads (cfg.strictWhitespace || cfg.matchFullLines)) (checkDirectives ds) ls := by
  induction ds generalizing ls with
  | nil =>
    constructor
    · intro h
      obtain rfl : [] = ls := by simpa [readAll] using h
      exact .nil
    · intro h
      cases h
      rfl
  | cons d ds ih =>
    have ih := ih fun d hd => hw d (by simp [hd])
    have hd := readDirective_iff cfg (hw d (by simp))
    rw [readAll]
    constructor
    · intro h
      cases hr : readDirective cfg d with
      | error e => rw [hr] at h; cases h
      | ok o =>
        rw [hr] at h
        simp only [bind, Except.bind] at h
        split at h
        · cases h
        · rename_i ls' hls
          simp at h
          subst h
          have := (ih _).1 hls
          obtain ⟨h1, rfl⟩ | ⟨l, rfl, h1⟩ := (hd o).1 hr
          · unfold checkDirectives
            rw [List.filter_cons_of_neg (by simp [h1])]
            exact this
          · unfold checkDirectives
            rw [List.filter_cons_of_pos]
            · exact .cons h1 this
            · obtain ⟨pfx, head, mods, text⟩ := d
              simp only [bne_iff_ne, ne_eq]
              rintro rfl
              cases h1 with
              | literal h => cases h
              | pattern h => cases h
    · intro h
      by_cases hc : d.head = .comment
      · unfold checkDirectives at h
        rw [List.filter_cons_of_neg (by simp [hc])] at h
        rw [(hd none).2 (.inl ⟨hc, rfl⟩)]
        simp only [bind, Except.bind, (ih _).2 h]
        rfl
      · unfold checkDirectives at h
        rw [List.filter_cons_of_pos (by simp [hc])] at h
        cases h with
        | cons h1 h2 =>
          rw [(hd (some _)).2 (.inr ⟨_, rfl, h1⟩)]
          simp only [bind, Except.bind, (ih _).2 h2]
          rfl

theorem Recognised.written {cs cm : List Str} {fresh : Bool} {ls : List Str} {ds : List Directive} (h : Recognised cs cm fresh ls ds) :
    ∀ d ∈ ds, Written d := by
  induction h with
  | nil => simp
  | blank _ _ ih => exact ih
  | none _ _ _ ih => exact ih
  | some _ _ hb _ _ ih =>
    intro d hd
    obtain rfl | hd := List.mem_cons.1 hd
    · exact Begins.written hb
    · exact ih d hd

/-- Unused prefixes. -/
theorem unusedPrefixes_nil (seen before ps : List Str) :
    unusedPrefixes seen before ps = [] ↔ ps.Nodup ∧ (∀ p ∈ ps, p ∈ seen ∧ p ∉ before) := by
  induction ps generalizing before with
  | nil => simp [unusedPrefixes]
  | cons p ps ih =>
    rw [unusedPrefixes, List.append_eq_nil_iff, ih]
    simp only [List.nodup_cons, List.mem_append, List.mem_cons, List.not_mem_nil, or_false]
    constructor
    · rintro ⟨h1, h2, h3⟩
      split at h1
      · rename_i h
        refine ⟨⟨fun hp => (h3 p hp).2 (.inr rfl), h2⟩, ?_⟩
        rintro q (rfl | hq)
        · exact h
        · exact ⟨(h3 q hq).1, fun hb => (h3 q hq).2 (.inl hb)⟩
      · cases h1
    · rintro ⟨⟨h1, h2⟩, h3⟩
      refine ⟨if_pos (h3 p (.inl rfl)), h2, fun q hq => ⟨(h3 q (.inr hq)).1, ?_⟩⟩
      rintro (hb | rfl)
      · exact (h3 q (.inr hq)).2 hb
      · exact h1 hq

end Litcheck.Lex
