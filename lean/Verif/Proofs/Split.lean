import Verif.Model.Parser
import Verif.Spec.Lexer
import Verif.Proofs.Directives

/-! # The lexer splits a pattern into its parts -/

namespace Litcheck.Lex

open Litcheck.Script (trim trimStart)
open LexSpec (Seg Split Opens First Never InSet SetEnd RegexEnd BlockEnd Open)

theorem units_iff (s : Str) : units s = true ↔ InSet s := by
  fun_induction units s with
  | case1 => simp [InSet.nil]
  | case2 c r ih =>
    rw [Bool.and_eq_true, ih]
    constructor
    · rintro ⟨h1, h2⟩
      exact .esc (by simpa using h1) h2
    · intro h
      cases h with
      | char h1 h2 h3 => exact absurd rfl h2
      | esc h1 h2 => exact ⟨by simpa using h1, h2⟩
  | case3 =>
    constructor
    · intro h; cases h
    · intro h
      cases h with
      | char h1 h2 h3 => exact absurd rfl h2
  | case4 c r h1 h2 ih =>
    rw [Bool.and_eq_true, ih]
    constructor
    · rintro ⟨h3, h4⟩
      refine .char (by simpa using h3) ?_ h4
      rintro rfl
      cases r with
      | nil => exact h2 rfl rfl
      | cons x r => exact h1 x r rfl rfl
    · intro h
      cases h with
      | char h3 h4 h5 => exact ⟨by simpa using h3, h5⟩
      | esc h3 h4 => exact absurd rfl (h1 _ _ rfl)

theorem namedClass_iff (s : Str) : namedClass s = true ↔
    ∃ name, s = "[:".toList ++ (name ++ ":]".toList) ∧ name ≠ [] ∧ ∀ c ∈ name, 'a' ≤ c ∧ c ≤ 'z' := by
  unfold namedClass
  constructor
  · intro h
    split at h
    · rename_i r hs
      rw [stripPre_iff] at hs
      simp only [ne_eq, Bool.and_eq_true, decide_eq_true_eq, beq_iff_eq] at h
      refine ⟨_, ?_, of_decide_eq_true (by simpa using h.1), ?_⟩
      · rw [hs]
        rw [← h.2, List.takeWhile_append_dropWhile]
      · intro c hc
        have := all_takeWhile (fun c => 'a' ≤ c && c ≤ 'z') r
        rw [List.all_eq_true] at this
        simpa using this c hc
    · cases h
  · rintro ⟨name, rfl, hne, hl⟩
    rw [(stripPre_iff _ _ _).2 rfl]
    dsimp only
    have h1 : name.all (fun c => 'a' ≤ c && c ≤ 'z') := by
      rw [List.all_eq_true]
      intro c hc
      simpa using hl c hc
    have h2 : ∀ n : Str, n.all (fun c => 'a' ≤ c && c ≤ 'z') → (n ++ ":]".toList).takeWhile (fun c => 'a' ≤ c && c ≤ 'z') = n ∧
        (n ++ ":]".toList).dropWhile (fun c => 'a' ≤ c && c ≤ 'z') = ":]".toList := by
      intro n hn
      induction n with
      | nil => exact ⟨by decide, by decide⟩
      | cons c n ih =>
        simp only [List.all_cons, Bool.and_eq_true] at hn
        have h3 := ih hn.2
        simp only [List.cons_append, List.takeWhile_cons, List.dropWhile_cons, hn.1, Bool.and_self, if_true, h3, and_self]
    rw [(h2 name h1).1, (h2 name h1).2]
    simp [hne]

theorem getLast_dropLast {s : Str} {c : Char} : s.getLast? = some c ↔ s = s.dropLast ++ [c] := by
  constructor
  · intro h
    rw [List.getLast?_eq_some_iff] at h
    obtain ⟨t, rfl⟩ := h
    simp
  · intro h
    rw [h]
    simp

theorem falseEnd_iff (s : Str) : falseEnd s = true ↔ SetEnd s := by
  induction s with
  | nil =>
    constructor
    · intro h; cases h
    · rintro (⟨x, n, h, -⟩ | ⟨x, u, h, -⟩) <;> simp at h
  | cons c r ih =>
    have hhere : (c == '[' && r.getLast? == some ']' &&
      (namedClass r.dropLast || (r.dropLast.getLast? == some ']' && r.dropLast.dropLast ≠ [] && units r.dropLast.dropLast))) = true ↔
      ((∃ name, c :: r = "[[:".toList ++ (name ++ ":]]".toList) ∧ name ≠ [] ∧ ∀ c ∈ name, 'a' ≤ c ∧ c ≤ 'z') ∨
        ∃ u, c :: r = '[' :: (u ++ [']', ']']) ∧ u ≠ [] ∧ InSet u) := by
      simp only [Bool.and_eq_true, Bool.or_eq_true, beq_iff_eq, namedClass_iff, units_iff, getLast_dropLast, decide_eq_true_eq, ne_eq]
      constructor
      · rintro ⟨⟨rfl, h1⟩, ⟨name, h2, h3⟩ | ⟨⟨h2, h3⟩, h4⟩⟩
        · left
          refine ⟨name, ?_, h3⟩
          rw [h1, h2]
          simp
        · right
          refine ⟨_, ?_, h3, h4⟩
          rw [h2] at h1
          rw [List.cons.injEq]
          exact ⟨rfl, by simpa using h1⟩
      · rintro (⟨name, h1, h2⟩ | ⟨u, h1, h2, h3⟩)
        · have h1' : c = '[' ∧ r = "[:".toList ++ (name ++ ":]".toList) ++ [']'] := by simpa using h1
          obtain ⟨rfl, rfl⟩ := h1'
          rw [List.dropLast_concat]
          exact ⟨⟨rfl, rfl⟩, .inl ⟨name, rfl, h2⟩⟩
        · have h1' : c = '[' ∧ r = u ++ [']'] ++ [']'] := by simpa using h1
          obtain ⟨rfl, rfl⟩ := h1'
          rw [List.dropLast_concat, List.dropLast_concat]
          exact ⟨⟨rfl, rfl⟩, .inr ⟨⟨rfl, h2⟩, h3⟩⟩
    rw [falseEnd, Bool.or_eq_true, hhere, ih]
    constructor
    · rintro ((⟨name, h1, h2⟩ | ⟨u, h1, h2⟩) | ⟨x, name, h1, h2⟩ | ⟨x, u, h1, h2⟩)
      · exact .inl ⟨[], name, h1, h2⟩
      · exact .inr ⟨[], u, h1, h2⟩
      · exact .inl ⟨c :: x, name, by rw [h1]; rfl, h2⟩
      · exact .inr ⟨c :: x, u, by rw [h1]; rfl, h2⟩
    · rintro (⟨x, name, h1, h2⟩ | ⟨x, u, h1, h2⟩)
      · cases x with
        | nil => exact .inl (.inl ⟨name, h1, h2⟩)
        | cons y x =>
          simp only [List.cons_append, List.cons.injEq] at h1
          exact .inr (.inl ⟨x, name, h1.2, h2⟩)
      · cases x with
        | nil => exact .inl (.inr ⟨u, h1, h2⟩)
        | cons y x =>
          simp only [List.cons_append, List.cons.injEq] at h1
          exact .inr (.inr ⟨x, u, h1.2, h2⟩)

/-! ## Delimiters -/

/-- What the delimiter at the front says of the text. -/
def DelimSays (s : Str) : Option Delim → Prop
  | some .numericMatchStart => ∃ r, s = '[' :: '[' :: '#' :: r
  | some .matchStart => ∃ r, s = '[' :: '[' :: r ∧ ∀ r', r ≠ '#' :: r'
  | some .matchEnd => ∃ r, s = ']' :: ']' :: r
  | some .regexStart => ∃ r, s = '{' :: '{' :: r
  | some .regexEnd => ∃ r, s = '}' :: '}' :: r
  | none => (∀ r, s ≠ '[' :: '[' :: r) ∧ (∀ r, s ≠ ']' :: ']' :: r) ∧ (∀ r, s ≠ '{' :: '{' :: r) ∧ ∀ r, s ≠ '}' :: '}' :: r

theorem delimAt_says (s : Str) : DelimSays s (delimAt s) := by
  unfold delimAt
  split
  · exact ⟨_, rfl⟩
  · rename_i r h
    refine ⟨_, rfl, ?_⟩
    rintro r' rfl
    exact h r' rfl
  · exact ⟨_, rfl⟩
  · exact ⟨_, rfl⟩
  · exact ⟨_, rfl⟩
  · rename_i h1 h2 h3 h4 h5
    exact ⟨fun r h => h2 r h, fun r h => h3 r h, fun r h => h4 r h, fun r h => h5 r h⟩

/-- Nowhere in `acc`, which is followed by `rest`, is the property true. -/
def Clear (P : Str → Str → Prop) (acc rest : Str) : Prop := ∀ a b, acc = a ++ b → b ≠ [] → ¬ P a (b ++ rest)

theorem Clear.snoc {P : Str → Str → Prop} {acc r : Str} {c : Char} (h : Clear P acc (c :: r)) (hn : ¬ P acc (c :: r)) :
    Clear P (acc ++ [c]) r := by
  intro a b he hb
  obtain rfl | ⟨b', y, rfl⟩ := List.eq_nil_or_concat b
  · exact absurd rfl hb
  · rw [List.concat_eq_append] at *
    rw [← List.append_assoc] at he
    have h1 := List.append_inj' he rfl
    simp at h1
    obtain ⟨h1, rfl⟩ := h1
    rw [List.append_assoc, List.singleton_append]
    cases hb' : b' with
    | nil => subst hb'; rw [List.append_nil] at h1; rw [← h1]; exact hn
    | cons x z => rw [← hb']; exact h a b' h1 (by rw [hb']; simp)

theorem Clear.nil {P : Str → Str → Prop} {rest : Str} : Clear P [] rest := by
  intro a b he hb
  exact absurd (List.append_eq_nil_iff.1 he.symm).2 hb

theorem Clear.never {P : Str → Str → Prop} {acc : Str} (h : Clear P acc []) (hn : ¬ P acc []) : Never P acc := by
  intro a b he
  by_cases hb : b = []
  · subst hb
    rw [List.append_nil] at he
    rw [← he]
    exact hn
  · have := h a b he hb
    rwa [List.append_nil] at this

theorem Clear.two {P : Str → Str → Prop} {acc r : Str} {c d : Char} (h : Clear P acc (c :: d :: r)) (hn : ∀ a, ¬ P a (c :: d :: r))
    (hn2 : ∀ a, ¬ P a (d :: r)) : Clear P (acc ++ [c, d]) r := by
  have := (h.snoc (hn _)).snoc (hn2 _)
  simpa using this

/-- The place where a block begins. -/
def OpensAt (_ b : Str) : Prop := Opens b

/-- The tokens of text; `last` if nothing follows. -/
def textTokens (first last : Bool) (s : Str) : List Lexed := if last then trailing first s else before first s

/-- The tokens at which an open block ends. -/
def openTokens : Option Open → List Lexed
  | none => []
  | some .regex => [.ok .regexStart, .unclosedRegex]
  | some (.block true) => [.ok .matchStart, .ok .hash, .unclosedSubstitution]
  | some (.block false) => [.ok .matchStart, .unclosedSubstitution]

/-- The tokens of the parts of a pattern; `first` if there was no block before. -/
def segTokens (first : Bool) : List Seg → Option Open → List Lexed
  | [], u => openTokens u
  | .text s :: segs, u => textTokens first (decide (segs = [] ∧ u = none)) s ++ segTokens first segs u
  | .regex s :: segs, u => .ok .regexStart :: .ok (.raw (trim s)) :: .ok .regexEnd :: segTokens false segs u
  | .block true s :: segs, u =>
    .ok .matchStart :: .ok .hash :: (lexBlock true s.length true s ++ .ok .matchEnd :: segTokens false segs u)
  | .block false s :: segs, u => .ok .matchStart :: (lexBlock false s.length true s ++ .ok .matchEnd :: segTokens false segs u)

theorem opens_not {c : Char} {r : Str} (h1 : c ≠ '{') (h2 : c ≠ '[') : ¬ Opens (c :: r) := by
  rintro (⟨r', h⟩ | ⟨r', h, -⟩) <;> simp at h <;> simp_all

/-- What the scanner does in each mode. -/
structure ScanSpec (n : Nat) : Prop where
  lit : ∀ first acc rest, rest.length < n → Clear OpensAt acc rest →
    ∃ segs u, Split (acc ++ rest) segs u ∧ scan n .lit first acc rest = segTokens first segs u
  regex : ∀ first acc rest, rest.length < n → Clear RegexEnd acc rest →
    (∃ s rest' segs u, acc ++ rest = s ++ '}' :: '}' :: rest' ∧ First RegexEnd s ('}' :: '}' :: rest') ∧ Split rest' segs u ∧
      scan n .regex first acc rest = .ok (.raw (trim s)) :: .ok .regexEnd :: segTokens first segs u) ∨
    (Never RegexEnd (acc ++ rest) ∧ scan n .regex first acc rest = [.unclosedRegex])
  block : ∀ nm first acc rest, rest.length < n → Clear BlockEnd acc rest →
    (∃ s rest' segs u, acc ++ rest = s ++ ']' :: ']' :: rest' ∧ First BlockEnd s (']' :: ']' :: rest') ∧ Split rest' segs u ∧
      scan n (.match_ nm) first acc rest = lexBlock nm s.length true s ++ .ok .matchEnd :: segTokens first segs u) ∨
    (Never BlockEnd (acc ++ rest) ∧ scan n (.match_ nm) first acc rest = [.unclosedSubstitution])

theorem scan_spec_zero : ScanSpec 0 where
  lit := fun _ _ _ h => absurd h (by omega)
  regex := fun _ _ _ h => absurd h (by omega)
  block := fun _ _ _ _ h => absurd h (by omega)

theorem textSplit {first : Bool} {acc rest : Str} {segs : List Seg} {u : Option Open} (hc : Clear OpensAt acc rest) (ho : Opens rest)
    (hs : Split rest segs u) (hne : ¬ (segs = [] ∧ u = none)) :
    ∃ segs' u', Split (acc ++ rest) segs' u' ∧ before first acc ++ segTokens first segs u = segTokens first segs' u' := by
  by_cases ha : acc = []
  · subst ha
    exact ⟨segs, u, hs, rfl⟩
  · refine ⟨.text acc :: segs, u, .text ha hc (.inr ho) hs, ?_⟩
    simp only [segTokens, textTokens, hne, decide_false]
    rfl

theorem scan_spec (n : Nat) : ScanSpec n := by
  induction n with
  | zero => exact scan_spec_zero
  | succ n ih =>
    refine ⟨?_, ?_, ?_⟩
    · intro first acc rest hlen hcl
      have hd := delimAt_says rest
      rw [scan.eq_def]
      dsimp only
      cases hd' : delimAt rest with
      | none =>
        rw [hd'] at hd
        obtain ⟨h1, h2, h3, h4⟩ := hd
        cases rest with
        | cons c r =>
          dsimp only
          obtain ⟨segs, u, h5, h6⟩ := ih.lit first (acc ++ [c]) r (by simp at hlen; omega)
            (hcl.snoc (by rintro (⟨r', h⟩ | ⟨r', h, -⟩); exacts [h3 _ h, h1 _ h]))
          exact ⟨segs, u, by simpa using h5, h6⟩
        | nil =>
          dsimp only
          rw [List.append_nil]
          by_cases ha : acc = []
          · subst ha
            refine ⟨[], none, .nil, ?_⟩
            cases first <;> rfl
          · refine ⟨[.text acc], none, ?_, ?_⟩
            · have := Split.text ha hcl (.inl rfl) .nil
              rwa [List.append_nil] at this
            · simp [segTokens, textTokens, openTokens]
      | some d =>
        rw [hd'] at hd
        cases d with
        | numericMatchStart =>
          obtain ⟨r, rfl⟩ := hd
          dsimp only [List.drop]
          have ho : Opens ('[' :: '[' :: '#' :: r) := .inr ⟨_, rfl, by intro r' h; simp at h⟩
          obtain ⟨s, rest', segs, u, h1, h2, h3, h4⟩ | ⟨h1, h2⟩ := ih.block true false [] r (by simp at hlen; omega) .nil
          · rw [h4]
            rw [List.nil_append] at h1
            subst h1
            refine textSplit (segs := .block true s :: segs) (u := u) hcl ho ?_ (by simp)
            have := Split.numeric h2 h3
            simpa [Seg.src] using this
          · rw [h2]
            exact textSplit (segs := []) (u := some (.block true)) hcl ho (.openNumeric h1) (by simp)
        | matchStart =>
          obtain ⟨r, rfl, hr⟩ := hd
          dsimp only [List.drop, List.take]
          by_cases hb : ('[' :: '[' :: r)[2]? = some '['
          · rw [if_pos hb]
            have hr2 : ∃ r', r = '[' :: r' := by
              cases r with
              | nil => simp at hb
              | cons x r => simp at hb; exact ⟨r, by rw [hb]⟩
            obtain ⟨r', rfl⟩ := hr2
            obtain ⟨segs, u, h5, h6⟩ := ih.lit first (acc ++ ['[']) ('[' :: '[' :: r') (by simp at hlen ⊢; omega)
              (hcl.snoc (by
                rintro (⟨r'', h⟩ | ⟨r'', h, h'⟩)
                · simp at h
                · simp at h
                  exact h' _ h.symm))
            exact ⟨segs, u, by simpa using h5, h6⟩
          · rw [if_neg hb]
            have hr2 : ∀ r', r ≠ '[' :: r' := by
              rintro r' rfl
              exact hb rfl
            have ho : Opens ('[' :: '[' :: r) := .inr ⟨_, rfl, hr2⟩
            obtain ⟨s, rest', segs, u, h1, h2, h3, h4⟩ | ⟨h1, h2⟩ := ih.block false false [] r (by simp at hlen; omega) .nil
            · rw [h4]
              rw [List.nil_append] at h1
              subst h1
              refine textSplit (segs := .block false s :: segs) (u := u) hcl ho ?_ (by simp)
              have := Split.block (s := s) (fun r h => hr _ (by rw [h]; rfl)) (fun r h => hr2 _ (by rw [h]; rfl)) h2 h3
              simpa [Seg.src] using this
            · rw [h2]
              exact textSplit (segs := []) (u := some (.block false)) hcl ho (.openBlock hr hr2 h1) (by simp)
        | regexStart =>
          obtain ⟨r, rfl⟩ := hd
          dsimp only [List.drop]
          have ho : Opens ('{' :: '{' :: r) := .inl ⟨_, rfl⟩
          obtain ⟨s, rest', segs, u, h1, h2, h3, h4⟩ | ⟨h1, h2⟩ := ih.regex false [] r (by simp at hlen; omega) .nil
          · rw [h4]
            rw [List.nil_append] at h1
            subst h1
            refine textSplit (segs := .regex s :: segs) (u := u) hcl ho ?_ (by simp)
            have := Split.regex h2 h3
            simpa [Seg.src] using this
          · rw [h2]
            exact textSplit (segs := []) (u := some .regex) hcl ho (.openRegex h1) (by simp)
        | matchEnd =>
          obtain ⟨r, rfl⟩ := hd
          dsimp only [List.drop, List.take, Delim.len]
          obtain ⟨segs, u, h5, h6⟩ := ih.lit first (acc ++ [']', ']']) r (by simp at hlen; omega)
            (hcl.two (fun _ => opens_not (by decide) (by decide)) (fun _ => opens_not (by decide) (by decide)))
          exact ⟨segs, u, by simpa using h5, h6⟩
        | regexEnd =>
          obtain ⟨r, rfl⟩ := hd
          dsimp only [List.drop, List.take, Delim.len]
          obtain ⟨segs, u, h5, h6⟩ := ih.lit first (acc ++ ['}', '}']) r (by simp at hlen; omega)
            (hcl.two (fun _ => opens_not (by decide) (by decide)) (fun _ => opens_not (by decide) (by decide)))
          exact ⟨segs, u, by simpa using h5, h6⟩
    · intro first acc rest hlen hcl
      have hd := delimAt_says rest
      have hx : ∀ c r, c ≠ '}' → ¬ RegexEnd acc (c :: r) := by
        rintro c r hne ⟨r', h⟩
        simp at h
        exact hne h.1
      have hy : ∀ c r, c ≠ '}' → ∀ a, ¬ RegexEnd a (c :: r) := by
        rintro c r hne a ⟨r', h⟩
        simp at h
        exact hne h.1
      have key : ∀ x r, rest = x ++ r → x ≠ [] → Clear RegexEnd (acc ++ x) r → scan (n + 1) .regex first acc rest = scan n .regex first (acc ++ x) r →
          ((∃ s rest' segs u, acc ++ rest = s ++ '}' :: '}' :: rest' ∧ First RegexEnd s ('}' :: '}' :: rest') ∧ Split rest' segs u ∧
            scan (n + 1) .regex first acc rest = .ok (.raw (trim s)) :: .ok .regexEnd :: segTokens first segs u) ∨
          (Never RegexEnd (acc ++ rest) ∧ scan (n + 1) .regex first acc rest = [.unclosedRegex])) := by
        intro x r he hne hcl' hsc
        have hl : r.length < n := by
          have h1 := congrArg List.length he
          have h2 := List.length_pos_iff.2 hne
          simp at h1
          omega
        have := ih.regex first (acc ++ x) r hl hcl'
        rw [hsc]
        rw [List.append_assoc, ← he] at this
        exact this
      cases hd' : delimAt rest with
      | none =>
        rw [hd'] at hd
        obtain ⟨h1, h2, h3, h4⟩ := hd
        cases rest with
        | cons c r =>
          refine key [c] r rfl (by simp) (hcl.snoc (by rintro ⟨r', h⟩; exact h4 _ h)) ?_
          rw [scan.eq_def]
          dsimp only
          rw [hd']
        | nil =>
          right
          rw [List.append_nil]
          refine ⟨hcl.never (by rintro ⟨r', h⟩; simp at h), ?_⟩
          rw [scan.eq_def]
          dsimp only
          rw [hd']
      | some d =>
        rw [hd'] at hd
        cases d with
        | numericMatchStart =>
          obtain ⟨r, rfl⟩ := hd
          refine key ['[', '[', '#'] r rfl (by simp) ?_ ?_
          · have := (hcl.two (hy _ _ (by decide)) (hy _ _ (by decide))).snoc (by exact hy _ _ (by decide) _)
            simpa using this
          · rw [scan.eq_def]
            dsimp only
            rw [hd']
            rfl
        | matchStart =>
          obtain ⟨r, rfl, hr⟩ := hd
          refine key ['[', '['] r rfl (by simp) (hcl.two (hy _ _ (by decide)) (hy _ _ (by decide))) ?_
          rw [scan.eq_def]
          dsimp only
          rw [hd']
          rfl
        | regexStart =>
          obtain ⟨r, rfl⟩ := hd
          refine key ['{', '{'] r rfl (by simp) (hcl.two (hy _ _ (by decide)) (hy _ _ (by decide))) ?_
          rw [scan.eq_def]
          dsimp only
          rw [hd']
          rfl
        | matchEnd =>
          obtain ⟨r, rfl⟩ := hd
          refine key [']', ']'] r rfl (by simp) (hcl.two (hy _ _ (by decide)) (hy _ _ (by decide))) ?_
          rw [scan.eq_def]
          dsimp only
          rw [hd']
          rfl
        | regexEnd =>
          obtain ⟨r, rfl⟩ := hd
          obtain ⟨segs, u, h5, h6⟩ := ih.lit first [] r (by simp at hlen; omega) .nil
          left
          refine ⟨acc, r, segs, u, rfl, ⟨⟨r, rfl⟩, hcl⟩, h5, ?_⟩
          rw [scan.eq_def]
          dsimp only [List.drop]
          rw [hd']
          dsimp only
          rw [h6]
    · intro nm first acc rest hlen hcl
      have hd := delimAt_says rest
      have hy : ∀ c r, c ≠ ']' → ∀ a, ¬ BlockEnd a (c :: r) := by
        rintro c r hne a ⟨⟨r', h⟩, -⟩
        simp at h
        exact hne h.1
      have key : ∀ x r, rest = x ++ r → x ≠ [] → Clear BlockEnd (acc ++ x) r → scan (n + 1) (.match_ nm) first acc rest = scan n (.match_ nm) first (acc ++ x) r →
          ((∃ s rest' segs u, acc ++ rest = s ++ ']' :: ']' :: rest' ∧ First BlockEnd s (']' :: ']' :: rest') ∧ Split rest' segs u ∧
            scan (n + 1) (.match_ nm) first acc rest = lexBlock nm s.length true s ++ .ok .matchEnd :: segTokens first segs u) ∨
          (Never BlockEnd (acc ++ rest) ∧ scan (n + 1) (.match_ nm) first acc rest = [.unclosedSubstitution])) := by
        intro x r he hne hcl' hsc
        have hl : r.length < n := by
          have h1 := congrArg List.length he
          have h2 := List.length_pos_iff.2 hne
          simp at h1
          omega
        have := ih.block nm first (acc ++ x) r hl hcl'
        rw [hsc]
        rw [List.append_assoc, ← he] at this
        exact this
      cases hd' : delimAt rest with
      | none =>
        rw [hd'] at hd
        obtain ⟨h1, h2, h3, h4⟩ := hd
        cases rest with
        | cons c r =>
          refine key [c] r rfl (by simp) (hcl.snoc (by rintro ⟨⟨r', h⟩, -⟩; exact h2 _ h)) ?_
          rw [scan.eq_def]
          dsimp only
          rw [hd']
        | nil =>
          right
          rw [List.append_nil]
          refine ⟨hcl.never (by rintro ⟨⟨r', h⟩, -⟩; simp at h), ?_⟩
          rw [scan.eq_def]
          dsimp only
          rw [hd']
      | some d =>
        rw [hd'] at hd
        cases d with
        | numericMatchStart =>
          obtain ⟨r, rfl⟩ := hd
          refine key ['[', '[', '#'] r rfl (by simp) ?_ ?_
          · have := (hcl.two (hy _ _ (by decide)) (hy _ _ (by decide))).snoc (by exact hy _ _ (by decide) _)
            simpa using this
          · rw [scan.eq_def]
            dsimp only
            rw [hd']
            rfl
        | matchStart =>
          obtain ⟨r, rfl, hr⟩ := hd
          refine key ['[', '['] r rfl (by simp) (hcl.two (hy _ _ (by decide)) (hy _ _ (by decide))) ?_
          rw [scan.eq_def]
          dsimp only
          rw [hd']
          rfl
        | regexStart =>
          obtain ⟨r, rfl⟩ := hd
          refine key ['{', '{'] r rfl (by simp) (hcl.two (hy _ _ (by decide)) (hy _ _ (by decide))) ?_
          rw [scan.eq_def]
          dsimp only
          rw [hd']
          rfl
        | regexEnd =>
          obtain ⟨r, rfl⟩ := hd
          refine key ['}', '}'] r rfl (by simp) (hcl.two (hy _ _ (by decide)) (hy _ _ (by decide))) ?_
          rw [scan.eq_def]
          dsimp only
          rw [hd']
          rfl
        | matchEnd =>
          obtain ⟨r, rfl⟩ := hd
          by_cases hf : falseEnd (acc ++ [']', ']']) = true
          · refine key [']'] (']' :: r) rfl (by simp) (hcl.snoc ?_) ?_
            · rintro ⟨-, h⟩
              exact h ((falseEnd_iff _).1 hf)
            · rw [scan.eq_def]
              dsimp only [List.drop, List.take]
              rw [hd']
              exact if_pos hf
          · obtain ⟨segs, u, h5, h6⟩ := ih.lit first [] r (by simp at hlen; omega) .nil
            left
            refine ⟨acc, r, segs, u, rfl, ⟨⟨⟨r, rfl⟩, fun h => hf ((falseEnd_iff _).2 h)⟩, hcl⟩, h5, ?_⟩
            rw [scan.eq_def]
            dsimp only [List.drop, List.take]
            rw [hd']
            refine (if_neg hf).trans ?_
            rw [h6]

theorem scan_line (l : Str) : ∃ segs u, Split l segs u ∧ scan (l.length + 1) .lit true [] l = segTokens true segs u :=
  (scan_spec _).lit true [] l (by omega) .nil

end Litcheck.Lex
