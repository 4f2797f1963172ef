import Verif.Proofs.Recognise
import Verif.Proofs.Split
import Verif.Proofs.Grammar

/-! # The parser reads the directives one by one -/

namespace Litcheck.Lex

open Litcheck.Script (trim trimStart)
open LexSpec (Seg Split Open Directive Recognised Head)

/-! ## Blocks -/

/-- A token of the inside of a block. -/
def Inner : Lexed → Prop
  | .ok t => t ≠ .lf ∧ t ≠ .matchEnd
  | _ => False

theorem keywordOrIdent_ne (s : Str) : keywordOrIdent s ≠ .lf ∧ keywordOrIdent s ≠ .matchEnd := by
  unfold keywordOrIdent
  repeat' split
  all_goals simp

theorem single_ne {c : Char} {t : Token} {s : Option Bool} (h : single c = some (t, s)) : t ≠ .lf ∧ t ≠ .matchEnd := by
  unfold single at h
  split at h <;> simp at h <;> (obtain ⟨rfl, -⟩ := h; simp)

theorem lexBlock_inner (nm : Bool) (n : Nat) (strip : Bool) (s : Str) : ∀ x ∈ lexBlock nm n strip s, Inner x := by
  induction n generalizing strip s with
  | zero => intro x hx; simp [lexBlock] at hx
  | succ n ih =>
    cases s with
    | nil => intro x hx; simp [lexBlock] at hx
    | cons c r =>
      intro x hx
      rw [lexBlock.eq_def] at hx
      dsimp only at hx
      split at hx
      · rename_i t s hs
        obtain rfl | hx := List.mem_cons.1 hx
        · exact single_ne hs
        · exact ih _ _ x hx
      · split at hx
        · obtain rfl | hx := List.mem_cons.1 hx
          · simp [Inner]
          · exact ih _ _ x hx
        · split at hx
          · split at hx
            · obtain rfl | hx := List.mem_cons.1 hx
              · simp [Inner]
              · exact ih _ _ x hx
            · simp at hx
              obtain rfl | rfl := hx <;> simp [Inner]
          · split at hx
            · obtain rfl | hx := List.mem_cons.1 hx
              · exact keywordOrIdent_ne _
              · exact ih _ _ x hx
            · split at hx
              · obtain rfl | hx := List.mem_cons.1 hx
                · dsimp only [Inner]
                  split <;> simp
                · exact ih _ _ x hx
              · split at hx
                · exact ih _ _ x hx
                · simp at hx
                  obtain rfl | rfl := hx <;> simp [Inner]

/-- The tokens, or the first error among them. -/
def innerTokens : List Lexed → Except PErr (List Token)
  | [] => .ok []
  | .ok (.error e) :: _ => .error (.lexer e)
  | .ok t :: r => (innerTokens r).map (t :: ·)
  | .unclosedSubstitution :: _ => .error .unclosedSubstitution
  | .unclosedRegex :: _ => .error .unclosedRegex

theorem blockLoop_inner (acc : List Token) (ts rest : List Lexed) (h : ∀ x ∈ ts, Inner x) :
    blockLoop acc (ts ++ .ok .matchEnd :: rest) = (innerTokens ts).map fun l => (acc ++ l, rest) := by
  induction ts generalizing acc with
  | nil => simp [blockLoop, innerTokens, Except.map]
  | cons x ts ih =>
    have ih := fun acc => ih acc fun y hy => h y (by simp [hy])
    have hx := h x (by simp)
    cases x with
    | ok t =>
      have h1 : t ≠ .lf := hx.1
      have h2 : t ≠ .matchEnd := hx.2
      cases t <;> first
        | exact absurd rfl h1
        | exact absurd rfl h2
        | rfl
        | (simp only [List.cons_append, blockLoop, innerTokens, ih]
           cases innerTokens ts <;> simp [Except.map])
    | unclosedSubstitution => exact hx.elim
    | unclosedRegex => exact hx.elim

/-- The tokens of the inside of a block. -/
def blockTokens (nm : Bool) (s : Str) : Except PErr (List Token) :=
  (innerTokens (lexBlock nm s.length true s)).map fun l => if nm then .hash :: l else l

/-- What a block means. -/
def blockOf (nm : Bool) (s : Str) : Except PErr Match := do
  let ts ← blockTokens nm s
  if ts = [] then .error (.unrecognizedToken .matchEnd)
  else match pMatch ts with
    | some m => .ok m
    | none => .error .badMatch

theorem matchBlock_eq (nm : Bool) (s : Str) (rest : List Lexed) :
    matchBlock ((if nm then [.ok .hash] else []) ++ (lexBlock nm s.length true s ++ .ok .matchEnd :: rest)) =
      (blockOf nm s).map fun m => (m, rest) := by
  unfold matchBlock blockOf blockTokens
  have h := lexBlock_inner nm s.length true s
  have h1 : blockLoop [] ((if nm then [.ok .hash] else []) ++ (lexBlock nm s.length true s ++ .ok .matchEnd :: rest)) =
      (innerTokens (lexBlock nm s.length true s)).map fun l => ((if nm then .hash :: l else l), rest) := by
    cases nm with
    | true =>
      show blockLoop [.hash] (lexBlock true s.length true s ++ .ok .matchEnd :: rest) = _
      rw [blockLoop_inner _ _ _ h]
      rfl
    | false =>
      show blockLoop [] (lexBlock false s.length true s ++ .ok .matchEnd :: rest) = _
      rw [blockLoop_inner _ _ _ h]
      rfl
  rw [h1]
  cases innerTokens (lexBlock nm s.length true s) with
  | error e => rfl
  | ok l =>
    simp only [Except.map, bind, Except.bind]
    generalize (if nm then .hash :: l else l) = l'
    by_cases hl : l' = []
    · rw [if_pos hl, if_pos hl]
    · rw [if_neg hl, if_neg hl]
      cases pMatch l' <;> rfl

/-! ## Patterns -/

/-- The parts of text. -/
def textParts (first last : Bool) (s : Str) : List Part :=
  if last then if trim s = [] then [] else [.literal (if first then stripSpace s else s)]
  else if first = true ∧ s.all isAsciiWs then [] else [.literal (if first then stripSpace s else s)]

/-- What the parts of a pattern mean. -/
def readSegs (first : Bool) : List Seg → Option Open → Except PErr (List Part)
  | [], none => .ok []
  | [], some .regex => .error .unclosedRegex
  | [], some (.block _) => .error .unclosedSubstitution
  | .text s :: segs, u => (readSegs first segs u).map (textParts first (decide (segs = [] ∧ u = none)) s ++ ·)
  | .regex s :: segs, u => (readSegs false segs u).map (.regex (trim s) :: ·)
  | .block nm s :: segs, u => do
    let m ← blockOf nm s
    (readSegs false segs u).map (.match_ m :: ·)

/-- What is left after the line feed. -/
def afterLf : List Lexed → List Lexed
  | .ok .lf :: r => r
  | r => r

theorem textTokens_parts (first last : Bool) (s : Str) (hs : s ≠ []) :
    ∃ l : List Str, textTokens first last s = l.map (fun x => .ok (.raw x)) ∧ textParts first last s = l.map .literal := by
  unfold textTokens textParts trailing before
  cases last
  · simp only [Bool.false_eq_true, if_false, if_neg hs]
    by_cases h : first = true ∧ s.all isAsciiWs
    · rw [if_neg (by simpa [h.1] using h.2), if_pos h]
      exact ⟨[], rfl, rfl⟩
    · rw [if_neg h, if_pos]
      · exact ⟨[_], rfl, rfl⟩
      · by_contra h2
        apply h
        simp only [Bool.not_eq_true, Bool.or_eq_false_iff, Bool.not_eq_false'] at h2
        exact ⟨h2.2, h2.1⟩
  · simp only [if_true]
    split
    · exact ⟨[], rfl, rfl⟩
    · exact ⟨[_], rfl, rfl⟩

theorem split_text_ne {l s : Str} {segs : List Seg} {u : Option Open} (h : Split l (.text s :: segs) u) : s ≠ [] ∧ ∃ l', Split l' segs u := by
  cases h with
  | text h1 _ _ h2 => exact ⟨h1, _, h2⟩

theorem partLoop_raws (l : List Str) (n : Nat) (acc : List Part) (r : List Lexed) (hn : (l.map (fun x => Lexed.ok (.raw x)) ++ r).length ≤ n) :
    partLoop n acc (l.map (fun x => Lexed.ok (.raw x)) ++ r) = partLoop (n - l.length) (acc ++ l.map .literal) r := by
  induction l generalizing n acc with
  | nil => simp
  | cons x l ih =>
    obtain ⟨n, rfl⟩ : ∃ m, n = m + 1 := ⟨n - 1, by simp at hn; omega⟩
    simp only [List.map_cons, List.cons_append, partLoop]
    rw [ih]
    · simp
    · simp at hn ⊢
      omega

theorem partLoop_segs (segs : List Seg) (u : Option Open) (l : Str) (hsp : Split l segs u) (first : Bool) (n : Nat) (acc : List Part)
    (tail : List Lexed) (ht : tail = [] ∨ ∃ r, tail = .ok .lf :: r) (hn : (segTokens first segs u ++ tail).length ≤ n) :
    partLoop n acc (segTokens first segs u ++ tail) = (readSegs first segs u).map fun ps => (acc ++ ps, afterLf tail) := by
  induction segs generalizing l first n acc with
  | nil =>
    cases u with
    | none =>
      obtain rfl | ⟨r, rfl⟩ := ht
      · cases n <;> simp [segTokens, openTokens, partLoop, readSegs, Except.map, afterLf]
      · obtain ⟨n, rfl⟩ : ∃ m, n = m + 1 := ⟨n - 1, by simp at hn; omega⟩
        simp [segTokens, openTokens, partLoop, readSegs, Except.map, afterLf]
    | some o =>
      cases o with
      | regex =>
        obtain ⟨n, rfl⟩ : ∃ m, n = m + 1 := ⟨n - 1, by simp [segTokens, openTokens] at hn; omega⟩
        rfl
      | block nm =>
        cases nm <;>
        · obtain ⟨n, rfl⟩ : ∃ m, n = m + 1 := ⟨n - 1, by simp [segTokens, openTokens] at hn; omega⟩
          rfl
  | cons seg segs ih =>
    cases seg with
    | text s =>
      obtain ⟨hs, l', hl'⟩ := split_text_ne hsp
      obtain ⟨x, h1, h2⟩ := textTokens_parts first (decide (segs = [] ∧ u = none)) s hs
      simp only [segTokens, readSegs, h1, h2, List.append_assoc] at hn ⊢
      rw [partLoop_raws _ _ _ _ (by simpa using hn), ih l' hl' first _ _ (by simp at hn ⊢; omega)]
      cases readSegs first segs u <;> simp [Except.map]
    | regex s =>
      have hl' : ∃ l', Split l' segs u := by
        cases hsp with
        | regex _ h => exact ⟨_, h⟩
      obtain ⟨l', hl'⟩ := hl'
      obtain ⟨n, rfl⟩ : ∃ m, n = m + 1 := ⟨n - 1, by simp [segTokens] at hn; omega⟩
      have := ih l' hl' false n (acc ++ [.regex (trim s)]) (by simp [segTokens] at hn ⊢; omega)
      simp only [segTokens, readSegs, List.cons_append]
      show partLoop n (acc ++ [.regex (trim s)]) (segTokens false segs u ++ tail) = _
      rw [this]
      cases readSegs false segs u <;> simp [Except.map]
    | block nm s =>
      have hl' : ∃ l', Split l' segs u := by
        cases hsp with
        | numeric _ h => exact ⟨_, h⟩
        | block _ _ _ h => exact ⟨_, h⟩
      obtain ⟨l', hl'⟩ := hl'
      have he : segTokens first (.block nm s :: segs) u ++ tail = .ok .matchStart ::
          ((if nm then [.ok .hash] else []) ++ (lexBlock nm s.length true s ++ .ok .matchEnd :: (segTokens false segs u ++ tail))) := by
        cases nm <;> simp [segTokens]
      rw [he] at hn ⊢
      obtain ⟨n, rfl⟩ : ∃ m, n = m + 1 := ⟨n - 1, by simp at hn; omega⟩
      have := fun m => ih l' hl' false n (acc ++ [.match_ m]) (by simp at hn ⊢; omega)
      simp only [partLoop, readSegs, matchBlock_eq]
      cases blockOf nm s with
      | error e => rfl
      | ok m =>
        simp only [Except.map, bind, Except.bind]
        rw [this m]
        cases readSegs false segs u <;> simp [Except.map]

/-! ## Directives -/

/-- The parts of the pattern of a line. -/
def readPattern (cfg : Cfg) (text : Str) : Except PErr (List Part) :=
  match partLoop (checkPattern cfg false text).length [] (checkPattern cfg false text) with
  | .ok x => .ok x.1
  | .error e => .error e

/-- What a check directive means, given its kind. -/
def readCheck (cfg : Cfg) (k : Kind) (mods : Nat) (text : Str) : Except PErr CLine :=
  if k = .count 0 then .error .invalidCheckCount
  else if mods ≠ 0 then
    if k = .empty then .error .expectedEmptyPattern
    else .ok ⟨k, true, .literal (if cfg.strictWhitespace || cfg.matchFullLines then stripSpace text else trimStart text)⟩
  else do
    let parts ← readPattern cfg text
    let p ← buildPattern k parts
    .ok ⟨k, false, p⟩

/-- What a directive means. -/
def readDirective (cfg : Cfg) (d : Directive) : Except PErr (Option CLine) :=
  match d.head with
  | .comment => .ok none
  | .kind k => (readCheck cfg k d.mods d.text).map some
  | .count ds =>
    match parseU8 ds with
    | some n => (readCheck cfg (.count n) d.mods d.text).map some
    | none => .error (.lexer .badCount)

/-- What all directives mean, or the first error. -/
def readAll (cfg : Cfg) : List Directive → Except PErr (List CLine)
  | [] => .ok []
  | d :: ds => do
    let l ← readDirective cfg d
    let ls ← readAll cfg ds
    .ok (l.toList ++ ls)

/-- The text of a pattern. -/
def patternText (cfg : Cfg) (text : Str) : Str :=
  if cfg.strictWhitespace || cfg.matchFullLines then stripSpace text else text.dropWhile isAsciiWs

theorem readPattern_eq (cfg : Cfg) (text : Str) :
    ∃ segs u, Split (patternText cfg text) segs u ∧ readPattern cfg text = readSegs true segs u ∧
      ∀ n acc tail, (tail = [] ∨ ∃ r, tail = .ok .lf :: r) → (checkPattern cfg false text ++ tail).length ≤ n →
        partLoop n acc (checkPattern cfg false text ++ tail) = (readPattern cfg text).map fun ps => (acc ++ ps, afterLf tail) := by
  obtain ⟨segs, u, h1, h2⟩ := scan_line (patternText cfg text)
  have h3 : checkPattern cfg false text = segTokens true segs u := h2
  have h4 : readPattern cfg text = readSegs true segs u := by
    have := partLoop_segs segs u _ h1 true (segTokens true segs u).length [] [] (.inl rfl) (by simp)
    unfold readPattern
    rw [h3]
    rw [List.append_nil] at this
    rw [this]
    cases readSegs true segs u <;> simp [Except.map]
  refine ⟨segs, u, h1, h4, fun n acc tail ht hn => ?_⟩
  rw [h4, h3]
  rw [h3] at hn
  exact partLoop_segs segs u _ h1 true n acc tail ht hn

theorem modifierLoop_eq (b : Bool) (mods : Nat) (r : List Lexed) :
    modifierLoop b (List.replicate mods (.ok .modifier) ++ .ok .colon :: r) = .ok (b || mods != 0, r) := by
  induction mods generalizing b with
  | zero => simp [modifierLoop]
  | succ n ih =>
    rw [List.replicate_succ, List.cons_append, modifierLoop, ih]
    simp

theorem parseCheck_eq (cfg : Cfg) (k : Kind) (mods : Nat) (text : Str) (tail : List Lexed) (ht : tail = [] ∨ ∃ r, tail = .ok .lf :: r) :
    ∃ tail', (tail' = tail ∨ tail' = afterLf tail) ∧
      parseCheck k (List.replicate mods (.ok .modifier) ++ .ok .colon :: (checkPattern cfg (mods != 0) text ++ tail)) =
        (readCheck cfg k mods text).map fun l => (l, tail') := by
  unfold parseCheck readCheck
  rw [modifierLoop_eq]
  by_cases hm : mods = 0
  · subst hm
    refine ⟨_, .inr rfl, ?_⟩
    obtain ⟨segs, u, -, -, h⟩ := readPattern_eq cfg text
    simp only [bind, Except.bind, Bool.false_or, bne_self_eq_false, ne_eq, not_true_eq_false, if_false, Bool.false_eq_true]
    split
    · rfl
    · rw [h _ _ _ ht (Nat.le_refl _)]
      cases readPattern cfg text with
      | error e => rfl
      | ok ps =>
        simp only [Except.map, List.nil_append]
        cases buildPattern k ps <;> rfl
  · refine ⟨_, .inl rfl, ?_⟩
    have : (mods != 0) = true := by simpa using hm
    simp only [bind, Except.bind, Bool.false_or, this, ne_eq, hm, not_false_eq_true, if_true]
    split
    · rfl
    · simp only [checkPattern, if_true, List.cons_append, List.nil_append, next]
      split <;> rfl

theorem parseLoop_mono_lf (n : Nat) (acc : List CLine) (r : List Lexed) : parseLoop (n + 1) acc (.ok .lf :: r) = parseLoop n acc r := rfl

theorem parseLoop_render (cfg : Cfg) (final : Bool) (ds : List Directive) (n : Nat) (acc : List CLine) (hn : (render cfg final ds).length ≤ n) :
    parseLoop n acc (render cfg final ds) = (readAll cfg ds).map fun ls => acc ++ ls := by
  induction ds generalizing n acc with
  | nil => cases n <;> simp [render, parseLoop, readAll, Except.map]
  | cons d ds ih =>
    obtain ⟨tail, ht, he, hlen, hrest⟩ : ∃ tail, (tail = [] ∨ ∃ r, tail = .ok .lf :: r) ∧
        render cfg final (d :: ds) = dirTokens cfg d ++ tail ∧ (afterLf tail).length ≤ tail.length ∧
        ∀ n acc, tail.length ≤ n → ∀ tail', (tail' = tail ∨ tail' = afterLf tail) →
          parseLoop n acc tail' = (readAll cfg ds).map fun ls => acc ++ ls := by
      cases ds with
      | nil =>
        refine ⟨if final then [.ok .lf] else [], by split <;> simp, rfl, by split <;> simp [afterLf], ?_⟩
        rintro n acc hn tail' (rfl | rfl)
        · cases final
          · cases n <;> simp [parseLoop, readAll, Except.map]
          · obtain ⟨n, rfl⟩ : ∃ m, n = m + 1 := ⟨n - 1, by simp at hn; omega⟩
            cases n <;> simp [parseLoop, readAll, Except.map]
        · have : afterLf (if final then [.ok .lf] else []) = [] := by split <;> rfl
          rw [this]
          cases n <;> simp [parseLoop, readAll, Except.map]
      | cons d2 ds =>
        refine ⟨.ok .lf :: render cfg final (d2 :: ds), .inr ⟨_, rfl⟩, rfl, by simp [afterLf], ?_⟩
        rintro n acc hn tail' (rfl | rfl)
        · obtain ⟨n, rfl⟩ : ∃ m, n = m + 1 := ⟨n - 1, by simp at hn; omega⟩
          rw [parseLoop_mono_lf]
          exact ih n acc (by simp at hn; omega)
        · exact ih n acc (by simp at hn; omega)
    rw [he] at hn ⊢
    rw [readAll]
    unfold dirTokens readDirective at *
    have hcheck : ∀ k mods text, (Lexed.ok (.check k) :: (List.replicate mods (.ok .modifier) ++ .ok .colon :: checkPattern cfg (mods != 0) text) ++ tail).length ≤ n →
        parseLoop n acc (Lexed.ok (.check k) :: (List.replicate mods (.ok .modifier) ++ .ok .colon :: checkPattern cfg (mods != 0) text) ++ tail) =
        ((do let l ← (readCheck cfg k mods text).map some
             let ls ← readAll cfg ds
             .ok (l.toList ++ ls)) : Except PErr (List CLine)).map fun ls => acc ++ ls := by
      intro k mods text hn
      obtain ⟨n, rfl⟩ : ∃ m, n = m + 1 := ⟨n - 1, by simp at hn; omega⟩
      obtain ⟨tail', ht', hp⟩ := parseCheck_eq cfg k mods text tail ht
      simp only [List.cons_append, List.append_assoc, parseLoop]
      rw [hp]
      cases readCheck cfg k mods text with
      | error e => rfl
      | ok l =>
        simp only [Except.map, bind, Except.bind]
        rw [hrest n (acc ++ [l]) (by simp at hn; omega) tail' ht']
        cases readAll cfg ds <;> simp [Except.map]
    cases hh : d.head with
    | comment =>
      rw [hh] at hn
      dsimp only at hn ⊢
      obtain ⟨n, rfl⟩ : ∃ m, n = m + 1 := ⟨n - 1, by simp at hn; omega⟩
      simp only [List.cons_append, List.nil_append, parseLoop]
      rw [hrest n acc (by simp at hn; omega) tail (.inl rfl)]
      cases readAll cfg ds <;> simp [Except.map, bind, Except.bind]
    | kind k =>
      rw [hh] at hn
      dsimp only at hn ⊢
      exact hcheck k d.mods d.text hn
    | count digits =>
      rw [hh] at hn
      dsimp only at hn ⊢
      cases hp : parseU8 digits with
      | some k =>
        rw [hp] at hn
        exact hcheck (.count k) d.mods d.text hn
      | none =>
        rw [hp] at hn
        obtain ⟨n, rfl⟩ : ∃ m, n = m + 1 := ⟨n - 1, by simp at hn; omega⟩
        rfl

/-- Reading a check file: its directives in order, then the check for unused prefixes. -/
theorem parse_spec {cfg : Cfg} (hc : Clean cfg) (allow : Bool) (text : Str) (ho : OneLine text) (h0 : text.head? ≠ some '\x00') :
    ∃ ds, Recognised (checks cfg) (comments cfg) true (LexSpec.lines text) ds ∧
      parse cfg allow text = (do
        let ls ← readAll cfg ds
        if unusedPrefixes (used ds) [] cfg.checkPrefixes ≠ [] ∧ allow = false then
          .error (.unusedCheckPrefixes (unusedPrefixes (used ds) [] cfg.checkPrefixes))
        else .ok ls) := by
  obtain ⟨ds, final, pre, h1, h2, h3⟩ := lex_spec hc text ho h0
  refine ⟨ds, h1, ?_⟩
  unfold parse
  rw [h3]
  dsimp only
  have : parseLoop (pre ++ render cfg final ds).length [] (pre ++ render cfg final ds) = readAll cfg ds := by
    obtain rfl | rfl := h2
    · rw [List.nil_append, parseLoop_render _ _ _ _ _ (Nat.le_refl _)]
      cases readAll cfg ds <;> simp [Except.map]
    · rw [List.singleton_append, List.length_cons, parseLoop_mono_lf, parseLoop_render _ _ _ _ _ (Nat.le_refl _)]
      cases readAll cfg ds <;> simp [Except.map]
  rw [this]

end Litcheck.Lex
