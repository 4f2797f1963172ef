import Verif.Proofs.Directives

/-! # The directives which the lexer finds, line by line -/

namespace Litcheck.Lex

open LexSpec (Mods MoreMods Begins Place Recognised Directive Head ws asciiWs)

theorem line_self {l : Str} (h : '\n' ∉ l) : line l = l := by
  have := line_append h []
  simpa [line] using this

theorem line_mid {b : Str} (h : '\n' ∉ b) (rest : Str) : line (b ++ '\n' :: rest) = b := by
  rw [line_append h]
  simp [line]

theorem eol_self {l : Str} (h : '\n' ∉ l) : eol l = [] := by
  have := eol_append h []
  simpa [eol] using this

theorem eol_mid {b : Str} (h : '\n' ∉ b) (rest : Str) : eol (b ++ '\n' :: rest) = '\n' :: rest := by
  rw [eol_append h]
  simp [eol]

theorem line_no_nl (s : Str) : '\n' ∉ line s := by
  intro h
  have := all_takeWhile (· != '\n') s
  rw [List.all_eq_true] at this
  exact absurd (this _ h) (by decide)

theorem eol_cases (s : Str) : eol s = [] ∨ ∃ rest, eol s = '\n' :: rest := by
  induction s with
  | nil => exact .inl rfl
  | cons c s ih =>
    by_cases h : c = '\n'
    · subst h; exact .inr ⟨s, rfl⟩
    · rw [eol_cons h]; exact ih

theorem lines_self {l : Str} (h : '\n' ∉ l) : LexSpec.lines l = [l] := by
  induction l with
  | nil => rfl
  | cons c l ih =>
    simp only [List.mem_cons, not_or] at h
    rw [LexSpec.lines, if_neg (Ne.symm h.1), ih h.2]

theorem lines_mid {l : Str} (h : '\n' ∉ l) (rest : Str) : LexSpec.lines (l ++ '\n' :: rest) = l :: LexSpec.lines rest := by
  induction l with
  | nil => simp [LexSpec.lines]
  | cons c l ih =>
    simp only [List.mem_cons, not_or] at h
    rw [List.cons_append, LexSpec.lines, if_neg (Ne.symm h.1), ih h.2]

/-- The end of a line. -/
def Tail (tail : Str) : Prop := tail = [] ∨ ∃ rest, tail = '\n' :: rest

theorem line_tail {b tail : Str} (h : '\n' ∉ b) (ht : Tail tail) : line (b ++ tail) = b := by
  obtain rfl | ⟨rest, rfl⟩ := ht
  · rw [List.append_nil, line_self h]
  · exact line_mid h rest

/-- There is no directive in the line. -/
def NoDir (cfg : Cfg) (fresh : Bool) (l : Str) : Prop :=
  ∀ a b, l = a ++ b → Place fresh a → ∀ d, ¬ Begins (checks cfg) (comments cfg) b d

/-- The places of a line `w ++ l'` are those which the search of `l'` looks at. -/
structure Places (cfg : Cfg) (fresh flag : Bool) (w l' : Str) : Prop where
  only : ∀ a b, w ++ l' = a ++ b → Place fresh a → (∃ a', a = w ++ a' ∧ WordStart flag a') ∨ ∀ d, ¬ Begins (checks cfg) (comments cfg) b d
  all : ∀ a b, l' = a ++ b → WordStart flag a → Place fresh (w ++ a)

theorem wordStart_later (l : Str) {a : Str} (bol : Bool) (h : WordStart true a) : WordStart bol (l ++ '\n' :: a) := by
  obtain ⟨rfl, -⟩ | ⟨a', x, rfl, hx⟩ := h
  · exact .inr ⟨l, '\n', rfl, by decide⟩
  · exact .inr ⟨l ++ '\n' :: a', x, by simp, hx⟩

theorem wordStart_of_later {l : Str} {a : Str} {bol : Bool} (h : WordStart bol (l ++ '\n' :: a)) : WordStart true a := by
  obtain ⟨h, -⟩ | ⟨a', x, h, hx⟩ := h
  · simp at h
  · cases a with
    | nil => exact .inl ⟨rfl, rfl⟩
    | cons y a =>
      right
      have h2 : (y :: a).getLast? = some x := by
        have : (l ++ '\n' :: y :: a).getLast? = some x := by rw [h]; simp
        simpa [List.getLast?_append] using this
      rw [List.getLast?_eq_some_iff] at h2
      obtain ⟨ys, h3⟩ := h2
      exact ⟨ys, x, h3, hx⟩

theorem noDir_of_none {cfg : Cfg} {fresh flag : Bool} {w l' tail : Str} (hp : Places cfg fresh flag w l')
    (hn : '\n' ∉ w ++ l') (ht : Tail tail)
    (h : ∀ a b, l' = a ++ b → WordStart flag a → first cfg (b ++ tail) = none) : NoDir cfg fresh (w ++ l') := by
  intro a b he hpl d hb
  obtain ⟨a', rfl, hw⟩ | hno := hp.only a b he hpl
  · rw [List.append_assoc, List.append_cancel_left_eq] at he
    have h1 := first_none (h a' b he hw) d
    rw [line_tail (fun hm => hn (by rw [he]; simp [hm])) ht] at h1
    exact h1 hb
  · exact hno d hb

theorem notFound_line {cfg : Cfg} {fresh flag : Bool} {w l' tail : Str} (hp : Places cfg fresh flag w l')
    (hn : '\n' ∉ w ++ l') (ht : Tail tail) (h : NotFound cfg flag (l' ++ tail)) :
    NoDir cfg fresh (w ++ l') ∧ ∀ rest, tail = '\n' :: rest → NotFound cfg true rest := by
  refine ⟨noDir_of_none hp hn ht fun a b he hw => h a (b ++ tail) (by rw [he, List.append_assoc]) hw, ?_⟩
  rintro rest rfl a b rfl hw
  exact h (l' ++ '\n' :: a) b (by simp) (wordStart_later _ _ hw)

theorem found_line {cfg : Cfg} (hc : Clean cfg) {fresh flag : Bool} {w l' tail a b : Str} {h : Hit} (ho : OneLine (l' ++ tail)) (hp : Places cfg fresh flag w l')
    (hn : '\n' ∉ w ++ l') (ht : Tail tail) (hf : Found cfg flag (l' ++ tail) a b h) :
    (∃ bl, l' = a ++ bl ∧ b = bl ++ tail ∧ Place fresh (w ++ a) ∧ Begins (checks cfg) (comments cfg) bl (dirOf h) ∧
      (∀ a' b', (w ++ a) ++ bl = a' ++ b' → a'.length < (w ++ a).length → Place fresh a' → ∀ d', ¬ Begins (checks cfg) (comments cfg) b' d')) ∨
    (∃ rest a2, tail = '\n' :: rest ∧ Found cfg true rest a2 b h ∧ NoDir cfg fresh (w ++ l')) := by
  by_cases hl : a.length ≤ l'.length
  · left
    obtain ⟨bl, hbl, hb⟩ : ∃ bl, l' = a ++ bl ∧ b = bl ++ tail := by
      have he := hf.eq
      rw [List.append_eq_append_iff] at he
      obtain ⟨c, h1, h2⟩ | ⟨c, h1, h2⟩ := he
      · have : c = [] := by
          have := congrArg List.length h1
          simp at this
          have : c.length = 0 := by omega
          exact List.length_eq_zero_iff.1 this
        subst this
        exact ⟨[], by simpa using h1.symm, by simpa using h2.symm⟩
      · exact ⟨c, h1, h2⟩
    have hn2 : '\n' ∉ bl := fun hm => hn (by rw [hbl]; simp [hm])
    refine ⟨bl, hbl, hb, hp.all a bl hbl hf.start, ?_, ?_⟩
    · have hob : OneLine b := by
        rw [hbl, List.append_assoc, ← hb] at ho
        exact ho.suffix
      have := (first_sound hc hob hf.hit).1
      rwa [hb, line_tail hn2 ht] at this
    · intro a' b' he hlt hpl d' hbg
      rw [List.append_assoc, ← hbl] at he
      obtain ⟨a'', rfl, hw⟩ | hno := hp.only a' b' he hpl
      · rw [List.append_assoc, List.append_cancel_left_eq] at he
        have h1 := first_none (hf.least a'' (b' ++ tail) (by rw [he, List.append_assoc]) (by simp at hlt; omega) hw) d'
        rw [line_tail (fun hm => hn (by rw [he]; simp [hm])) ht] at h1
        exact h1 hbg
      · exact hno d' hbg
  · right
    obtain ⟨c, h1, h2⟩ : ∃ c, a = l' ++ c ∧ tail = c ++ b := by
      have he := hf.eq
      rw [List.append_eq_append_iff] at he
      obtain ⟨c, h1, h2⟩ | ⟨c, h1, h2⟩ := he
      · exact ⟨c, h1, h2⟩
      · have := congrArg List.length h1
        simp at this
        omega
    cases c with
    | nil => simp at h1; rw [h1] at hl; omega
    | cons x a2 =>
      obtain rfl | ⟨rest, rfl⟩ := ht
      · simp at h2
      · simp at h2
        obtain ⟨rfl, hr⟩ := h2
        refine ⟨rest, a2, rfl, ⟨hr, ?_, hf.hit, ?_⟩, ?_⟩
        · have := hf.start
          rw [h1] at this
          exact wordStart_of_later this
        · intro a' b' he hlt hw
          exact hf.least (l' ++ '\n' :: a') b' (by rw [he]; simp) (by rw [h1]; simp; omega) (wordStart_later _ _ hw)
        · refine noDir_of_none hp hn (.inr ⟨rest, rfl⟩) fun a' b' he hw => ?_
          refine hf.least a' (b' ++ '\n' :: rest) (by rw [he, List.append_assoc]) ?_ hw
          have := congrArg List.length he
          rw [h1]
          simp at this ⊢
          omega

theorem places_later (cfg : Cfg) (l : Str) : Places cfg false true [] l where
  only := by
    rintro a b - (rfl | ⟨⟨a', c, rfl, hc⟩, -⟩)
    · exact .inl ⟨[], rfl, .inl ⟨rfl, rfl⟩⟩
    · exact .inl ⟨a' ++ [c], rfl, .inr ⟨a', c, rfl, hc⟩⟩
  all := by
    rintro a b - (⟨rfl, -⟩ | ⟨a', c, rfl, hc⟩)
    · exact .inl rfl
    · exact .inr ⟨⟨a', c, rfl, hc⟩, fun h => by cases h⟩

theorem places_fresh {cfg : Cfg} (hc : Clean cfg) {w l' : Str} (hw : w.all asciiWs) (hl : ∀ c ∈ l'.head?, asciiWs c = false) (hl0 : l' ≠ []) :
    Places cfg true (w == []) w l' where
  only := by
    rintro a b he (rfl | ⟨⟨a', c, rfl, hcw⟩, hna⟩)
    · cases w with
      | nil => exact .inl ⟨[], rfl, .inl ⟨rfl, rfl⟩⟩
      | cons x w =>
        right
        intro d hb
        simp at he
        rw [← he] at hb
        have := begins_head hc hb
        simp only [List.all_cons, Bool.and_eq_true] at hw
        have h2 : asciiWs x = true → ws x = true := by
          unfold asciiWs ws BParse.isWs
          intro h
          simp only [Bool.or_eq_true, beq_iff_eq] at h
          obtain (((rfl | rfl) | rfl) | rfl) | rfl := h <;> decide
        rw [h2 hw.1] at this
        cases this
    · left
      rw [List.append_eq_append_iff] at he
      obtain ⟨e, h1, h2⟩ | ⟨e, h1, h2⟩ := he
      · obtain rfl | ⟨e, y, rfl⟩ := List.eq_nil_or_concat e
        · rw [List.append_nil] at h1
          rw [h1] at hna
          exact absurd hw (hna rfl)
        · rw [List.concat_eq_append] at *
          rw [← List.append_assoc] at h1
          have hh := List.append_inj_right' h1 rfl
          simp at hh
          subst hh
          exact ⟨e ++ [c], by rw [h1, List.append_assoc], .inr ⟨e, c, rfl, hcw⟩⟩
      · exfalso
        apply hna rfl
        rw [List.all_eq_true] at hw ⊢
        intro x hx
        exact hw x (by rw [h1]; simp at hx ⊢; tauto)
  all := by
    rintro a b he (⟨rfl, hf⟩ | ⟨a', c, rfl, hcw⟩)
    · left
      simpa using hf
    · right
      refine ⟨⟨w ++ a', c, by simp, hcw⟩, fun _ hall => ?_⟩
      cases l' with
      | nil => exact hl0 rfl
      | cons x l' =>
        have h1 := hl x (by simp)
        have h2 : x ∈ a' ++ [c] := by
          cases ha : a' ++ [c] with
          | nil => simp at ha
          | cons y z => rw [ha] at he; simp at he; simp [he.1]
        rw [List.all_eq_true] at hall
        rw [hall x (by simp at h2 ⊢; tauto)] at h1
        cases h1

/-- What is recognised after the line in which `b` begins. -/
def After (cfg : Cfg) (b : Str) (ds : List Directive) : Prop :=
  (eol b = [] ∧ ds = []) ∨ ∃ rest, eol b = '\n' :: rest ∧ Recognised (checks cfg) (comments cfg) true (LexSpec.lines rest) ds

theorem later_notFound {cfg : Cfg} (n : Nat) (text : Str) (hlen : text.length ≤ n) (h : NotFound cfg true text) :
    Recognised (checks cfg) (comments cfg) false (LexSpec.lines text) [] := by
  induction n generalizing text with
  | zero =>
    have : text = [] := by cases text <;> simp_all
    subst this
    obtain ⟨h1, -⟩ := notFound_line (tail := []) (places_later cfg []) (by simp) (.inl rfl) (by simpa using h)
    exact .none (fun h => by cases h) h1 .nil
  | succ n ih =>
    have hle := line_eol text
    have hn := line_no_nl text
    obtain he | ⟨rest, he⟩ := eol_cases text <;> rw [he] at hle
    · obtain ⟨h1, -⟩ := notFound_line (tail := []) (places_later cfg (line text)) (by simpa using hn) (.inl rfl) (hle ▸ h)
      rw [hle, List.append_nil, lines_self hn]
      exact .none (fun h => by cases h) h1 .nil
    · obtain ⟨h1, h2⟩ := notFound_line (tail := '\n' :: rest) (places_later cfg (line text)) (by simpa using hn) (.inr ⟨rest, rfl⟩) (hle ▸ h)
      rw [hle, lines_mid hn]
      refine .none (fun h => by cases h) h1 (ih rest ?_ (h2 rest rfl))
      have := congrArg List.length hle
      simp at this
      omega

theorem later_found {cfg : Cfg} (hc : Clean cfg) (n : Nat) (text a b : Str) (hlen : text.length ≤ n) (ho : OneLine text) {hit : Hit}
    (h : Found cfg true text a b hit) {ds : List Directive} (hds : After cfg b ds) :
    Recognised (checks cfg) (comments cfg) false (LexSpec.lines text) (dirOf hit :: ds) := by
  induction n generalizing text a with
  | zero =>
    have : text = [] := by cases text <;> simp_all
    subst this
    have he := h.eq
    obtain ⟨rfl, rfl⟩ := List.append_eq_nil_iff.1 he.symm
    have := h.hit
    rw [first_nil cfg hc] at this
    cases this
  | succ n ih =>
    have hle := line_eol text
    have hn := line_no_nl text
    have ht : Tail (eol text) := eol_cases text
    obtain ⟨bl, hbl, hb, hpl, hbg, hleast⟩ | ⟨rest, a2, htail, hF, hno⟩ :=
      found_line hc (hle ▸ ho) (places_later cfg (line text)) (by simpa using hn) ht (hle ▸ h)
    · have hbn : '\n' ∉ bl := fun hm => hn (by rw [hbl]; simp [hm])
      have heb : eol b = eol text := by rw [hb, eol_append hbn]; rcases ht with h0 | ⟨r, h0⟩ <;> rw [h0] <;> rfl
      obtain he | ⟨rest, he⟩ := ht
      · rw [hle, he, List.append_nil, lines_self hn, hbl]
        obtain ⟨-, rfl⟩ | ⟨r, h1, -⟩ := hds
        · exact .some (fun h => by cases h) hpl hbg hleast .nil
        · rw [heb, he] at h1; cases h1
      · rw [hle, he, lines_mid hn, hbl]
        obtain ⟨h1, -⟩ | ⟨r, h1, h2⟩ := hds
        · rw [heb, he] at h1; cases h1
        · rw [heb, he] at h1
          simp at h1
          subst h1
          exact .some (fun h => by cases h) hpl hbg hleast h2
    · rw [hle, htail, lines_mid hn]
      rw [htail] at hle
      refine .none (fun h => by cases h) hno (ih rest a2 ?_ ?_ hF)
      · have := congrArg List.length hle
        simp at this
        omega
      · rw [hle] at ho
        exact OneLine.suffix (a := line text ++ ['\n']) (by simpa using ho)

theorem asciiWs_eq (c : Char) : isAsciiWs c = asciiWs c := rfl

/-- Whether a line begins after the white space at the front, if one begins before it. -/
def flagOf (t : Str) : Bool :=
  if t.takeWhile isAsciiWs = [] then true else (t.takeWhile isAsciiWs).getLast? == some '\n'

theorem takeWhile_all {p : Char → Bool} {l : Str} (h : l.all p) (r : Str) :
    (l ++ r).takeWhile p = l ++ r.takeWhile p ∧ (l ++ r).dropWhile p = r.dropWhile p := by
  induction l with
  | nil => exact ⟨rfl, rfl⟩
  | cons c l ih =>
    simp only [List.all_cons, Bool.and_eq_true] at h
    simp [List.takeWhile_cons, List.dropWhile_cons, h.1, ih h.2]

theorem takeWhile_not_all {p : Char → Bool} {l : Str} (h : ¬ l.all p) (r : Str) :
    (l ++ r).takeWhile p = l.takeWhile p ∧ (l ++ r).dropWhile p = l.dropWhile p ++ r := by
  induction l with
  | nil => simp at h
  | cons c l ih =>
    by_cases hc : p c = true
    · have : ¬ l.all p := by simpa [hc] using h
      simp only [List.cons_append, List.takeWhile_cons, List.dropWhile_cons, hc, if_true, ih this, true_and]
    · simp [List.takeWhile_cons, List.dropWhile_cons, hc]

theorem flag_blank {l : Str} (h : l.all asciiWs) (rest : Str) : flagOf (l ++ '\n' :: rest) = flagOf rest := by
  have h1 : (l ++ '\n' :: rest).takeWhile isAsciiWs = l ++ '\n' :: rest.takeWhile isAsciiWs := by
    rw [(takeWhile_all (p := isAsciiWs) h _).1, List.takeWhile_cons, if_pos (by decide)]
  unfold flagOf
  rw [h1, if_neg (by simp)]
  cases hr : rest.takeWhile isAsciiWs with
  | nil => simp
  | cons c w => simp [List.getLast?_append]

theorem drop_blank {l : Str} (h : l.all asciiWs) (rest : Str) :
    (l ++ '\n' :: rest).dropWhile isAsciiWs = rest.dropWhile isAsciiWs := by
  rw [(takeWhile_all (p := isAsciiWs) h _).2, List.dropWhile_cons, if_pos (by decide)]

theorem flag_line {l : Str} (hl : ¬ l.all asciiWs) (hn : '\n' ∉ l) (tail : Str) :
    flagOf (l ++ tail) = (l.takeWhile isAsciiWs == []) := by
  unfold flagOf
  rw [(takeWhile_not_all (p := isAsciiWs) hl tail).1]
  cases hw : l.takeWhile isAsciiWs with
  | nil => rfl
  | cons c w =>
    rw [if_neg (by simp)]
    rw [show (c :: w == []) = false from rfl, beq_eq_false_iff_ne]
    intro h
    apply hn
    have : '\n' ∈ l.takeWhile isAsciiWs := by rw [hw]; exact List.mem_of_getLast? h
    exact List.takeWhile_subset _ this

theorem places_line {cfg : Cfg} (hc : Clean cfg) {l : Str} (hl : ¬ l.all asciiWs) :
    Places cfg true (l.takeWhile isAsciiWs == []) (l.takeWhile isAsciiWs) (l.dropWhile isAsciiWs) := by
  refine places_fresh hc (all_takeWhile isAsciiWs l) ?_ ?_
  · intro c h
    have := List.head?_dropWhile_not isAsciiWs l
    rw [Option.mem_def.1 h] at this
    exact (by simpa using this : isAsciiWs c = false)
  · intro h
    apply hl
    have := (List.takeWhile_append_dropWhile (p := isAsciiWs) (l := l)).symm
    rw [h, List.append_nil] at this
    rw [this]
    exact all_takeWhile isAsciiWs l

theorem fresh_notFound {cfg : Cfg} (hc : Clean cfg) (n : Nat) (t : Str) (hlen : t.length ≤ n)
    (h : NotFound cfg (flagOf t) (t.dropWhile isAsciiWs)) :
    Recognised (checks cfg) (comments cfg) true (LexSpec.lines t) [] := by
  induction n generalizing t with
  | zero =>
    have : t = [] := by cases t <;> simp_all
    subst this
    exact .blank rfl .nil
  | succ n ih =>
    have hle := line_eol t
    have hn := line_no_nl t
    by_cases hb : (line t).all asciiWs
    · obtain he | ⟨rest, he⟩ := eol_cases t <;> rw [he] at hle
      · rw [hle, List.append_nil, lines_self hn]
        exact .blank hb .nil
      · rw [hle, lines_mid hn]
        rw [hle, flag_blank hb, drop_blank hb] at h
        refine .blank hb (ih rest ?_ h)
        have := congrArg List.length hle
        simp at this
        omega
    · rw [hle, flag_line hb hn, (takeWhile_not_all (p := isAsciiWs) hb _).2] at h
      have hp := places_line hc hb
      have hw : line t = (line t).takeWhile isAsciiWs ++ (line t).dropWhile isAsciiWs := (List.takeWhile_append_dropWhile).symm
      have ht : Tail (eol t) := eol_cases t
      obtain ⟨h1, h2⟩ := notFound_line hp (hw ▸ hn) ht h
      rw [← hw] at h1
      obtain he | ⟨rest, he⟩ := ht
      · rw [hle, he, List.append_nil, lines_self hn]
        exact .none (fun _ => hb) h1 .nil
      · rw [hle, he, lines_mid hn]
        exact .none (fun _ => hb) h1 (later_notFound _ rest (Nat.le_refl _) (h2 rest he))

theorem fresh_found {cfg : Cfg} (hc : Clean cfg) (n : Nat) (t a b : Str) (hlen : t.length ≤ n) (ho : OneLine t) {hit : Hit}
    (h : Found cfg (flagOf t) (t.dropWhile isAsciiWs) a b hit) {ds : List Directive} (hds : After cfg b ds) :
    Recognised (checks cfg) (comments cfg) true (LexSpec.lines t) (dirOf hit :: ds) := by
  have hnil : ∀ f, ¬ Found cfg f [] a b hit := by
    intro f h
    have he := h.eq
    obtain ⟨rfl, rfl⟩ := List.append_eq_nil_iff.1 he.symm
    have := h.hit
    rw [first_nil cfg hc] at this
    cases this
  induction n generalizing t with
  | zero =>
    have : t = [] := by cases t <;> simp_all
    subst this
    exact absurd h (hnil _)
  | succ n ih =>
    have hle := line_eol t
    have hn := line_no_nl t
    by_cases hb : (line t).all asciiWs
    · obtain he | ⟨rest, he⟩ := eol_cases t <;> rw [he] at hle
      · have h0 : t.dropWhile isAsciiWs = [] := by
          rw [hle, (takeWhile_all (p := isAsciiWs) hb []).2]
          rfl
        rw [h0] at h
        exact absurd h (hnil _)
      · rw [hle, lines_mid hn]
        rw [hle, flag_blank hb, drop_blank hb] at h
        refine .blank hb (ih rest ?_ ?_ h)
        · have := congrArg List.length hle
          simp at this
          omega
        · rw [hle] at ho
          exact OneLine.suffix (a := line t ++ ['\n']) (by simpa using ho)
    · rw [hle, flag_line hb hn, (takeWhile_not_all (p := isAsciiWs) hb _).2] at h
      have hp := places_line hc hb
      have hw : line t = (line t).takeWhile isAsciiWs ++ (line t).dropWhile isAsciiWs := (List.takeWhile_append_dropWhile).symm
      have ht : Tail (eol t) := eol_cases t
      have ho2 : OneLine ((line t).dropWhile isAsciiWs ++ eol t) := by
        apply OneLine.suffix (a := (line t).takeWhile isAsciiWs)
        rw [← List.append_assoc, ← hw, ← hle]
        exact ho
      obtain ⟨bl, hbl, hb2, hpl, hbg, hleast⟩ | ⟨rest, a2, htail, hF, hno⟩ := found_line hc ho2 hp (hw ▸ hn) ht h
      · rw [hbl, ← List.append_assoc] at hw
        have hbn : '\n' ∉ bl := fun hm => hn (by rw [hw]; simp [hm])
        have heb : eol b = eol t := by rw [hb2, eol_append hbn]; rcases ht with h0 | ⟨r, h0⟩ <;> rw [h0] <;> rfl
        obtain he | ⟨rest, he⟩ := ht
        · rw [hle, he, List.append_nil, lines_self hn]
          obtain ⟨-, rfl⟩ | ⟨r, h1, -⟩ := hds
          · rw [hw] at hb ⊢
            exact .some (fun _ => hb) hpl hbg hleast .nil
          · rw [heb, he] at h1; cases h1
        · rw [hle, he, lines_mid hn]
          obtain ⟨h1, -⟩ | ⟨r, h1, h2⟩ := hds
          · rw [heb, he] at h1; cases h1
          · rw [heb, he] at h1
            simp at h1
            subst h1
            rw [hw] at hb ⊢
            exact .some (fun _ => hb) hpl hbg hleast h2
      · rw [hle, htail, lines_mid hn]
        rw [htail] at hle
        rw [← hw] at hno
        refine .none (fun _ => hb) hno (later_found hc _ rest a2 b (Nat.le_refl _) ?_ hF hds)
        rw [hle] at ho
        exact OneLine.suffix (a := line t ++ ['\n']) (by simpa using ho)

/-! ## The tokens of the whole file -/

/-- The tokens of a directive. -/
def dirTokens (cfg : Cfg) (d : Directive) : List Lexed :=
  match d.head with
  | .comment => [.ok (.comment (stripSpace d.text))]
  | .kind k =>
    .ok (.check k) :: (List.replicate d.mods (.ok .modifier) ++ .ok .colon :: checkPattern cfg (d.mods != 0) d.text)
  | .count ds =>
    match parseU8 ds with
    | some n =>
      .ok (.check (.count n)) :: (List.replicate d.mods (.ok .modifier) ++ .ok .colon :: checkPattern cfg (d.mods != 0) d.text)
    | none => [.ok (.error .badCount)]

theorem directive_eq (cfg : Cfg) (h : Hit) : directive cfg h = dirTokens cfg (dirOf h) := by
  obtain ⟨ty, pfx, count, mods, comment, rest⟩ := h
  cases ty <;> rfl

/-- The tokens of a list of directives; `final` if there is a line feed after the last one. -/
def render (cfg : Cfg) (final : Bool) : List Directive → List Lexed
  | [] => []
  | [d] => dirTokens cfg d ++ if final then [.ok .lf] else []
  | d :: ds => dirTokens cfg d ++ .ok .lf :: render cfg final ds

/-- The prefixes of the checks among the directives. -/
def used (ds : List Directive) : List Str := (ds.filter fun d => d.head != .comment).map (·.pfx)

theorem found_rest {cfg : Cfg} (hc : Clean cfg) {flag : Bool} {r a b : Str} {h : Hit} (ho : OneLine r) (hf : Found cfg flag r a b h) :
    eol h.rest = eol b :=
  (first_sound hc (by have := hf.eq; rw [this] at ho; exact ho.suffix) hf.hit).2

theorem hit_comment (h : Hit) : (dirOf h).head = .comment ↔ h.ty = .comment := by
  obtain ⟨ty, pfx, count, mods, comment, rest⟩ := h
  cases ty <;> simp [dirOf]

theorem hit_pfx (h : Hit) : (dirOf h).pfx = h.pfx := by
  obtain ⟨ty, pfx, count, mods, comment, rest⟩ := h
  cases ty <;> rfl

theorem used_cons (h : Hit) (ds : List Directive) :
    used (dirOf h :: ds) = (if h.ty = .comment then [] else [h.pfx]) ++ used ds := by
  unfold used
  by_cases hc : h.ty = .comment
  · have := (hit_comment h).2 hc
    simp [this, hc]
  · have := mt (hit_comment h).1 hc
    simp [this, hc, hit_pfx]

theorem oneLine_drop {t : Str} (h : OneLine t) : OneLine (t.dropWhile isAsciiWs) := by
  apply OneLine.suffix (a := t.takeWhile isAsciiWs)
  rwa [List.takeWhile_append_dropWhile]

theorem search_length (cfg : Cfg) (hc : Clean cfg) {flag : Bool} {r : Str} (ho : OneLine r) {h : Hit}
    (hs : search cfg flag r = some h) : (eol h.rest).length < r.length := by
  have := search_spec cfg hc flag r ho
  rw [hs] at this
  obtain ⟨a, b, hF⟩ := this
  rw [found_rest hc ho hF]
  have hob : OneLine b := by have := hF.eq; rw [this] at ho; exact ho.suffix
  have hb := (first_sound hc hob hF.hit).1
  have h1 : line b ≠ [] := fun h0 => begins_nil (h0 ▸ hb)
  have h2 := congrArg List.length (line_eol b)
  have h3 := congrArg List.length hF.eq
  have h4 : 0 < (line b).length := List.length_pos_iff.2 h1
  simp at h2 h3
  omega

/-- After the white space at the front of a text before which a line ended, the lexer goes on as the specification says. -/
theorem step_spec {cfg : Cfg} (hc : Clean cfg) (t : Str) (ho : OneLine t) :
    match search cfg (flagOf t) (t.dropWhile isAsciiWs) with
    | none => Recognised (checks cfg) (comments cfg) true (LexSpec.lines t) []
    | some h => ∀ ds, After cfg (eol h.rest) ds → Recognised (checks cfg) (comments cfg) true (LexSpec.lines t) (dirOf h :: ds) := by
  have hs := search_spec cfg hc (flagOf t) _ (oneLine_drop ho)
  cases he : search cfg (flagOf t) (t.dropWhile isAsciiWs) with
  | none =>
    rw [he] at hs
    exact fresh_notFound hc _ t (Nat.le_refl _) hs
  | some h =>
    rw [he] at hs
    obtain ⟨a, b, hF⟩ := hs
    intro ds hds
    refine fresh_found hc _ t a b (Nat.le_refl _) ho hF ?_
    have h1 := found_rest hc (oneLine_drop ho) hF
    unfold After at hds ⊢
    rw [h1] at hds
    have : ∀ r, eol (eol r) = eol r := by
      intro r
      induction r with
      | nil => rfl
      | cons c r ih =>
        by_cases h : c = '\n'
        · subst h; rfl
        · rw [eol_cons h, ih]
    rwa [this] at hds

theorem tokens_after {cfg : Cfg} (hc : Clean cfg) (n : Nat) (rest : Str) (hn : ('\n' :: rest).length ≤ n) (ho : OneLine rest) :
    ∃ ds final, Recognised (checks cfg) (comments cfg) true (LexSpec.lines rest) ds ∧
      tokens cfg n false ('\n' :: rest) = (.ok .lf :: render cfg final ds, used ds) := by
  induction n generalizing rest with
  | zero => simp at hn
  | succ n ih =>
    have hstep := step_spec hc rest ho
    have hd : ('\n' :: rest).dropWhile isAsciiWs = rest.dropWhile isAsciiWs := drop_blank (l := []) rfl rest
    have hw : ('\n' :: rest).takeWhile isAsciiWs ≠ [] := by
      rw [List.takeWhile_cons, if_pos (by decide)]
      simp
    have hfl : (if ('\n' :: rest).takeWhile isAsciiWs = [] then false else (('\n' :: rest).takeWhile isAsciiWs).getLast? == some '\n') = flagOf rest := by
      rw [if_neg hw, ← flag_blank (l := []) rfl rest, List.nil_append]
      unfold flagOf
      rw [if_neg hw]
    rw [tokens.eq_def]
    dsimp only
    rw [if_neg (by decide), hfl, hd, if_pos rfl]
    cases hs : search cfg (flagOf rest) (rest.dropWhile isAsciiWs) with
    | none =>
      rw [hs] at hstep
      exact ⟨[], false, hstep, rfl⟩
    | some h =>
      rw [hs] at hstep
      dsimp only at hstep ⊢
      have hlt := search_length cfg hc (oneLine_drop ho) hs
      have hle : (rest.dropWhile isAsciiWs).length ≤ rest.length := (List.dropWhile_suffix _).length_le
      obtain he | ⟨r2, he⟩ := eol_cases h.rest
      · refine ⟨[dirOf h], false, hstep [] (.inl ⟨by rw [he]; rfl, rfl⟩), ?_⟩
        rw [show h.rest.dropWhile (· != '\n') = [] from he]
        cases n with
        | zero => simp at hn; subst hn; simp at hlt
        | succ n => simp [tokens, render, directive_eq, used_cons, show used [] = [] from rfl]
      · rw [show h.rest.dropWhile (· != '\n') = '\n' :: r2 from he]
        have hlen : ('\n' :: r2).length ≤ n := by
          have := congrArg List.length he
          simp at this hn ⊢
          omega
        have ho2 : OneLine r2 := by
          have hsp := search_spec cfg hc (flagOf rest) _ (oneLine_drop ho)
          rw [hs] at hsp
          obtain ⟨a, b, hF⟩ := hsp
          have h1 := found_rest hc (oneLine_drop ho) hF
          have h2 := oneLine_drop ho
          rw [hF.eq] at h2
          have h3 := h2.suffix
          rw [line_eol b, ← h1, he] at h3
          exact OneLine.suffix (a := ['\n']) h3.suffix
        obtain ⟨ds, final, h1, h2⟩ := ih r2 hlen ho2
        rw [h2]
        cases ds with
        | nil =>
          refine ⟨[dirOf h], true, hstep [] (.inr ⟨r2, by rw [he]; rfl, h1⟩), ?_⟩
          simp [render, directive_eq, used_cons]
        | cons d ds =>
          refine ⟨dirOf h :: d :: ds, final, hstep _ (.inr ⟨r2, by rw [he]; rfl, h1⟩), ?_⟩
          simp [render, directive_eq, used_cons]

theorem lex_spec {cfg : Cfg} (hc : Clean cfg) (text : Str) (ho : OneLine text) (h0 : text.head? ≠ some '\x00') :
    ∃ ds final pre, Recognised (checks cfg) (comments cfg) true (LexSpec.lines text) ds ∧ (pre = [] ∨ pre = [.ok .lf]) ∧
      lex cfg text = (pre ++ render cfg final ds, used ds) := by
  unfold lex
  cases text with
  | nil => exact ⟨[], false, [], .blank rfl .nil, .inl rfl, rfl⟩
  | cons c r =>
    have hstep := step_spec hc (c :: r) ho
    have hfl : (if (c :: r).takeWhile isAsciiWs = [] then true else ((c :: r).takeWhile isAsciiWs).getLast? == some '\n') = flagOf (c :: r) := rfl
    rw [tokens.eq_def]
    dsimp only
    rw [if_neg (by simpa using h0), hfl]
    have hpre : ∀ x : List Lexed, x = (if c = '\n' then [Lexed.ok .lf] else []) → (x = [] ∨ x = [.ok .lf]) := by
      rintro x rfl
      split <;> simp
    cases hs : search cfg (flagOf (c :: r)) ((c :: r).dropWhile isAsciiWs) with
    | none =>
      rw [hs] at hstep
      exact ⟨[], false, _, hstep, hpre _ rfl, by simp [render, used]⟩
    | some h =>
      rw [hs] at hstep
      dsimp only at hstep ⊢
      have hlt := search_length cfg hc (oneLine_drop ho) hs
      have hle : ((c :: r).dropWhile isAsciiWs).length ≤ (c :: r).length := (List.dropWhile_suffix _).length_le
      obtain he | ⟨r2, he⟩ := eol_cases h.rest
      · refine ⟨[dirOf h], false, _, hstep [] (.inl ⟨by rw [he]; rfl, rfl⟩), hpre _ rfl, ?_⟩
        rw [show h.rest.dropWhile (· != '\n') = [] from he]
        simp [tokens, render, directive_eq, used_cons, show used [] = [] from rfl]
      · rw [show h.rest.dropWhile (· != '\n') = '\n' :: r2 from he]
        have hlen : ('\n' :: r2).length ≤ (c :: r).length := by
          have := congrArg List.length he
          simp at this hle ⊢
          omega
        have ho2 : OneLine r2 := by
          have hsp := search_spec cfg hc (flagOf (c :: r)) _ (oneLine_drop ho)
          rw [hs] at hsp
          obtain ⟨a, b, hF⟩ := hsp
          have h1 := found_rest hc (oneLine_drop ho) hF
          have h2 := oneLine_drop ho
          rw [hF.eq] at h2
          have h3 := h2.suffix
          rw [line_eol b, ← h1, he] at h3
          exact OneLine.suffix (a := ['\n']) h3.suffix
        obtain ⟨ds, final, h1, h2⟩ := tokens_after hc _ r2 hlen ho2
        rw [h2]
        cases ds with
        | nil =>
          refine ⟨[dirOf h], true, _, hstep [] (.inr ⟨r2, by rw [he]; rfl, h1⟩), hpre _ rfl, ?_⟩
          simp [render, directive_eq, used_cons]
        | cons d ds =>
          refine ⟨dirOf h :: d :: ds, final, _, hstep _ (.inr ⟨r2, by rw [he]; rfl, h1⟩), hpre _ rfl, ?_⟩
          simp [render, directive_eq, used_cons]

end Litcheck.Lex
