import Verif.Spec.Cli
import Verif.Props.Number
import Verif.Proofs.Grammar
import Mathlib.Data.List.TakeWhile

/-!
# Definitions on the command line: reading them
-/

namespace Litcheck.Cli
open Litcheck.CliSpec Litcheck.Spec
open Litcheck.Lex (Expr VarName Op Token)

theorem isDec_iff' (c : Char) : c.isDigit = true ↔ IsDec c := by
  simp only [IsDec, Char.isDigit, Bool.and_eq_true, decide_eq_true_eq]
  exact Iff.rfl

theorem letter_iff (c : Char) : c.isAlpha = true ↔ Letter c := by
  simp only [Letter, Char.isAlpha, Char.isUpper, Char.isLower, Bool.or_eq_true, Bool.and_eq_true, decide_eq_true_eq]
  constructor
  · rintro (h | h)
    · exact .inr h
    · exact .inl h
  · rintro (h | h)
    · exact .inr h
    · exact .inl h

theorem nameStart_iff (c : Char) : nameStart c = true ↔ c = '_' ∨ Letter c := by
  simp [nameStart, letter_iff]

theorem nameChar_iff (c : Char) : nameChar c = true ↔ NameChar c := by
  simp [nameChar, NameChar, Char.isAlphanum, letter_iff, isDec_iff']

theorem validName_iff (s : Str) : validName s = true ↔ IsName s := by
  cases s with
  | nil => simp [validName, IsName]
  | cons c cs =>
    simp only [validName, Bool.and_eq_true, nameStart_iff, List.all_eq_true, nameChar_iff, IsName]
    constructor
    · rintro ⟨h1, h2⟩; exact ⟨c, cs, rfl, h1, h2⟩
    · rintro ⟨c', cs', h, h1, h2⟩
      cases h; exact ⟨h1, h2⟩

theorem splitEq_iff (s k v : Str) : splitEq s = some (k, v) ↔ s = k ++ '=' :: v ∧ '=' ∉ k := by
  induction s generalizing k with
  | nil => simp [splitEq]
  | cons c cs ih =>
    simp only [splitEq]
    by_cases hc : c = '='
    · subst hc
      rw [if_pos (by decide)]
      constructor
      · intro h; cases h; simp
      · rintro ⟨h1, h2⟩
        cases k with
        | nil => simp_all
        | cons d k => simp at h1 h2; simp_all
    · rw [if_neg (by simpa using hc)]
      constructor
      · intro h
        cases h' : splitEq cs with
        | none => rw [h'] at h; simp at h
        | some x =>
          rw [h'] at h
          simp only [Option.map_some, Option.some.injEq, Prod.mk.injEq] at h
          obtain ⟨h1, h2⟩ := (ih x.1).1 (by rw [h', ← h.2])
          rw [← h.1, h1]
          refine ⟨rfl, ?_⟩
          simp only [List.mem_cons, not_or]
          exact ⟨fun e => hc e.symm, h2⟩
      · rintro ⟨h1, h2⟩
        cases k with
        | nil => simp only [List.nil_append, List.cons.injEq] at h1; exact absurd h1.1 hc
        | cons d k =>
          simp only [List.cons_append, List.cons.injEq, List.mem_cons, not_or] at h1 h2
          rw [(ih k).2 ⟨h1.2, h2.2⟩, h1.1]
          rfl

theorem name_noEq {s : Str} (h : IsName s) : '=' ∉ s := by
  obtain ⟨c, cs, rfl, h1, h2⟩ := h
  simp only [List.mem_cons, not_or]
  refine ⟨?_, fun hm => ?_⟩
  · rintro rfl
    exact absurd ((nameStart_iff '=').2 h1) (by decide)
  · exact absurd ((nameChar_iff '=').2 (h2 _ hm)) (by decide)

theorem textVar_iff (s k v : Str) : textVar s = some (k, v) ↔ IsName k ∧ s = k ++ '=' :: v := by
  unfold textVar
  constructor
  · intro h
    cases h' : splitEq s with
    | none => rw [h'] at h; simp at h
    | some x =>
      rw [h'] at h
      dsimp only at h
      split at h
      · simp at h
      · split at h
        · rename_i h1 h2
          simp only [Option.some.injEq, Prod.mk.injEq] at h
          obtain ⟨rfl, rfl⟩ := h
          exact ⟨(validName_iff _).1 h2, ((splitEq_iff _ _ _).1 h').1⟩
        · simp at h
  · rintro ⟨h1, h2⟩
    rw [(splitEq_iff s k v).2 ⟨h2, name_noEq h1⟩]
    dsimp only
    rw [if_neg (by obtain ⟨c, cs, rfl, -⟩ := h1; simp), if_pos ((validName_iff _).2 h1)]

/-! ## Tokens -/

theorem fromStrRadix_digits {ds : Str} (h0 : ds ≠ []) (h : ∀ c ∈ ds, IsDec c) :
    Num.fromStrRadix 10 ds = if positional 10 ds < 2 ^ 127 then some (positional 10 ds : Int) else none := by
  have hr := readDigits_positional (limit := Num.i128Max) (by omega) ds (fun c hc => toDigit_dec (h c hc)) 0 (Nat.zero_le _)
  have he : Num.fromStrRadix 10 ds = (Num.readDigits 10 Num.i128Max ds 0).map Int.ofNat := by
    unfold Num.fromStrRadix
    split
    · exact absurd rfl h0
    · exact absurd ((isDec_iff' '+').2 (h _ (by simp))) (by decide)
    · exact absurd ((isDec_iff' '-').2 (h _ (by simp))) (by decide)
    · exact absurd ((isDec_iff' '+').2 (h _ (by simp))) (by decide)
    · exact absurd ((isDec_iff' '-').2 (h _ (by simp))) (by decide)
    · rfl
  rw [he, hr]
  simp only [Nat.zero_mul, Nat.zero_add, Num.i128Max]
  by_cases hl : positional 10 ds < 2 ^ 127
  · rw [if_pos (by omega), if_pos hl]; rfl
  · rw [if_neg (by omega), if_neg hl]; rfl

theorem fromStrRadix_neg {ds : Str} (h0 : ds ≠ []) (h : ∀ c ∈ ds, IsDec c) :
    Num.fromStrRadix 10 ('-' :: ds) = if positional 10 ds ≤ 2 ^ 127 then some (-(positional 10 ds : Int)) else none := by
  have hr := readDigits_positional (limit := Num.i128Max + 1) (by omega) ds (fun c hc => toDigit_dec (h c hc)) 0 (Nat.zero_le _)
  have he : Num.fromStrRadix 10 ('-' :: ds) = (Num.readDigits 10 (Num.i128Max + 1) ds 0).map fun n => -(n : Int) := by
    cases ds with
    | nil => exact absurd rfl h0
    | cons c cs => rfl
  rw [he, hr]
  simp only [Nat.zero_mul, Nat.zero_add, Num.i128Max]
  by_cases hl : positional 10 ds ≤ 2 ^ 127
  · rw [if_pos (by omega), if_pos hl]; rfl
  · rw [if_neg (by omega), if_neg hl]; rfl

theorem takeWhile_stop {p : Char → Bool} {w r : Str} (hw : ∀ c ∈ w, p c = true) (hr : ∀ c r', r = c :: r' → p c = false) :
    (w ++ r).takeWhile p = w ∧ (w ++ r).dropWhile p = r := by
  induction w with
  | nil =>
    cases r with
    | nil => simp
    | cons c r => simp [hr c r rfl]
  | cons c w ih =>
    have := ih (fun c hc => hw c (by simp [hc]))
    simp [hw c (by simp), this]

theorem dropWhile_head {p : Char → Bool} {s : Str} : ∀ c r', s.dropWhile p = c :: r' → p c = false := by
  induction s with
  | nil => simp
  | cons d s ih =>
    intro c r' h
    by_cases hd : p d = true
    · rw [List.dropWhile_cons_of_pos hd] at h; exact ih c r' h
    · rw [List.dropWhile_cons_of_neg hd] at h
      cases h; simpa using hd

theorem word_spells {w : Str} (h : IsName w) : Spells w (.tok (word w)) := by
  unfold word
  repeat' split
  · exact .function (by simp_all [functions])
  · exact .function (by simp_all [functions])
  · exact .function (by simp_all [functions])
  · exact .function (by simp_all [functions])
  · exact .function (by simp_all [functions])
  · exact .function (by simp_all [functions])
  · refine .name h ?_
    intro o ho
    simp_all [functions]

theorem word_cases (w : Str) : (∃ o, word w = .op o) ∨ word w = .ident w := by
  unfold word
  repeat' split
  all_goals simp

theorem punct_sign {c : Char} {t : Token} (h : punct c = some t) : ([c], .tok t) ∈ signs ∧ ∀ d, Ends (.tok t) d := by
  unfold punct at h
  split at h <;> first | (cases h; exact ⟨by simp [signs], fun _ => trivial⟩) | simp at h

theorem lexOne_sound {c : Char} {r : Str} {t : Tok} {r2 : Str} (h : lexOne c r = some (t, r2)) :
    ∃ w, c :: r = w ++ r2 ∧ Spells w t ∧ (∀ d r', r2 = d :: r' → Ends t d) := by
  unfold lexOne at h
  split at h
  · rename_i hc
    obtain rfl : c = '=' := by simpa using hc
    split at h
    · cases h
      exact ⟨['=', '='], rfl, .sign (by simp [signs]), fun _ _ _ => trivial⟩
    · rename_i hne
      cases h
      refine ⟨['='], rfl, .sign (by simp [signs]), fun d r' e => ?_⟩
      rintro rfl
      exact hne _ e
  · split at h
    · rename_i hc
      obtain rfl : c = '-' := by simpa using hc
      split at h
      · rename_i he
        cases h
        refine ⟨['-'], rfl, .sign (by simp [signs]), fun d r' e => ?_⟩
        subst e
        intro hd
        rw [List.takeWhile_cons_of_pos ((isDec_iff' d).2 hd)] at he
        simp at he
      · rename_i he
        have h0 : r.takeWhile Char.isDigit ≠ [] := by simpa using he
        have hd : ∀ x ∈ r.takeWhile Char.isDigit, IsDec x := fun x hx => (isDec_iff' x).1 (List.mem_takeWhile_imp hx)
        rw [fromStrRadix_neg h0 hd] at h
        split at h
        · rename_i hl
          simp only [Option.map_some, Option.some.injEq, Prod.mk.injEq] at h
          obtain ⟨rfl, rfl⟩ := h
          refine ⟨'-' :: r.takeWhile Char.isDigit, by simp, .negative h0 hd hl, fun d r' e hd => ?_⟩
          have := dropWhile_head d r' e
          rw [(isDec_iff' d).2 hd] at this
          cases this
        · simp at h
    · split at h
      · rename_i hc
        have h0 : c :: r.takeWhile Char.isDigit ≠ [] := by simp
        have hd : ∀ x ∈ c :: r.takeWhile Char.isDigit, IsDec x := by
          intro x hx
          rcases List.mem_cons.1 hx with rfl | hx
          · exact (isDec_iff' _).1 hc
          · exact (isDec_iff' x).1 (List.mem_takeWhile_imp hx)
        rw [fromStrRadix_digits h0 hd] at h
        split at h
        · rename_i hl
          simp only [Option.map_some, Option.some.injEq, Prod.mk.injEq] at h
          obtain ⟨rfl, rfl⟩ := h
          refine ⟨c :: r.takeWhile Char.isDigit, by simp, .number h0 hd hl, fun d r' e hd => ?_⟩
          have := dropWhile_head d r' e
          rw [(isDec_iff' d).2 hd] at this
          cases this
        · simp at h
      · split at h
        · rename_i hc
          simp only [Option.some.injEq, Prod.mk.injEq] at h
          obtain ⟨rfl, rfl⟩ := h
          have hn : IsName (c :: r.takeWhile nameChar) :=
            ⟨c, _, rfl, (nameStart_iff c).1 hc, fun d hd => (nameChar_iff d).1 (List.mem_takeWhile_imp hd)⟩
          refine ⟨c :: r.takeWhile nameChar, by simp, word_spells hn, fun d r' e => ?_⟩
          have hd : ¬ NameChar d := fun hd => by
            have := dropWhile_head d r' e
            rw [(nameChar_iff d).2 hd] at this
            cases this
          rcases word_cases (c :: r.takeWhile nameChar) with ⟨o, ho⟩ | ho <;> rw [ho] <;> exact hd
        · cases hp : punct c with
          | none => rw [hp] at h; simp at h
          | some t' =>
            rw [hp] at h
            simp only [Option.map_some, Option.some.injEq, Prod.mk.injEq] at h
            obtain ⟨rfl, rfl⟩ := h
            obtain ⟨h1, h2⟩ := punct_sign hp
            exact ⟨[c], rfl, .sign h1, fun d _ _ => h2 d⟩

theorem word_name {w : Str} (h : ∀ o, (w, o) ∉ functions) : word w = .ident w := by
  unfold word
  have h1 := h .add; have h2 := h .sub; have h3 := h .mul; have h4 := h .div; have h5 := h .min; have h6 := h .max
  simp only [functions, List.mem_cons, Prod.mk.injEq, and_true, reduceCtorEq, and_false, or_false, false_or, List.not_mem_nil] at h1 h2 h3 h4 h5 h6
  rw [if_neg h1, if_neg h2, if_neg h3, if_neg h4, if_neg h5, if_neg h6]

theorem word_function {w : Str} {o : Op} (h : (w, o) ∈ functions) : word w = .op o ∧ IsName w := by
  simp only [functions, List.mem_cons, Prod.mk.injEq, List.not_mem_nil, or_false] at h
  rcases h with h | h | h | h | h | h <;> obtain ⟨rfl, rfl⟩ := h <;> exact ⟨by decide, (validName_iff _).1 (by decide)⟩

theorem notDigit {c : Char} (h : c = '_' ∨ Letter c) : c.isDigit = false ∧ c ≠ '=' ∧ c ≠ '-' ∧ c ≠ ' ' ∧ c ≠ '\t' := by
  refine ⟨?_, ?_, ?_, ?_, ?_⟩
  · rcases h with rfl | h
    · decide
    · by_contra hd
      have hd : IsDec c := (isDec_iff' c).1 (by simpa using hd)
      obtain ⟨h1, h2⟩ := hd
      rcases h with h | h
      all_goals
        have h3 := h.1
        rw [char_le] at h2 h3
        exact absurd (Nat.le_trans h3 h2) (by decide)
  all_goals
    rintro rfl
    exact absurd ((nameStart_iff _).2 h) (by decide)

theorem lexOne_word {w r : Str} (h : IsName w) (hr : ∀ d r', r = d :: r' → ¬ NameChar d) :
    ∃ c w', w = c :: w' ∧ (c == ' ' || c == '\t') = false ∧ lexOne c (w' ++ r) = some (.tok (word w), r) := by
  obtain ⟨c, w', rfl, h1, h2⟩ := h
  obtain ⟨a1, a2, a3, a4, a5⟩ := notDigit h1
  refine ⟨c, w', rfl, by simp [a4, a5], ?_⟩
  obtain ⟨b1, b2⟩ := takeWhile_stop (p := nameChar) (w := w') (r := r) (fun d hd => (nameChar_iff d).2 (h2 d hd))
    (fun d r' e => by
      have := hr d r' e
      rw [← nameChar_iff] at this
      simpa using this)
  unfold lexOne
  rw [if_neg (by simpa using a2), if_neg (by simpa using a3), if_neg (by simp [a1]), if_pos ((nameStart_iff c).2 h1), b1, b2]

theorem lexOne_complete {w r : Str} {t : Tok} (h : Spells w t) (hr : ∀ d r', r = d :: r' → Ends t d) :
    ∃ c w', w = c :: w' ∧ (c == ' ' || c == '\t') = false ∧ lexOne c (w' ++ r) = some (t, r) := by
  cases h with
  | name h1 h2 =>
    obtain ⟨c, w', e, h3, h4⟩ := lexOne_word (r := r) h1 (fun d r' e => hr d r' e)
    rw [word_name h2] at h4
    exact ⟨c, w', e, h3, h4⟩
  | function h =>
    obtain ⟨h1, h2⟩ := word_function h
    obtain ⟨c, w', e, h3, h4⟩ := lexOne_word (r := r) h2 (fun d r' e => hr d r' e)
    rw [h1] at h4
    exact ⟨c, w', e, h3, h4⟩
  | number h0 hd hl =>
    cases w with
    | nil => exact absurd rfl h0
    | cons c cs =>
      have hc : c.isDigit = true := (isDec_iff' c).2 (hd c (by simp))
      have a2 : c ≠ '=' := by rintro rfl; exact absurd hc (by decide)
      have a3 : c ≠ '-' := by rintro rfl; exact absurd hc (by decide)
      have a4 : c ≠ ' ' := by rintro rfl; exact absurd hc (by decide)
      have a5 : c ≠ '\t' := by rintro rfl; exact absurd hc (by decide)
      refine ⟨c, cs, rfl, by simp [a4, a5], ?_⟩
      obtain ⟨b1, b2⟩ := takeWhile_stop (p := Char.isDigit) (w := cs) (r := r) (fun d hd' => (isDec_iff' d).2 (hd d (by simp [hd'])))
        (fun d r' e => by
          have : ¬ IsDec d := hr d r' e
          rw [← isDec_iff'] at this
          simpa using this)
      unfold lexOne
      rw [if_neg (by simpa using a2), if_neg (by simpa using a3), if_pos hc, b1, b2, fromStrRadix_digits h0 hd, if_pos hl]
      rfl
  | @negative ds h0 hd hl =>
    refine ⟨'-', ds, rfl, by decide, ?_⟩
    obtain ⟨b1, b2⟩ := takeWhile_stop (p := Char.isDigit) (w := ds) (r := r) (fun d hd' => (isDec_iff' d).2 (hd d hd'))
      (fun d r' e => by
        have : ¬ IsDec d := hr d r' e
        rw [← isDec_iff'] at this
        simpa using this)
    unfold lexOne
    rw [if_neg (by decide), if_pos (by decide), b1, if_neg (by simpa using h0), b2, fromStrRadix_neg h0 hd, if_pos hl]
    rfl
  | sign h =>
    simp only [signs, List.mem_cons, Prod.mk.injEq, List.not_mem_nil, or_false] at h
    rcases h with h | h | h | h | h | h | h | h | h | h | h | h | h <;> obtain ⟨rfl, rfl⟩ := h
    all_goals first
      | exact ⟨_, [], rfl, by decide, rfl⟩
      | exact ⟨_, ['='], rfl, by decide, rfl⟩
      | skip
    · refine ⟨_, [], rfl, by decide, ?_⟩
      simp only [List.nil_append]
      unfold lexOne
      rw [if_neg (by decide), if_pos (by decide), if_pos]
      cases r with
      | nil => rfl
      | cons d r' =>
        have : ¬ IsDec d := hr d r' rfl
        rw [← isDec_iff'] at this
        rw [List.takeWhile_cons_of_neg this]
        rfl
    · refine ⟨_, [], rfl, by decide, ?_⟩
      simp only [List.nil_append]
      unfold lexOne
      rw [if_pos (by decide)]
      split
      · exact absurd rfl (hr _ _ rfl)
      · rfl

theorem written_blank {c : Char} {s : Str} {ts : List Tok} (hc : c = ' ' ∨ c = '\t') (h : Written s ts) : Written (c :: s) ts := by
  cases h with
  | done h => exact .done (by intro d hd; rcases List.mem_cons.1 hd with rfl | hd; exacts [hc, h d hd])
  | @token ws w r t ts h1 h2 h3 h4 =>
    exact .token (ws := c :: ws) (by intro d hd; rcases List.mem_cons.1 hd with rfl | hd; exacts [hc, h1 d hd]) h2 h3 h4

theorem lex_sound : ∀ (n : Nat) (s : Str) (ts : List Tok), lex n s = some ts → Written s ts
  | _, [], ts, h => by
    rw [lex] at h; cases h
    exact .done (by intro c hc; simp at hc)
  | 0, _ :: _, _, h => by simp [lex] at h
  | n + 1, c :: r, ts, h => by
    rw [lex] at h
    split at h
    · rename_i hc
      exact written_blank (by simpa using hc) (lex_sound n r ts h)
    · cases h1 : lexOne c r with
      | none => rw [h1] at h; simp at h
      | some x =>
        rw [h1] at h
        dsimp only at h
        cases h2 : lex n x.2 with
        | none => rw [h2] at h; simp at h
        | some ts' =>
          rw [h2] at h
          simp only [Option.map_some, Option.some.injEq] at h
          subst h
          obtain ⟨w, e, h3, h4⟩ := lexOne_sound (t := x.1) (r2 := x.2) h1
          rw [e]
          exact .token (ws := []) (by intro c hc; simp at hc) h3 h4 (lex_sound n _ _ h2)

theorem lex_blank {ws s : Str} (hw : Blank ws) : ∀ {n : Nat}, ws.length ≤ n → lex n (ws ++ s) = lex (n - ws.length) s := by
  induction ws with
  | nil => intro n _; rfl
  | cons c ws ih =>
    intro n hn
    cases n with
    | zero => simp at hn
    | succ n =>
      have hc : (c == ' ' || c == '\t') = true := by simpa using hw c (by simp)
      rw [List.cons_append, lex, if_pos hc, ih (fun d hd => hw d (by simp [hd])) (by simpa using hn)]
      congr 1
      simp

theorem lex_complete {s : Str} {ts : List Tok} (h : Written s ts) : ∀ n, s.length ≤ n → lex n s = some ts := by
  induction h with
  | @done ws h =>
    intro n hn
    have := lex_blank (s := []) h hn
    rw [List.append_nil] at this
    rw [this]
    unfold lex
    rfl
  | @token ws w r t ts h1 h2 h3 _ ih =>
    intro n hn
    simp only [List.length_append] at hn
    obtain ⟨c, w', rfl, hb, hl⟩ := lexOne_complete h2 h3
    rw [lex_blank h1 (by omega), List.cons_append]
    obtain ⟨m, hm⟩ : ∃ m, n - ws.length = m + 1 := ⟨n - ws.length - 1, by simp only [List.length_cons] at hn; omega⟩
    rw [hm, lex, if_neg (by simp [hb]), hl]
    dsimp only
    rw [ih m (by simp only [List.length_cons] at hn; omega)]
    rfl

theorem lex_iff (s : Str) (ts : List Tok) : lex s.length s = some ts ↔ Written s ts :=
  ⟨lex_sound _ _ _, fun h => lex_complete h _ (Nat.le_refl _)⟩

/-! ## Definitions -/

theorem plainToks_iff (ts : List Tok) (us : List Token) : plainToks ts = some us ↔ ts = us.map .tok := by
  induction ts generalizing us with
  | nil => cases us <;> simp [plainToks]
  | cons t ts ih =>
    cases t with
    | eq => cases us <;> simp [plainToks]
    | tok t =>
      simp only [plainToks]
      cases h : plainToks ts with
      | none =>
        simp only [Option.map_none, reduceCtorEq, false_iff]
        intro he
        cases us with
        | nil => simp at he
        | cons u us =>
          simp only [List.map_cons, List.cons.injEq] at he
          rw [(ih us).2 he.2] at h
          cases h
      | some vs =>
        have := (ih vs).1 h
        cases us with
        | nil => simp
        | cons u us =>
          simp only [Option.map_some, Option.some.injEq, List.cons.injEq, List.map_cons, Tok.tok.injEq, and_congr_right_iff]
          intro _
          constructor
          · rintro rfl; exact this
          · intro he; rw [(ih us).2 he] at h; cases h; rfl

theorem nameEq_iff (ts : List Tok) (x : Str) (e : Expr) :
    nameEq ts = some (x, e) ↔ ∃ us, Lex.G.IsExpr us e ∧ ts = .tok (.ident x) :: .eq :: us.map .tok := by
  constructor
  · intro h
    unfold nameEq at h
    split at h
    · rename_i s r
      cases h1 : plainToks r with
      | none => rw [h1] at h; simp at h
      | some us =>
        rw [h1] at h
        simp only [Option.bind_some] at h
        cases h2 : Lex.pWhole us with
        | none => rw [h2] at h; simp at h
        | some e' =>
          rw [h2] at h
          simp only [Option.map_some, Option.some.injEq, Prod.mk.injEq] at h
          obtain ⟨rfl, rfl⟩ := h
          exact ⟨us, (Lex.pWhole_iff _ _).1 h2, by rw [(plainToks_iff _ _).1 h1]⟩
    · simp at h
  · rintro ⟨us, h1, rfl⟩
    simp only [nameEq]
    rw [(plainToks_iff _ _).2 rfl]
    simp only [Option.bind_some]
    rw [(Lex.pWhole_iff _ _).2 h1]
    rfl

theorem specOk_iff (s : Str) : specOk s = true ↔ ∃ c, (c = 'u' ∨ c = 'd' ∨ c = 'x' ∨ c = 'X') ∧ s = [c] := by
  simp only [specOk, Bool.or_eq_true, beq_iff_eq]
  constructor
  · rintro (((h | h) | h) | h) <;> subst h <;> simp
  · rintro ⟨c, h, rfl⟩
    rcases h with h | h | h | h <;> subst h <;> simp

theorem spec_iff (ts out : List Tok) : (match some ts with
      | some (.tok (.ident s) :: r) => if specOk s then some r else none
      | some r => some r
      | none => none) = some out ↔
    (∃ s, (s = [] ∨ ∃ c, (c = 'u' ∨ c = 'd' ∨ c = 'x' ∨ c = 'X') ∧ s = [.tok (.ident [c])]) ∧ ts = s ++ out ∧
      (s = [] → ∀ w r, out ≠ .tok (.ident w) :: r)) := by
  constructor
  · intro h
    split at h
    · rename_i s r heq
      cases heq
      split at h
      · rename_i hs
        cases h
        obtain ⟨c, hc, rfl⟩ := (specOk_iff s).1 hs
        exact ⟨[.tok (.ident [c])], .inr ⟨c, hc, rfl⟩, rfl, by simp⟩
      · cases h
    · rename_i r hne heq
      cases heq; cases h
      exact ⟨[], .inl rfl, rfl, fun _ w r e => by subst e; exact hne w r rfl⟩
    · rename_i heq; cases heq
  · rintro ⟨s, hs | ⟨c, hc, hs⟩, rfl, hn⟩
    · subst hs
      rw [List.nil_append]
      split
      · rename_i s r heq
        cases heq
        exact absurd rfl (hn rfl s r)
      · rename_i heq; exact heq.symm
      · rename_i heq; cases heq
    · subst hs
      simp only [List.cons_append, List.nil_append]
      rw [if_pos ((specOk_iff _).2 ⟨c, hc, rfl⟩)]

theorem skipFormat_iff (ts out : List Tok) (ho : ∃ r, out = .tok .comma :: r) :
    skipFormat ts = some out ↔ ∃ fs, Format fs ∧ ts = fs ++ out := by
  obtain ⟨o, rfl⟩ := ho
  let mid (ts : List Tok) : Option (List Tok) := match ts with
    | .tok .dot :: .tok (.num n) :: r => if 0 ≤ n ∧ n ≤ 255 then some r else none
    | .tok .dot :: _ => none
    | r => some r
  let fin (ts : Option (List Tok)) : Option (List Tok) := match ts with
    | some (.tok (.ident s) :: r) => if specOk s then some r else none
    | some r => some r
    | none => none
  have e1 : ∀ r, skipFormat (.tok .hash :: r) = fin (mid r) := fun _ => rfl
  have e2 : ∀ r, (∀ r', r ≠ .tok .hash :: r') → skipFormat r = fin (mid r) := by
    intro r hr
    unfold skipFormat
    split
    · exact absurd rfl (hr _)
    · rfl
  have hmid : ∀ r, fin (mid r) = some (.tok .comma :: o) ↔ ∃ p s, Precision p ∧
      (s = [] ∨ ∃ c, (c = 'u' ∨ c = 'd' ∨ c = 'x' ∨ c = 'X') ∧ s = [.tok (.ident [c])]) ∧ r = p ++ (s ++ .tok .comma :: o) := by
    intro r
    constructor
    · intro h
      have hm : ∃ r', mid r = some r' := by
        cases hm : mid r with
        | none => rw [hm] at h; cases h
        | some r' => exact ⟨r', rfl⟩
      obtain ⟨r', hm⟩ := hm
      rw [hm] at h
      obtain ⟨s, hs, rfl, -⟩ := (spec_iff _ _).1 h
      dsimp only [mid] at hm
      split at hm
      · rename_i n r2
        split at hm
        · rename_i hn
          cases hm
          refine ⟨_, s, Precision.some (n := n.toNat) (by omega), hs, ?_⟩
          rw [Int.toNat_of_nonneg hn.1]
          rfl
        · cases hm
      · cases hm
      · cases hm
        exact ⟨[], s, .none, hs, rfl⟩
    · rintro ⟨p, s, hp, hs, rfl⟩
      have hf : fin (some (s ++ .tok .comma :: o)) = some (.tok .comma :: o) :=
        (spec_iff _ _).2 ⟨s, hs, rfl, fun _ w r => by simp⟩
      cases hp with
      | some hn =>
        rename_i n
        have : mid ([.tok .dot, .tok (.num (n : Int))] ++ (s ++ .tok .comma :: o)) = some (s ++ .tok .comma :: o) := by
          dsimp only [mid, List.cons_append, List.nil_append]
          rw [if_pos (by omega)]
        rw [this, hf]
      | none =>
        have : mid ([] ++ (s ++ .tok .comma :: o)) = some (s ++ .tok .comma :: o) := by
          rcases hs with hs | ⟨c, -, hs⟩ <;> subst hs <;> rfl
        rw [this, hf]
  constructor
  · intro h
    by_cases hh : ∃ r', ts = .tok .hash :: r'
    · obtain ⟨r', rfl⟩ := hh
      rw [e1] at h
      obtain ⟨p, s, hp, hs, rfl⟩ := (hmid _).1 h
      exact ⟨[.tok .hash] ++ (p ++ s), ⟨_, p, s, rfl, .inr rfl, hp, hs⟩, by simp⟩
    · rw [e2 ts (fun r' e => hh ⟨r', e⟩)] at h
      obtain ⟨p, s, hp, hs, rfl⟩ := (hmid _).1 h
      exact ⟨[] ++ (p ++ s), ⟨_, p, s, rfl, .inl rfl, hp, hs⟩, by simp⟩
  · rintro ⟨fs, ⟨h, p, s, rfl, hh, hp, hs⟩, rfl⟩
    rcases hh with hh | hh
    · subst hh
      rw [e2]
      · exact (hmid _).2 ⟨p, s, hp, hs, by simp⟩
      · intro r' e
        cases hp <;> rcases hs with hs | ⟨c, -, hs⟩ <;> subst hs <;> simp at e
    · subst hh
      have := e1 (p ++ s ++ .tok .comma :: o)
      rw [show ([Tok.tok .hash] ++ (p ++ s) ++ .tok .comma :: o) = .tok .hash :: (p ++ s ++ .tok .comma :: o) from by simp, this]
      exact (hmid _).2 ⟨p, s, hp, hs, by simp⟩

theorem numericVar_iff (ts : List Tok) (x : Str) (e : Expr) : numericVar ts = some (x, e) ↔ IsDef ts x e := by
  constructor
  · intro h
    unfold numericVar at h
    split at h
    · rename_i r
      split at h
      · rename_i r2 h2
        obtain ⟨fs, hf, rfl⟩ := (skipFormat_iff _ _ ⟨_, rfl⟩).1 h2
        obtain ⟨us, hu, rfl⟩ := (nameEq_iff _ _ _).1 h
        exact .format hf hu
      · cases h
    · obtain ⟨us, hu, rfl⟩ := (nameEq_iff _ _ _).1 h
      exact .plain hu
    · cases h
  · intro h
    cases h with
    | plain hu =>
      unfold numericVar
      split
      · rename_i heq; simp at heq
      · rename_i heq
        cases heq
        exact (nameEq_iff _ _ _).2 ⟨_, hu, rfl⟩
      · rename_i hn; exact absurd rfl (hn _)
    | @format fs _ us _ hf hu =>
      simp only [numericVar]
      rw [(skipFormat_iff _ (.tok .comma :: .tok (.ident x) :: .eq :: us.map .tok) ⟨_, rfl⟩).2 ⟨fs, hf, rfl⟩]
      exact (nameEq_iff _ _ _).2 ⟨_, hu, rfl⟩

end Litcheck.Cli
