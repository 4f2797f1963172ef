import Verif.Proofs.Unambiguous
import Verif.Spec.NumericText

/-! # Numeric expressions are read as they are written -/

namespace Litcheck.Lex

open LexSpec

theorem blank_ws {c : Char} (h : c = ' ' ∨ c = '\t') : asciiWs c = true := by
  obtain rfl | rfl := h <;> decide

theorem blank_word {c : Char} (h : c = ' ' ∨ c = '\t') : wordChar c = false := by
  obtain rfl | rfl := h <;> decide

theorem lexes_blanks {w r : Str} {ts : List Token} (hw : Blanks w) (h : Lexes true true r ts) : Lexes true true (w ++ r) ts := by
  induction w with
  | nil => exact h
  | cons c w ih => exact .space (blank_ws (hw c (by simp))) (ih fun d hd => hw d (by simp [hd]))

theorem not1_blanks {w r : Str} (hw : Blanks w) (h : Not1 wordChar r) : Not1 wordChar (w ++ r) := by
  cases w with
  | nil => exact h
  | cons c w =>
    intro d hd
    simp at hd
    subst hd
    exact blank_word (hw _ (by simp))

theorem not1_cons {c : Char} {r : Str} (h : wordChar c = false) : Not1 wordChar (c :: r) := by
  intro d hd
  simp at hd
  subst hd
  exact h

theorem lexes_name {s r : Str} {ts : List Token} {b : Bool} (hs : Name s) (hr : Not1 wordChar r) (h : Lexes true true r ts) :
    Lexes true b (s ++ r) (.ident s :: ts) := by
  obtain ⟨⟨c, t, rfl, h1, h2⟩, h3⟩ := hs
  rw [← h3]
  exact .word h1 h2 hr h

theorem lexes_var {s r : Str} {v : VarName} {ts : List Token} {b : Bool} (hs : VarText s v) (hr : Not1 wordChar r) (h : Lexes true true r ts) :
    ∃ us, G.AnyVar us v ∧ Lexes true b (s ++ r) (us ++ ts) := by
  cases hs with
  | user hn => exact ⟨_, .pattern (.user _), lexes_name hn hr h⟩
  | global hn => exact ⟨_, .pattern (.global _), .symbol (.dollar _) (lexes_name hn hr h)⟩
  | pseudo hn => exact ⟨_, .pattern (.pseudo _), .symbol (.at_ _) (lexes_name hn hr h)⟩
  | line =>
    refine ⟨_, .line, .symbol (.at_ _) ?_⟩
    exact Lexes.word (c := 'L') (w := "INE".toList) (r := r) (by decide) (by decide) hr h

theorem digit_word {c : Char} (h : c.isDigit = true) : wordChar c = true := by
  unfold wordChar Char.isAlphanum
  simp [h]

theorem hex_word {c : Char} (h : Spec.IsHex .any c) : wordChar c = true := by
  rw [← isHexB_iff] at h
  simp only [Bool.or_eq_true, Bool.and_eq_true, decide_eq_true_eq] at h
  unfold wordChar Char.isAlphanum Char.isAlpha Char.isUpper Char.isLower
  obtain (h | ⟨h1, h2⟩) | ⟨h1, h2⟩ := h
  · simp [h]
  · have h2 : c.val ≤ 'z'.val := by
      have : c.val ≤ 'f'.val := h2
      exact UInt32.le_trans this (by decide)
    have h1 : c.val ≥ 'a'.val := h1
    simp only [Bool.or_eq_true, Bool.and_eq_true, decide_eq_true_eq]
    exact .inl (.inl (.inr ⟨h1, h2⟩))
  · have h2 : c.val ≤ 'Z'.val := by
      have : c.val ≤ 'F'.val := h2
      exact UInt32.le_trans this (by decide)
    have h1 : c.val ≥ 'A'.val := h1
    simp only [Bool.or_eq_true, Bool.and_eq_true, decide_eq_true_eq]
    exact .inl (.inl (.inl ⟨h1, h2⟩))

theorem number_at {s r : Str} {n : Nat} (hs : NumberText s n) (hr : Not1 wordChar r) : NumberAt (s ++ r) n r := by
  cases hs with
  | dec h1 h2 h3 =>
    have key : ∀ (x : Char) (t : Str), wordChar x = true → x.isDigit = false → s ++ r ≠ '0' :: x :: t := by
      intro x t hx hd he
      cases s with
      | nil => exact h1 rfl
      | cons c s =>
        cases s with
        | nil =>
          simp at he
          have := hr x (by rw [he.2]; simp)
          rw [hx] at this
          cases this
        | cons c2 s =>
          simp at he
          have := List.all_eq_true.1 h2 c2 (by simp)
          rw [he.2.1, hd] at this
          cases this
    refine .dec h1 h2 ?_ (fun t => key 'x' t (by decide) (by decide)) (fun t => key 'b' t (by decide) (by decide)) h3
    intro c hc
    cases hd : c.isDigit with
    | false => rfl
    | true =>
      have := hr c hc
      rw [digit_word hd] at this
      cases this
  | hex h1 h2 h3 =>
    refine .hex h1 h2 ?_ h3
    intro c hc hh
    have := hr c hc
    rw [hex_word hh] at this
    cases this
  | bin h1 h2 h3 =>
    refine .bin h1 h2 ?_ h3
    intro c hc
    have := hr c hc
    constructor <;> (rintro rfl; exact absurd this (by decide))

theorem word_op (o : Op) : ∃ c w, opName o = c :: w ∧ (c.isAlpha || c == '_') = true ∧ w.all wordChar ∧ wordToken (opName o) = .op o := by
  cases o <;> exact ⟨_, _, rfl, by decide, by decide, by decide⟩

theorem lexes_op {o : Op} {r : Str} {ts : List Token} {b : Bool} (hr : Not1 wordChar r) (h : Lexes true true r ts) :
    Lexes true b (opName o ++ r) (.op o :: ts) := by
  obtain ⟨c, w, h1, h2, h3, h4⟩ := word_op o
  rw [← h4, h1]
  exact .word h2 h3 hr h

mutual
theorem lexes_sum {s : Str} {x : Expr} : SumText s x → ∀ (r : Str) (ts : List Token) (b : Bool), Not1 wordChar r → Lexes true true r ts →
    ∃ us, G.IsExpr us x ∧ Lexes true b (s ++ r) (us ++ ts)
  | .add hs hw hv ht => by
    intro r ts b hr h
    obtain ⟨ys, h1, h2⟩ := lexes_term ht _ _ true hr h
    obtain ⟨xs, h3, h4⟩ := lexes_sum hs _ _ b (not1_blanks hw (not1_cons (by decide))) (lexes_blanks hw (.symbol (.plus _) (lexes_blanks hv h2)))
    exact ⟨_, .add h3 h1, by simpa using h4⟩
  | .sub hs hw hv ht => by
    intro r ts b hr h
    obtain ⟨ys, h1, h2⟩ := lexes_term ht _ _ true hr h
    obtain ⟨xs, h3, h4⟩ := lexes_sum hs _ _ b (not1_blanks hw (not1_cons (by decide))) (lexes_blanks hw (.symbol (.minus _) (lexes_blanks hv h2)))
    exact ⟨_, .sub h3 h1, by simpa using h4⟩
  | .term ht => by
    intro r ts b hr h
    obtain ⟨ys, h1, h2⟩ := lexes_term ht _ _ b hr h
    exact ⟨ys, .one h1, h2⟩

theorem lexes_term {s : Str} {x : Expr} : TermText s x → ∀ (r : Str) (ts : List Token) (b : Bool), Not1 wordChar r → Lexes true true r ts →
    ∃ us, G.IsSub us x ∧ Lexes true b (s ++ r) (us ++ ts)
  | .num hn => by
    intro r ts b hr h
    exact ⟨_, .num (.pos _), .number (number_at hn hr) h⟩
  | .neg hw hn => by
    intro r ts b hr h
    refine ⟨_, .num (.neg _), .symbol (.minus _) ?_⟩
    have := lexes_blanks hw (.number (number_at hn hr) h)
    rw [← List.append_assoc] at this
    exact this
  | .var hv => by
    intro r ts b hr h
    obtain ⟨us, h1, h2⟩ := lexes_var (b := b) hv hr h
    exact ⟨us, .var h1, h2⟩
  | .paren hw hv hs => by
    intro r ts b hr h
    obtain ⟨us, h1, h2⟩ := lexes_sum hs (_ ++ ')' :: r) _ true (not1_blanks hv (not1_cons (by decide))) (lexes_blanks hv (.symbol (.rparen _) h))
    refine ⟨_, .paren h1, ?_⟩
    have := Lexes.symbol (numeric := true) (.lparen b) (lexes_blanks hw h2)
    simpa using this
  | .call (o := o) h0 h1 h2 h3 h4 hs ht => by
    intro r ts b hr h
    obtain ⟨ys, hy, hy2⟩ := lexes_sum ht (_ ++ ')' :: r) _ true (not1_blanks h4 (not1_cons (by decide))) (lexes_blanks h4 (.symbol (.rparen _) h))
    obtain ⟨xs, hx, hx2⟩ := lexes_sum hs _ _ true (not1_blanks h2 (not1_cons (by decide))) (lexes_blanks h2 (.symbol (.comma _) (lexes_blanks h3 hy2)))
    refine ⟨_, .builtin hx hy, ?_⟩
    have := lexes_op (o := o) (b := b) (not1_blanks h0 (not1_cons (by decide))) (lexes_blanks h0 (Lexes.symbol (numeric := true) (.lparen _) (lexes_blanks h1 hx2)))
    simpa only [List.append_assoc, List.cons_append, List.nil_append, List.append_nil] using this
end

theorem lexes_capture {s : Str} {c : Option VarName} {e : Option Expr} (h : AfterFormat s c e) :
    (s = [] ∧ c = none ∧ e = none) ∨ ∃ ts, G.Capture ts c e ∧ Lexes true true s ts := by
  have hnil : Lexes true true [] [] := .nil
  have hblank : ∀ {v : Str}, Blanks v → Lexes true true v [] := by
    intro v hv
    simpa using lexes_blanks hv hnil
  have hn1 : ∀ {v : Str}, Blanks v → Not1 wordChar v := by
    intro v hv
    have := not1_blanks hv (r := []) (by intro c hc; cases hc)
    simpa using this
  cases h with
  | nothing => exact .inl ⟨rfl, rfl, rfl⟩
  | eq hw hv hs =>
    obtain ⟨us, h1, h2⟩ := lexes_sum hs _ _ true (hn1 hv) (hblank hv)
    refine .inr ⟨_, .eq h1, .equals ?_⟩
    simpa using lexes_blanks hw h2
  | capture hs hw hv =>
    obtain ⟨us, h1, h2⟩ := lexes_var (b := true) hs (not1_blanks hw (not1_cons (by decide))) (lexes_blanks hw (.colon rfl (hblank hv)))
    exact .inr ⟨_, .var h1, h2⟩
  | captureEq hs hw hw1 hw2 hv ht =>
    obtain ⟨us, h1, h2⟩ := lexes_sum ht _ _ true (hn1 hv) (hblank hv)
    obtain ⟨vs, h3, h4⟩ := lexes_var (b := true) hs (not1_blanks hw (not1_cons (by decide)))
      (lexes_blanks hw (.colon rfl (lexes_blanks hw1 (.equals (lexes_blanks hw2 h2)))))
    refine .inr ⟨_, .varEq h3 h1, ?_⟩
    simpa using h4
  | captureExpr hs hw hw1 hv ht =>
    obtain ⟨us, h1, h2⟩ := lexes_sum ht _ _ true (hn1 hv) (hblank hv)
    obtain ⟨vs, h3, h4⟩ := lexes_var (b := true) hs (not1_blanks hw (not1_cons (by decide))) (lexes_blanks hw (.colon rfl (lexes_blanks hw1 h2)))
    refine .inr ⟨_, .varExpr h3 h1, ?_⟩
    simpa using h4
  | var hs hv =>
    obtain ⟨vs, h3, h4⟩ := lexes_var (b := true) hs (hn1 hv) (hblank hv)
    exact .inr ⟨_, .expr h3 .none, by simpa using h4⟩

theorem lexes_spec {p : Str} {n : Nat} (c : Char) (hc : c.isAlpha = true) (hx : wordChar c = true) (hp : PrecisionText p n) (hb : c = 'b' ∨ c = 'x' → p ≠ ".0".toList)
    (hd : c.isDigit = false) (hh : wordToken [c] = .ident [c]) {r : Str} {ts : List Token} (hr : Not1 wordChar r) (h : Lexes true true r ts) :
    ∃ ps, G.Precision ps n ∧ Lexes true false (p ++ c :: r) (ps ++ .ident [c] :: ts) := by
  have hword : ∀ b, Lexes true b (c :: r) (.ident [c] :: ts) := by
    intro b
    rw [← hh]
    exact Lexes.word (c := c) (w := []) (r := r) (by simp [hc]) rfl hr h
  obtain ⟨rfl, rfl⟩ | ⟨ds, rfl, h1, h2, rfl, h3⟩ := hp
  · exact ⟨[], .none, hword _⟩
  · refine ⟨_, .some _ h3, ?_⟩
    refine .symbol (.dot _) (.number (n := Spec.positional 10 ds) ?_ (hword _))
    have key : ∀ (x : Char) (t : Str), x.isDigit = false → (x = 'b' ∨ x = 'x') → ds ++ c :: r ≠ '0' :: x :: t := by
      intro x t hd hbx he
      cases ds with
      | nil => exact h1 rfl
      | cons c1 s =>
        cases s with
        | nil =>
          simp at he
          apply hb (by rw [he.2.1]; exact hbx)
          rw [he.1]
          rfl
        | cons c2 s =>
          simp at he
          have := List.all_eq_true.1 h2 c2 (by simp)
          rw [he.2.1, hd] at this
          cases this
    refine .dec h1 h2 ?_ (fun t => key 'x' t (by decide) (.inr rfl)) (fun t => key 'b' t (by decide) (.inl rfl)) (by omega)
    intro d hd'
    simp at hd'
    subst hd'
    exact hd

theorem lexes_format {f : Str} {fmt : NumFmt} (h : FormatText f fmt) (h0 : ∀ x, f ≠ x ++ ".0x".toList) {r : Str} {ts : List Token} (hr : Not1 wordChar r)
    (hl : Lexes true true r ts) : ∃ us, G.Format us fmt ∧ Lexes true true (f ++ r) (us ++ ts) := by
  cases h with
  | @unsigned p n hp =>
    obtain ⟨ps, h1, h2⟩ := lexes_spec 'u' (by decide) (by decide) hp (by simp) (by decide) (by decide) hr hl
    exact ⟨_, .mk (pfx := false) (spec := some ['u']) h1 rfl, by simpa [G.hashTokens, G.specTokens] using Lexes.symbol (.percent _) h2⟩
  | @signed p n hp =>
    obtain ⟨ps, h1, h2⟩ := lexes_spec 'd' (by decide) (by decide) hp (by simp) (by decide) (by decide) hr hl
    exact ⟨_, .mk (pfx := false) (spec := some ['d']) h1 rfl, by simpa [G.hashTokens, G.specTokens] using Lexes.symbol (.percent _) h2⟩
  | @lower p n hp =>
    obtain ⟨ps, h1, h2⟩ := lexes_spec 'x' (by decide) (by decide) hp (by
      rintro - rfl
      exact h0 ['%'] rfl) (by decide) (by decide) hr hl
    exact ⟨_, .mk (pfx := false) (spec := some ['x']) h1 rfl, by simpa [G.hashTokens, G.specTokens] using Lexes.symbol (.percent _) h2⟩
  | @upper p n hp =>
    obtain ⟨ps, h1, h2⟩ := lexes_spec 'X' (by decide) (by decide) hp (by simp) (by decide) (by decide) hr hl
    exact ⟨_, .mk (pfx := false) (spec := some ['X']) h1 rfl, by simpa [G.hashTokens, G.specTokens] using Lexes.symbol (.percent _) h2⟩
  | @lowerPrefix p n hp =>
    obtain ⟨ps, h1, h2⟩ := lexes_spec 'x' (by decide) (by decide) hp (by
      rintro - rfl
      exact h0 ['%', '#'] rfl) (by decide) (by decide) hr hl
    exact ⟨_, .mk (pfx := true) (spec := some ['x']) h1 rfl, by simpa [G.hashTokens, G.specTokens] using Lexes.symbol (.percent _) (.symbol (.hash _) h2)⟩
  | @upperPrefix p n hp =>
    obtain ⟨ps, h1, h2⟩ := lexes_spec 'X' (by decide) (by decide) hp (by simp) (by decide) (by decide) hr hl
    exact ⟨_, .mk (pfx := true) (spec := some ['X']) h1 rfl, by simpa [G.hashTokens, G.specTokens] using Lexes.symbol (.percent _) (.symbol (.hash _) h2)⟩

/-- The inside of a numeric block is read as it is written. -/
theorem lexes_block {s : Str} {m : Match} (h : BlockText s m) (h0 : ¬ ".0x".toList <:+: s) :
    ∃ ts, Lexes true true s ts ∧ G.IsMatch (.hash :: ts) m := by
  cases h with
  | plain hw ha =>
    obtain ⟨rfl, rfl, rfl⟩ | ⟨ts, h1, h2⟩ := lexes_capture ha
    · exact ⟨_, lexes_blanks hw .nil, .numeric .plain⟩
    · exact ⟨_, lexes_blanks hw h2, .numeric (.capture h1)⟩
  | @format w0 f fmt w w' s' c e hw0 hf hw hw' ha =>
    have hx : ∀ x, f ≠ x ++ ".0x".toList := by
      rintro x rfl
      apply h0
      exact ⟨w0 ++ x, w ++ ',' :: (w' ++ s'), by simp only [List.append_assoc]⟩
    obtain ⟨rfl, rfl, rfl⟩ | ⟨ts, h1, h2⟩ := lexes_capture ha
    · obtain ⟨us, h3, h4⟩ := lexes_format hf hx (not1_blanks hw (not1_cons (by decide))) (lexes_blanks hw (.symbol (.comma _) (lexes_blanks hw' .nil)))
      exact ⟨_, lexes_blanks hw0 h4, .numeric (.format h3)⟩
    · obtain ⟨us, h3, h4⟩ := lexes_format hf hx (not1_blanks hw (not1_cons (by decide))) (lexes_blanks hw (.symbol (.comma _) (lexes_blanks hw' h2)))
      exact ⟨_, lexes_blanks hw0 h4, .numeric (.formatCapture h3 h1)⟩

end Litcheck.Lex
