import Verif.Proofs.NumericText
import Verif.Props.CheckFileCases

/-!
# C67: numeric blocks are read as they are written

`Spec/NumericText.lean` says how numeric blocks are written.
-/

namespace Litcheck

open Lex LexSpec

/-- A file with one line, a `CHECK` directive: it means what the directive means. -/
theorem C64_one_line (allow : Bool) {t : Str} (ht : '\n' ∉ t) (ls : List CLine) :
    parse CheckFileEx.cfg allow ("CHECK:".toList ++ t) = .ok ls ↔ ∃ l, ls = [l] ∧ Reads false ⟨"CHECK".toList, .kind .plain, 0, t⟩ l := by
  have hnl : '\n' ∉ "CHECK:".toList ++ t := by
    rw [List.mem_append]
    rintro (h | h)
    · exact absurd h (by decide)
    · exact ht h
  have hr : Readable CheckFileEx.cfg ("CHECK:".toList ++ t) :=
    ⟨CheckFileEx.checks, CheckFileEx.comments, by
      intro a m b n he _ hm
      apply hnl
      rw [he]
      simp [hm], by simp⟩
  have hrec : Recognised (checkPfx CheckFileEx.cfg) (commentPfx CheckFileEx.cfg) true (lines ("CHECK:".toList ++ t))
      [⟨"CHECK".toList, .kind .plain, 0, t⟩] := by
    rw [lines_self hnl]
    refine .some (a := []) (b := "CHECK:".toList ++ t) ?_ (.inl rfl) ?_ ?_ .nil
    · intro _ h
      have := List.all_eq_true.1 h 'C' (by simp)
      exact absurd this (by decide)
    · exact .kind (p := "CHECK".toList) (w := []) (m := []) (t := t) (by simp [orElse, CheckFileEx.cfg]) rfl .none
    · intro a' b' _ h
      simp at h
  rw [C64_parse_iff hr CheckFileEx.unambiguous]
  constructor
  · rintro ⟨ds, h1, h2, -⟩
    obtain rfl := Recognised.unique CheckFileEx.unambiguous h1 hrec
    have : List.Forall₂ (Reads false) [⟨"CHECK".toList, .kind .plain, 0, t⟩] ls := h2
    cases this with
    | cons h3 h4 =>
      cases h4
      exact ⟨_, rfl, h3⟩
  · rintro ⟨l, rfl, h⟩
    refine ⟨_, hrec, .cons h .nil, .inr ⟨by simp [CheckFileEx.cfg], by simp [CheckFileEx.cfg]⟩⟩

/-- A character of a numeric block. -/
def Inside (c : Char) : Prop := c ≠ '[' ∧ c ≠ ']' ∧ c ≠ '\n'

theorem inside_word {c : Char} (h : wordChar c = true) : Inside c := by
  refine ⟨?_, ?_, ?_⟩ <;> (rintro rfl; exact absurd h (by decide))

theorem inside_blanks {w : Str} (h : Blanks w) : ∀ c ∈ w, Inside c := by
  intro c hc
  obtain rfl | rfl := h c hc <;> (refine ⟨?_, ?_, ?_⟩ <;> decide)

theorem inside_name {s : Str} (h : Name s) : ∀ c ∈ s, Inside c := by
  obtain ⟨⟨c, r, rfl, h1, h2⟩, -⟩ := h
  intro d hd
  obtain rfl | hd := List.mem_cons.1 hd
  · apply inside_word
    unfold wordChar Char.isAlphanum
    simp only [Bool.or_eq_true] at h1 ⊢
    obtain h1 | h1 := h1
    · exact .inl (.inl h1)
    · exact .inr h1
  · exact inside_word (List.all_eq_true.1 h2 d hd)

theorem inside_cons {c : Char} {s : Str} (hc : Inside c) (hs : ∀ d ∈ s, Inside d) : ∀ d ∈ c :: s, Inside d := by
  intro d hd
  obtain rfl | hd := List.mem_cons.1 hd
  · exact hc
  · exact hs d hd

theorem inside_append {s t : Str} (hs : ∀ d ∈ s, Inside d) (ht : ∀ d ∈ t, Inside d) : ∀ d ∈ s ++ t, Inside d := by
  intro d hd
  obtain hd | hd := List.mem_append.1 hd
  · exact hs d hd
  · exact ht d hd

theorem inside_nil : ∀ d ∈ ([] : Str), Inside d := by simp

theorem inside_var {s : Str} {v : VarName} (h : VarText s v) : ∀ c ∈ s, Inside c := by
  cases h with
  | user h => exact inside_name h
  | global h => exact inside_cons (by unfold Inside; decide) (inside_name h)
  | pseudo h => exact inside_cons (by unfold Inside; decide) (inside_name h)
  | line => unfold Inside; decide

theorem inside_number {s : Str} {n : Nat} (h : NumberText s n) : ∀ c ∈ s, Inside c := by
  cases h with
  | dec _ h => exact fun c hc => inside_word (digit_word (List.all_eq_true.1 h c hc))
  | hex _ h =>
    exact inside_cons (by unfold Inside; decide) (inside_cons (by unfold Inside; decide) fun c hc => inside_word (hex_word (h c hc)))
  | bin _ h =>
    refine inside_cons (by unfold Inside; decide) (inside_cons (by unfold Inside; decide) fun c hc => ?_)
    obtain rfl | rfl := h c hc <;> exact inside_word (by decide)

mutual
theorem inside_sum {s : Str} {x : Expr} : SumText s x → ∀ c ∈ s, Inside c
  | .add hs hw hv ht => inside_append (inside_sum hs) (inside_append (inside_blanks hw)
      (inside_cons (by unfold Inside; decide) (inside_append (inside_blanks hv) (inside_term ht))))
  | .sub hs hw hv ht => inside_append (inside_sum hs) (inside_append (inside_blanks hw)
      (inside_cons (by unfold Inside; decide) (inside_append (inside_blanks hv) (inside_term ht))))
  | .term ht => inside_term ht

theorem inside_term {s : Str} {x : Expr} : TermText s x → ∀ c ∈ s, Inside c
  | .num h => inside_number h
  | .neg hw h => inside_cons (by unfold Inside; decide) (inside_append (inside_blanks hw) (inside_number h))
  | .var h => inside_var h
  | .paren hw hv hs => inside_cons (by unfold Inside; decide) (inside_append (inside_blanks hw) (inside_append (inside_sum hs)
      (inside_append (inside_blanks hv) (inside_cons (by unfold Inside; decide) inside_nil))))
  | .call (o := o) h0 h1 h2 h3 h4 hs ht => inside_append (by cases o <;> (unfold Inside; decide)) (inside_append (inside_blanks h0)
      (inside_cons (by unfold Inside; decide) (inside_append (inside_blanks h1) (inside_append (inside_sum hs) (inside_append (inside_blanks h2)
      (inside_cons (by unfold Inside; decide) (inside_append (inside_blanks h3) (inside_append (inside_sum ht) (inside_append (inside_blanks h4)
      (inside_cons (by unfold Inside; decide) inside_nil))))))))))
end

theorem inside_after {s : Str} {c e} (h : AfterFormat s c e) : ∀ c ∈ s, Inside c := by
  have heq : ∀ c ∈ "==".toList, Inside c := by unfold Inside; decide
  have hcol : Inside ':' := by unfold Inside; decide
  cases h with
  | nothing => exact inside_nil
  | eq hw hv hs => exact inside_append heq (inside_append (inside_blanks hw) (inside_append (inside_sum hs) (inside_blanks hv)))
  | capture hs hw hv => exact inside_append (inside_var hs) (inside_append (inside_blanks hw) (inside_cons hcol (inside_blanks hv)))
  | captureEq hs hw hw1 hw2 hv ht =>
    exact inside_append (inside_var hs) (inside_append (inside_blanks hw) (inside_cons hcol (inside_append (inside_blanks hw1)
      (inside_append heq (inside_append (inside_blanks hw2) (inside_append (inside_sum ht) (inside_blanks hv)))))))
  | captureExpr hs hw hw1 hv ht =>
    exact inside_append (inside_var hs) (inside_append (inside_blanks hw) (inside_cons hcol (inside_append (inside_blanks hw1)
      (inside_append (inside_sum ht) (inside_blanks hv)))))
  | var hs hv => exact inside_append (inside_var hs) (inside_blanks hv)

theorem inside_precision {s : Str} {n : Nat} (h : PrecisionText s n) : ∀ c ∈ s, Inside c := by
  obtain ⟨rfl, -⟩ | ⟨ds, rfl, -, h, -⟩ := h
  · exact inside_nil
  · exact inside_cons (by unfold Inside; decide) fun c hc => inside_word (digit_word (List.all_eq_true.1 h c hc))

theorem inside_format {s : Str} {f : NumFmt} (h : FormatText s f) : ∀ c ∈ s, Inside c := by
  cases h with
  | unsigned h => exact inside_cons (by unfold Inside; decide) (inside_append (inside_precision h) (inside_cons (by unfold Inside; decide) inside_nil))
  | signed h => exact inside_cons (by unfold Inside; decide) (inside_append (inside_precision h) (inside_cons (by unfold Inside; decide) inside_nil))
  | lower h => exact inside_cons (by unfold Inside; decide) (inside_append (inside_precision h) (inside_cons (by unfold Inside; decide) inside_nil))
  | upper h => exact inside_cons (by unfold Inside; decide) (inside_append (inside_precision h) (inside_cons (by unfold Inside; decide) inside_nil))
  | lowerPrefix h => exact inside_cons (by unfold Inside; decide) (inside_cons (by unfold Inside; decide) (inside_append (inside_precision h) (inside_cons (by unfold Inside; decide) inside_nil)))
  | upperPrefix h => exact inside_cons (by unfold Inside; decide) (inside_cons (by unfold Inside; decide) (inside_append (inside_precision h) (inside_cons (by unfold Inside; decide) inside_nil)))

theorem inside_block {s : Str} {m : Match} (h : BlockText s m) : ∀ c ∈ s, Inside c := by
  cases h with
  | plain hw h => exact inside_append (inside_blanks hw) (inside_after h)
  | format hw0 hf hw hw' h =>
    exact inside_append (inside_blanks hw0) (inside_append (inside_format hf) (inside_append (inside_blanks hw) (inside_cons (by unfold Inside; decide)
      (inside_append (inside_blanks hw') (inside_after h)))))

/-- A block without brackets inside is split off as it is. -/
theorem split_block {s : Str} (h : ∀ c ∈ s, Inside c) : Split ((Seg.block true s).src) [.block true s] none := by
  have : Split ((Seg.block true s).src ++ []) [.block true s] none := by
    refine .numeric ⟨⟨⟨[], rfl⟩, ?_⟩, ?_⟩ .nil
    · have hb : '[' ∉ s ++ [']', ']'] := by
        rw [List.mem_append]
        rintro (hm | hm)
        · exact (h _ hm).1 rfl
        · simp at hm
      rintro (⟨x, name, he, -⟩ | ⟨x, u, he, -⟩)
      · apply hb
        rw [he]
        simp
      · apply hb
        rw [he]
        simp
    · intro a1 a2 he hne ⟨⟨r, hr⟩, _⟩
      cases a2 with
      | nil => exact hne rfl
      | cons c a2 =>
        simp at hr
        exact (h c (by rw [he]; simp)).2.1 hr.1
  rwa [List.append_nil] at this

/-- A block that is read inside is read in a file. -/
theorem numeric_file {s : Str} {m : Match} (hin : ∀ c ∈ s, Inside c) {ts : List Token} (h1 : Lexes true true s ts) (h2 : G.IsMatch (.hash :: ts) m)
    (allow : Bool) :
    parse CheckFileEx.cfg allow ("CHECK: [[#".toList ++ s ++ "]]".toList) = .ok [⟨.plain, false, .match_ [.match_ m]⟩] := by
  have he : "CHECK: [[#".toList ++ s ++ "]]".toList = "CHECK:".toList ++ (' ' :: (Seg.block true s).src) := by
    simp [Seg.src]
  rw [he, C64_one_line]
  · refine ⟨_, rfl, ?_⟩
    refine .pattern (k := .plain) (.kind rfl) rfl (segs := [.block true s]) (ps := [.match_ m]) ?_ (.block h1 h2 .nil) (.parts (by simp) (by simp) (by simp) (by simp))
    have : patternOf false (' ' :: (Seg.block true s).src) = (Seg.block true s).src := rfl
    show Split (patternOf false (' ' :: (Seg.block true s).src)) _ _
    rw [this]
    exact split_block hin
  · intro hm
    simp only [Seg.src, List.mem_cons, List.mem_append, List.not_mem_nil, or_false] at hm
    rcases hm with hm | hm | hm | hm | hm | hm | hm
    · exact absurd hm (by decide)
    · exact absurd hm (by decide)
    · exact absurd hm (by decide)
    · exact absurd hm (by decide)
    · exact (hin _ hm).2.2 rfl
    · exact absurd hm (by decide)
    · exact absurd hm (by decide)

/-- **C67.** A numeric block is read as it is written: its format, the variable it captures, and the expression, in which `+` and `-` associate to the
left. Partial: the format `%.0x` is excepted, and blocks with an expression without `==` and without capture (`C67_implicit_refuted`). -/
theorem C67_numeric_block_partial {s : Str} {m : Match} (h : BlockText s m) (h0 : ¬ ".0x".toList <:+: s) (allow : Bool) :
    parse CheckFileEx.cfg allow ("CHECK: [[#".toList ++ s ++ "]]".toList) = .ok [⟨.plain, false, .match_ [.match_ m]⟩] := by
  obtain ⟨ts, h1, h2⟩ := lexes_block h h0
  exact numeric_file (inside_block h) h1 h2 allow

/-- **C67**, without `==` and capture: after a variable, the rest of the sum is put in parentheses. -/
theorem C67_implicit {v w w' v' t : Str} {x : VarName} {e : Expr} (hv : VarText v x) (hw : Blanks w) (hw' : Blanks w') (ht : SumText t e) (hv' : Blanks v') (allow : Bool) :
    parse CheckFileEx.cfg allow ("CHECK: [[#".toList ++ (v ++ (w ++ '+' :: (w' ++ (t ++ v')))) ++ "]]".toList) =
      .ok [⟨.plain, false, .match_ [.match_ (.numeric none none (some (.bin .add (.var x) e)))]⟩] ∧
    parse CheckFileEx.cfg allow ("CHECK: [[#".toList ++ (v ++ (w ++ '-' :: (w' ++ (t ++ v')))) ++ "]]".toList) =
      .ok [⟨.plain, false, .match_ [.match_ (.numeric none none (some (.bin .sub (.var x) e)))]⟩] := by
  have hn1 : Not1 wordChar v' := by
    have := not1_blanks hv' (r := []) (by intro c hc; cases hc)
    simpa using this
  have hbl : Lexes true true v' [] := by simpa using lexes_blanks hv' .nil
  obtain ⟨us, h1, h2⟩ := lexes_sum ht _ _ true hn1 hbl
  rw [List.append_nil] at h2
  have hin : ∀ c, Inside c → ∀ d ∈ v ++ (w ++ c :: (w' ++ (t ++ v'))), Inside d := fun c hc =>
    inside_append (inside_var hv) (inside_append (inside_blanks hw) (inside_cons hc (inside_append (inside_blanks hw')
      (inside_append (inside_sum ht) (inside_blanks hv')))))
  constructor
  · obtain ⟨vs, h3, h4⟩ := lexes_var (b := true) hv (not1_blanks hw (not1_cons (c := '+') (by decide))) (lexes_blanks hw (.symbol (.plus _) (lexes_blanks hw' h2)))
    exact numeric_file (hin '+' (by unfold Inside; decide)) h4 (.numeric (.capture (.expr h3 (.add h1)))) allow
  · obtain ⟨vs, h3, h4⟩ := lexes_var (b := true) hv (not1_blanks hw (not1_cons (c := '-') (by decide))) (lexes_blanks hw (.symbol (.minus _) (lexes_blanks hw' h2)))
    exact numeric_file (hin '-' (by unfold Inside; decide)) h4 (.numeric (.capture (.expr h3 (.sub h1)))) allow

namespace NumericEx

theorem blanks_nil : Blanks [] := by intro c hc; cases hc
theorem blank1 : Blanks [' '] := by intro c hc; simp at hc; exact .inl hc

theorem name_a : Name "A".toList := ⟨⟨'A', [], rfl, by decide, rfl⟩, rfl⟩
theorem num_one : NumberText "1".toList 1 := .dec (ds := "1".toList) (by simp) (by decide) (by decide)

/-- `A - 1 - 1`. -/
theorem sum : SumText "A - 1 - 1".toList (.bin .sub (.bin .sub (.var (.user "A".toList)) (.num 1)) (.num 1)) :=
  .sub (s := "A - 1".toList) (w := [' ']) (v := [' ']) (t := "1".toList)
    (.sub (s := "A".toList) (w := [' ']) (v := [' ']) (t := "1".toList) (.term (.var (.user name_a))) blank1 blank1 (.num num_one))
    blank1 blank1 (.num num_one)

/-- `C67_numeric_block_partial` applies to `[[#%.8X, B: == max(A - 1 - 1, 1)]]`. -/
example : parse CheckFileEx.cfg false "CHECK: [[#%.8X, B: == max(A - 1 - 1, 1)]]".toList =
    .ok [⟨.plain, false, .match_ [.match_ (.numeric (some (.hex 8 false .upper)) (some (.user "B".toList))
      (some (.bin .max (.bin .sub (.bin .sub (.var (.user "A".toList)) (.num 1)) (.num 1)) (.num 1))))]⟩] := by
  refine C67_numeric_block_partial (s := "%.8X, B: == max(A - 1 - 1, 1)".toList) ?_ (by decide +kernel) false
  refine .format (w0 := []) (f := "%.8X".toList) (w := []) (w' := [' ']) (s := "B: == max(A - 1 - 1, 1)".toList) blanks_nil ?_ blanks_nil blank1 ?_
  · exact .upper (p := ".8".toList) (.inr ⟨"8".toList, rfl, by simp, by decide, by decide, by decide⟩)
  · refine .captureEq (s := "B".toList) (w := []) (w1 := [' ']) (w2 := [' ']) (t := "max(A - 1 - 1, 1)".toList) (v := [])
      (.user ⟨⟨'B', [], rfl, by decide, rfl⟩, rfl⟩) blanks_nil blank1 blank1 blanks_nil (.term ?_)
    exact .call (o := .max) (w0 := []) (w1 := []) (w2 := []) (w3 := [' ']) (w4 := []) (s := "A - 1 - 1".toList) (t := "1".toList)
      blanks_nil blanks_nil blanks_nil blank1 blanks_nil sum (.term (.num num_one))

end NumericEx

/-- Results can be compared. -/
instance exceptDecEq {ε α : Type} [DecidableEq ε] [DecidableEq α] : DecidableEq (Except ε α)
  | .ok a, .ok b => if h : a = b then .isTrue (by rw [h]) else .isFalse (by simpa using h)
  | .error a, .error b => if h : a = b then .isTrue (by rw [h]) else .isFalse (by simpa using h)
  | .ok _, .error _ => .isFalse (by simp)
  | .error _, .ok _ => .isFalse (by simp)

/-- **C67 refuted** for expressions without `==`: `A - 1 - 1` means `A - (1 - 1)` then, although it means `(A - 1) - 1` after `==`. -/
theorem C67_implicit_refuted :
    parse CheckFileEx.cfg true "CHECK: [[#A - 1 - 1]]".toList =
      .ok [⟨.plain, false, .match_ [.match_ (.numeric none none
        (some (.bin .sub (.var (.user "A".toList)) (.bin .sub (.num 1) (.num 1)))))]⟩] ∧
    parse CheckFileEx.cfg true "CHECK: [[#==A - 1 - 1]]".toList =
      .ok [⟨.plain, false, .match_ [.match_ (.numeric none none
        (some (.bin .sub (.bin .sub (.var (.user "A".toList)) (.num 1)) (.num 1))))]⟩] := by
  constructor <;> decide +kernel

/-- **C67 refuted** for other forms that are documented: a format without comma, the format `%.0x`, an expression that begins with a number, and a sum that begins with a call are
rejected; so is a call of a function that is not an operator. -/
theorem C67_rejected_refuted :
    parse CheckFileEx.cfg true "CHECK: [[#%.8X]]".toList = .error .badMatch ∧
    parse CheckFileEx.cfg true "CHECK: [[#%.0x,]]".toList = .error (.lexer .invalidNumber) ∧
    parse CheckFileEx.cfg true "CHECK: [[#5]]".toList = .error .badMatch ∧
    parse CheckFileEx.cfg true "CHECK: [[#add(A,1)+1]]".toList = .error .badMatch ∧
    parse CheckFileEx.cfg true "CHECK: [[#==foo(A,1)]]".toList = .error .badMatch := by
  refine ⟨?_, ?_, ?_, ?_, ?_⟩ <;> decide +kernel

end Litcheck
