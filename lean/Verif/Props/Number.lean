import Verif.Spec.Number
import Verif.Proofs.Tac
import Mathlib.Data.Nat.Digits.Lemmas
import Mathlib.Tactic.Ring

/-!
# Properties C21, C22, C55
-/

namespace Litcheck
open Spec Num

/-! ## Digits -/

theorem toDigit_digitChar {base d : Nat} (hb : base ≤ 16) (hd : d < base) (up : Bool) :
    toDigit base (digitChar up d) = some d := by
  have h : ∀ d < 16, ∀ up : Bool, toDigit 16 (digitChar up d) = some d := by decide
  have h16 := h d (by omega) up
  unfold toDigit at h16 ⊢
  dsimp only at h16 ⊢
  obtain ⟨x, hx, hx'⟩ := Option.bind_eq_some_iff.1 h16
  rw [hx]
  split at hx'
  · simp at hx'
    subst hx'
    simp [hd]
  · simp at hx'

/-- The value of a list of digits, most significant first. -/
def fromDigits (base acc : Nat) (ds : List Nat) : Nat := ds.foldl (fun a d => a * base + d) acc

theorem fromDigits_ge {base : Nat} (hb : 1 ≤ base) (ds : List Nat) (acc : Nat) : acc ≤ fromDigits base acc ds := by
  induction ds generalizing acc with
  | nil => exact Nat.le_refl _
  | cons d ds ih =>
    have h1 := ih (acc * base + d)
    have h2 : acc ≤ acc * base := Nat.le_mul_of_pos_right _ hb
    simp only [fromDigits, List.foldl_cons] at h1 ⊢
    omega

theorem readDigits_map {base limit : Nat} (hb : 1 ≤ base) (hb' : base ≤ 16) (up : Bool) (ds : List Nat)
    (hds : ∀ d ∈ ds, d < base) (acc : Nat) (h : fromDigits base acc ds ≤ limit) :
    readDigits base limit (ds.map (digitChar up)) acc = some (fromDigits base acc ds) := by
  induction ds generalizing acc with
  | nil => rfl
  | cons d ds ih =>
    have hd := hds d (by simp)
    simp only [List.map_cons, readDigits, toDigit_digitChar hb' hd]
    have h1 : fromDigits base acc (d :: ds) = fromDigits base (acc * base + d) ds := rfl
    rw [h1] at h ⊢
    have h2 := fromDigits_ge hb ds (acc * base + d)
    rw [if_neg (by omega)]
    exact ih (fun d' hd' => hds d' (by simp [hd'])) _ h

/-- The digits shown for a number. -/
def showDigits (base n : Nat) : List Nat := if n = 0 then [0] else (Nat.digits base n).reverse

theorem showNat_map (base : Nat) (up : Bool) (n : Nat) : showNat base up n = (showDigits base n).map (digitChar up) := by
  unfold showNat showDigits
  split
  · cases up <;> rfl
  · rfl

theorem fromDigits_show {base : Nat} (n : Nat) : fromDigits base 0 (showDigits base n) = n := by
  unfold showDigits fromDigits
  split
  · rename_i h; simp [h]
  · rw [List.foldl_reverse]
    conv => rhs; rw [← Nat.ofDigits_digits base n, Nat.ofDigits_eq_foldr]
    congr 1
    funext a b
    simp [Nat.mul_comm, Nat.add_comm]

theorem showDigits_lt {base : Nat} (hb : 1 < base) (n : Nat) : ∀ d ∈ showDigits base n, d < base := by
  intro d hd
  unfold showDigits at hd
  split at hd
  · simp at hd; omega
  · exact Nat.digits_lt_base hb (by simpa using hd)

theorem showDigits_ne (base n : Nat) : showDigits base n ≠ [] := by
  unfold showDigits
  split
  · simp
  · rename_i h; simpa [Nat.digits_eq_nil_iff_eq_zero] using h

theorem fromDigits_zeros (base k : Nat) (ds : List Nat) :
    fromDigits base 0 (List.replicate k 0 ++ ds) = fromDigits base 0 ds := by
  induction k with
  | zero => rfl
  | succ k ih =>
    rw [List.replicate_succ, List.cons_append]
    show fromDigits base (0 * base + 0) _ = _
    simpa using ih

theorem digitChar_zero (up : Bool) : digitChar up 0 = '0' := by cases up <;> rfl

/-- Digits of a number with leading zeros up to a width. -/
def padDigits (base width n : Nat) : List Nat :=
  List.replicate (width - (showDigits base n).length) 0 ++ showDigits base n

theorem padZero_map (sign : List Char) (base : Nat) (up : Bool) (n width : Nat) :
    padZero sign (showNat base up n) (sign.length + width) = sign ++ (padDigits base width n).map (digitChar up) := by
  unfold padZero padDigits
  rw [showNat_map, List.map_append, List.map_replicate, digitChar_zero, List.append_assoc, List.length_map]
  congr 3
  omega

theorem padDigits_zero (base n : Nat) : padDigits base 0 n = showDigits base n := by simp [padDigits]

theorem padDigits_lt {base : Nat} (hb : 1 < base) (w n : Nat) : ∀ d ∈ padDigits base w n, d < base := by
  intro d hd
  unfold padDigits at hd
  rcases List.mem_append.1 hd with h | h
  · have := List.eq_of_mem_replicate h; omega
  · exact showDigits_lt hb n d h

theorem fromDigits_pad (base w n : Nat) : fromDigits base 0 (padDigits base w n) = n := by
  unfold padDigits; rw [fromDigits_zeros, fromDigits_show]

theorem padDigits_length (base w n : Nat) : (padDigits base w n).length = max w (showDigits base n).length := by
  unfold padDigits; simp; omega

theorem padDigits_ne (base w n : Nat) : padDigits base w n ≠ [] := by
  unfold padDigits; simp [showDigits_ne]

theorem digitChar_not_sign {up : Bool} {d : Nat} (h : d < 16) : digitChar up d ≠ '-' ∧ digitChar up d ≠ '+' ∧ digitChar up d ≠ 'x' := by
  have : ∀ d < 16, ∀ up : Bool, digitChar up d ≠ '-' ∧ digitChar up d ≠ '+' ∧ digitChar up d ≠ 'x' := by decide
  exact this d h up

/-- Reading back digits without a sign. -/
theorem fromStrRadix_digits {base : Nat} (hb : 1 < base) (hb' : base ≤ 16) (up : Bool) {ds : List Nat} (hne : ds ≠ [])
    (hds : ∀ d ∈ ds, d < base) (h : fromDigits base 0 ds ≤ i128Max) :
    fromStrRadix base (ds.map (digitChar up)) = some (fromDigits base 0 ds : Int) := by
  have hr := readDigits_map (limit := i128Max) (by omega) hb' up ds hds 0 h
  cases ds with
  | nil => exact absurd rfl hne
  | cons d ds =>
    have hs := digitChar_not_sign (up := up) (Nat.lt_of_lt_of_le (hds d (by simp)) hb')
    rw [List.map_cons] at hr ⊢
    unfold fromStrRadix
    split
    · simp at *
    · rename_i he; simp at he; exact absurd he.1 hs.2.1
    · rename_i he; simp at he; exact absurd he.1 hs.1
    · rename_i he; simp at he; exact absurd he.1 hs.2.1
    · rename_i he; simp at he; exact absurd he.1 hs.1
    · rw [hr]; rfl

theorem fromStrRadix_neg {base : Nat} (hb : 1 < base) (hb' : base ≤ 16) (up : Bool) {ds : List Nat} (hne : ds ≠ [])
    (hds : ∀ d ∈ ds, d < base) (h : fromDigits base 0 ds ≤ i128Max + 1) :
    fromStrRadix base ('-' :: ds.map (digitChar up)) = some (-(fromDigits base 0 ds : Int)) := by
  have hr := readDigits_map (limit := i128Max + 1) (by omega) hb' up ds hds 0 h
  cases ds with
  | nil => exact absurd rfl hne
  | cons d ds =>
    rw [List.map_cons] at hr ⊢
    simp only [fromStrRadix, hr]
    rfl

/-- One normal form of `display`. -/
theorem display_eq (v : Int) (f : NumFmt) : display v f =
    match f with
    | .unsigned p => (padDigits 10 p (asU64 v)).map (digitChar false)
    | .signed p => (if v < 0 then ['-'] else []) ++ (padDigits 10 p v.natAbs).map (digitChar false)
    | .hex p pre c => (if pre then ['0', 'x'] else []) ++ (padDigits 16 p (asU128 v)).map (digitChar (c == .upper)) := by
  cases f with
  | unsigned p =>
    cases p with
    | zero => simp only [display, padDigits_zero, showNat_map]
    | succ p =>
      have := padZero_map [] 10 false (asU64 v) (p + 1)
      simpa [display] using this
  | signed p =>
    cases p with
    | zero => simp only [display, padDigits_zero, showNat_map]
    | succ p =>
      by_cases hv : v < 0
      · have := padZero_map ['-'] 10 false v.natAbs (p + 1)
        simpa [display, hv] using this
      · have := padZero_map [] 10 false v.natAbs (p + 1)
        simpa [display, hv] using this
  | hex p pre c =>
    cases p with
    | zero => cases pre <;> simp [display, padDigits_zero, showNat_map]
    | succ p =>
      cases pre
      · have := padZero_map [] 16 (c == .upper) (asU128 v) (p + 1)
        simpa [display] using this
      · have := padZero_map ['0', 'x'] 16 (c == .upper) (asU128 v) (p + 1)
        simpa [display] using this

theorem casingOk_map (c : Casing) (ds : List Nat) (h : ∀ d ∈ ds, d < 16) :
    casingOk c (ds.map (digitChar (c == .upper))) = true := by
  have hl : ∀ d < 16, ((decide ('a' ≤ digitChar false d) && decide (digitChar false d ≤ 'f')) ||
      (decide ('0' ≤ digitChar false d) && decide (digitChar false d ≤ '9'))) = true := by decide
  have hu : ∀ d < 16, ((decide ('A' ≤ digitChar true d) && decide (digitChar true d ≤ 'F')) ||
      (decide ('0' ≤ digitChar true d) && decide (digitChar true d ≤ '9'))) = true := by decide
  cases c with
  | any => rfl
  | lower =>
    simp only [casingOk, List.all_eq_true, List.mem_map]
    rintro x ⟨d, hd, rfl⟩
    exact hl d (h d hd)
  | upper =>
    simp only [casingOk, List.all_eq_true, List.mem_map]
    rintro x ⟨d, hd, rfl⟩
    exact hu d (h d hd)

theorem strip0x_digits (up : Bool) (ds : List Nat) (h : ∀ d ∈ ds, d < 16) : strip0x (ds.map (digitChar up)) = none := by
  match ds with
  | [] => rfl
  | [d] => simp [strip0x]
  | d :: e :: ds =>
    have he := (digitChar_not_sign (up := up) (h e (by simp))).2.2
    unfold strip0x
    split
    · rename_i heq; simp at heq; exact absurd heq.2.1 he
    · rfl

/-! ## C21 -/

/-- **C21**: a number in the range of a format, printed in the format, is accepted by the format and read back as the
same number: whatever the format, precision, prefix and casing. -/
theorem C21_round_trip (f : NumFmt) (v : Int) (h : InFormatRange v f) : parseWithFormat (display v f) f = .ok v := by
  rw [display_eq]
  cases f with
  | unsigned p =>
    obtain ⟨h1, h2⟩ := h
    have hu : ((asU64 v : Nat) : Int) = v := by unfold asU64; omega
    have hr := fromStrRadix_digits (by omega) (by omega) false (padDigits_ne 10 p (asU64 v))
      (padDigits_lt (by omega) p (asU64 v)) (by rw [fromDigits_pad]; unfold i128Max; omega)
    rw [fromDigits_pad, hu] at hr
    have hne := padDigits_ne 10 p (asU64 v)
    have hlt := padDigits_lt (base := 10) (by omega) p (asU64 v)
    have hlen := padDigits_length 10 p (asU64 v)
    simp only
    unfold parseWithFormat
    have hs : ¬ ((List.map (digitChar false) (padDigits 10 p (asU64 v))).head? = some '-' ∨
        (List.map (digitChar false) (padDigits 10 p (asU64 v))).head? = some '+') := by
      cases hd : padDigits 10 p (asU64 v) with
      | nil => exact absurd hd hne
      | cons d ds =>
        have := digitChar_not_sign (up := false) (Nat.lt_of_lt_of_le (hlt d (by simp [hd])) (by omega : 10 ≤ 16))
        simp [this.1, this.2.1]
    simp only
    rw [if_neg hs, hr]
    simp only [List.length_map, hlen]
    split
    · rfl
    · rw [if_neg (by omega)]
  | signed p =>
    obtain ⟨h1, h2⟩ := h
    have hne := padDigits_ne 10 p v.natAbs
    have hlt := padDigits_lt (base := 10) (by omega) p v.natAbs
    have hlen := padDigits_length 10 p v.natAbs
    simp only
    unfold parseWithFormat
    by_cases hv : v < 0
    · have hr := fromStrRadix_neg (by omega) (by omega) false hne hlt (by rw [fromDigits_pad]; unfold i128Max; omega)
      rw [fromDigits_pad] at hr
      have hval : -((v.natAbs : Nat) : Int) = v := by omega
      rw [hval] at hr
      simp only [hv, if_true, List.singleton_append, hr, stripSign, List.length_map, hlen]
      split
      · rfl
      · rw [if_neg (by omega)]
    · have hr := fromStrRadix_digits (by omega) (by omega) false hne hlt (by rw [fromDigits_pad]; unfold i128Max; omega)
      rw [fromDigits_pad] at hr
      have hval : ((v.natAbs : Nat) : Int) = v := by omega
      rw [hval] at hr
      have hstrip : stripSign ((padDigits 10 p v.natAbs).map (digitChar false)) = (padDigits 10 p v.natAbs).map (digitChar false) := by
        cases hd : padDigits 10 p v.natAbs with
        | nil => exact absurd hd hne
        | cons d ds =>
          have := digitChar_not_sign (up := false) (Nat.lt_of_lt_of_le (hlt d (by simp [hd])) (by omega : 10 ≤ 16))
          rw [List.map_cons]
          unfold stripSign
          split
          · rename_i heq; simp at heq; exact absurd heq.1 this.1
          · rename_i heq; simp at heq; exact absurd heq.1 this.2.1
          · rfl
      simp only [hv, if_false, List.nil_append, hr, hstrip, List.length_map, hlen]
      split
      · rfl
      · rw [if_neg (by omega)]
  | hex p pre c =>
    obtain ⟨h1, h2⟩ := h
    have hu : ((asU128 v : Nat) : Int) = v := by unfold asU128; omega
    have hne := padDigits_ne 16 p (asU128 v)
    have hlt := padDigits_lt (base := 16) (by omega) p (asU128 v)
    have hlen := padDigits_length 16 p (asU128 v)
    have hr := fromStrRadix_digits (by omega) (by omega) (c == .upper) hne hlt
      (by rw [fromDigits_pad]; unfold i128Max; omega)
    rw [fromDigits_pad, hu] at hr
    have hc := casingOk_map c _ hlt
    have hx := strip0x_digits (c == .upper) _ hlt
    simp only
    unfold parseWithFormat
    have hnl : ¬ (p > 0 ∧ (List.map (digitChar (c == .upper)) (padDigits 16 p (asU128 v))).length < p) := by
      simp only [List.length_map, hlen]; omega
    cases pre with
    | false =>
      simp only [Bool.false_eq_true, if_false, List.nil_append, hx, hr, hc, Bool.not_true, hnl]
    | true =>
      have hx' : strip0x (['0', 'x'] ++ List.map (digitChar (c == .upper)) (padDigits 16 p (asU128 v))) =
          some (List.map (digitChar (c == .upper)) (padDigits 16 p (asU128 v))) := rfl
      simp only [if_true, hx', hr, hc, Bool.not_true, Bool.false_eq_true, if_false, hnl]

example : InFormatRange (-5) (.signed 4) ∧ display (-5) (.signed 4) = "-0005".toList := by
  refine ⟨⟨by omega, by omega⟩, ?_⟩
  rw [display_eq]; decide
example : display 255 (.hex 4 true .upper) = "0x00FF".toList := by rw [display_eq]; decide

/-- **C21** fails outside: an unsigned number of more than 64 bits is read in full, but printed modulo `2^64`. -/
theorem C21_unsigned_refuted : parseWithFormat "18446744073709551617".toList (.unsigned 0) = .ok (2 ^ 64 + 1) ∧
    display (2 ^ 64 + 1) (.unsigned 0) = "1".toList := by
  constructor
  · decide
  · rw [display_eq]; decide

/-- **C21** fails outside: a negative number (the result of an expression) printed in hexadecimal is not accepted by
its own format. -/
theorem C21_hex_refuted : parseWithFormat (display (-1) (.hex 0 false .lower)) (.hex 0 false .lower) = .error .invalidFormat := by
  rw [display_eq]; decide

/-- **C21** fails outside: a negative number is printed in hexadecimal as the one which is 2^128 larger. -/
theorem C21_hex_negative_refuted (v : Int) (h1 : -2 ^ 127 ≤ v) (h2 : v < 0) (p : Nat) (pre : Bool) (c : Casing) :
    display v (.hex p pre c) = display (v + 340282366920938463463374607431768211456) (.hex p pre c) := by
  have : asU128 v = asU128 (v + 340282366920938463463374607431768211456) := by
    unfold asU128
    omega
  rw [display_eq, display_eq]
  simp only [this]

/-- Minus one, in 32 digits. -/
example : display (-1) (.hex 0 false .lower) = List.replicate 32 'f' := by rw [display_eq]; decide

/-! ## C22 -/

/-- The format without its casing. -/
def eraseCasing : NumFmt → NumFmt
  | .hex p x _ => .hex p x .any
  | f => f

theorem precision_comm (a b : Nat) : (a = b ∨ a = 0 ∨ b = 0) ↔ (b = a ∨ b = 0 ∨ a = 0) := by omega

theorem casing_comm (a b : Casing) : (a = b ∨ a = .any ∨ b = .any) ↔ (b = a ∨ b = .any ∨ a = .any) := by
  cases a <;> cases b <;> simp

/-- **C22**, all but the casing: the inferred format does not depend on the order of the operands. -/
theorem C22_symmetric_partial (l r : Option NumFmt) :
    (inferFormat l r).map eraseCasing = (inferFormat r l).map eraseCasing := by
  cases l with
  | none => cases r <;> rfl
  | some f =>
    cases r with
    | none => rfl
    | some g =>
      cases f with
      | unsigned p =>
        cases g with
        | unsigned q => simp only [inferFormat, precision_comm p q, Nat.max_comm p q]
        | signed q => rfl
        | hex q y d => rfl
      | signed p =>
        cases g with
        | unsigned q => rfl
        | signed q => simp only [inferFormat, precision_comm p q, Nat.max_comm p q]
        | hex q y d => rfl
      | hex p x c =>
        cases g with
        | unsigned q => rfl
        | signed q => rfl
        | hex q y d =>
          simp only [inferFormat, precision_comm p q, casing_comm c d, Nat.max_comm p q]
          by_cases hx : x = y
          · subst hx
            simp only [true_and]
            split <;> rfl
          · have hx' : ¬ y = x := fun h => hx h.symm
            simp [hx, hx']

/-- **C22** for formats other than hexadecimal: exactly symmetric. -/
theorem C22_symmetric_dec (l r : Option NumFmt) (hl : ∀ p x c, l ≠ some (.hex p x c)) :
    inferFormat l r = inferFormat r l := by
  cases l with
  | none => cases r <;> rfl
  | some f =>
    cases r with
    | none => rfl
    | some g =>
      cases f with
      | unsigned p =>
        cases g with
        | unsigned q => simp only [inferFormat, precision_comm p q, Nat.max_comm p q]
        | signed q => rfl
        | hex q y d => rfl
      | signed p =>
        cases g with
        | unsigned q => rfl
        | signed q => simp only [inferFormat, precision_comm p q, Nat.max_comm p q]
        | hex q y d => rfl
      | hex p x c => exact absurd rfl (hl p x c)

/-- **C22** fails: the casing is taken from the left operand, even if only the right one has one. -/
theorem C22_casing_refuted : inferFormat (some (.hex 0 false .any)) (some (.hex 0 false .upper)) = some (.hex 0 false .any) ∧
    inferFormat (some (.hex 0 false .upper)) (some (.hex 0 false .any)) = some (.hex 0 false .upper) := ⟨rfl, rfl⟩

/-- The precision of a format, 0 if unspecified. -/
def precisionOf : NumFmt → Nat
  | .unsigned p | .signed p | .hex p _ _ => p

/-- **C22**: the inferred format is of the kind of the operands which have a format, and has the precision of every
operand which specifies one. -/
theorem C22_precise {l r : Option NumFmt} {f : NumFmt} (h : inferFormat l r = some f) :
    (∀ g, (l = some g ∨ r = some g) →
      (precisionOf g ≠ 0 → precisionOf f = precisionOf g) ∧
      ((∃ p, g = .unsigned p) ↔ ∃ p, f = .unsigned p) ∧ ((∃ p, g = .signed p) ↔ ∃ p, f = .signed p) ∧
      ((∃ p x c, g = .hex p x c) ↔ ∃ p x c, f = .hex p x c)) ∧
    (l = none → r = none → f = .unsigned 0) := by
  cases l with
  | none =>
    cases r with
    | none => simp [inferFormat] at h; subst h; simp
    | some g => simp [inferFormat] at h; subst h; simp
  | some a =>
    cases r with
    | none => simp [inferFormat] at h; subst h; simp
    | some b =>
      cases a <;> cases b <;> simp only [inferFormat] at h <;> try contradiction
      all_goals
        split at h
        · rename_i hc
          have h := Option.some.inj h
          subst h
          refine ⟨?_, by simp⟩
          rintro g (hg | hg) <;> cases hg <;> simp [precisionOf] <;> omega
        · simp at h

/-- Two formats conflict: different kinds, different precisions, one with prefix and one without, or upper and lower
case. -/
def Conflict : NumFmt → NumFmt → Prop
  | .unsigned p, .unsigned q => p ≠ 0 ∧ q ≠ 0 ∧ p ≠ q
  | .signed p, .signed q => p ≠ 0 ∧ q ≠ 0 ∧ p ≠ q
  | .hex p x c, .hex q y d => (p ≠ 0 ∧ q ≠ 0 ∧ p ≠ q) ∨ x ≠ y ∨ (c = .upper ∧ d = .lower) ∨ (c = .lower ∧ d = .upper)
  | _, _ => True

/-- **C22**: there is no format if and only if both operands have one and they conflict. -/
theorem C22_conflict_iff (l r : Option NumFmt) :
    inferFormat l r = none ↔ ∃ f g, l = some f ∧ r = some g ∧ Conflict f g := by
  cases l with
  | none => cases r <;> simp [inferFormat]
  | some f =>
    cases r with
    | none => simp [inferFormat]
    | some g =>
      have h : (∃ f' g', some f = some f' ∧ some g = some g' ∧ Conflict f' g') ↔ Conflict f g := by
        constructor
        · rintro ⟨f', g', h1, h2, h3⟩; cases h1; cases h2; exact h3
        · intro h; exact ⟨f, g, rfl, rfl, h⟩
      rw [h]
      cases f with
      | unsigned p =>
        cases g with
        | unsigned q =>
          simp only [inferFormat, Conflict, ite_eq_right_iff, reduceCtorEq, imp_false]; omega
        | signed q => simp [inferFormat, Conflict]
        | hex q y d => simp [inferFormat, Conflict]
      | signed p =>
        cases g with
        | unsigned q => simp [inferFormat, Conflict]
        | signed q =>
          simp only [inferFormat, Conflict, ite_eq_right_iff, reduceCtorEq, imp_false]; omega
        | hex q y d => simp [inferFormat, Conflict]
      | hex p x c =>
        cases g with
        | unsigned q => simp [inferFormat, Conflict]
        | signed q => simp [inferFormat, Conflict]
        | hex q y d =>
          simp only [inferFormat, Conflict, ite_eq_right_iff, reduceCtorEq, imp_false]
          by_cases hx : x = y
          · cases c <;> cases d <;> simp [hx] <;> omega
          · simp [hx]

/-! ## C55 -/

theorem char_le {a b : Char} : a ≤ b ↔ a.toNat ≤ b.toNat := Iff.rfl

theorem isDec_iff (c : Char) : IsDec c ↔ 48 ≤ c.toNat ∧ c.toNat ≤ 57 := by
  unfold IsDec; rw [char_le, char_le]; exact Iff.rfl

theorem isHex_any {k : Casing} {c : Char} (h : IsHex k c) : IsHex .any c := by
  cases k with
  | any => exact h
  | upper => rcases h with h | h <;> simp [IsHex, h]
  | lower => rcases h with h | h <;> simp [IsHex, h]

theorem isHex_iff (c : Char) : IsHex .any c ↔
    (48 ≤ c.toNat ∧ c.toNat ≤ 57) ∨ (97 ≤ c.toNat ∧ c.toNat ≤ 102) ∨ (65 ≤ c.toNat ∧ c.toNat ≤ 70) := by
  show (IsDec c ∨ ('a' ≤ c ∧ c ≤ 'f') ∨ ('A' ≤ c ∧ c ≤ 'F')) ↔ _
  rw [isDec_iff, char_le, char_le, char_le, char_le]; exact Iff.rfl

theorem digitValue_eq (c : Char) : digitValue c =
    if c.toNat ≤ 57 then c.toNat - 48 else if c.toNat ≤ 70 then c.toNat - 65 + 10 else c.toNat - 97 + 10 := by
  unfold digitValue; simp only [char_le]; rfl

theorem toDigit_dec {c : Char} (h : IsDec c) : toDigit 10 c = some (digitValue c) := by
  rw [isDec_iff] at h
  rw [digitValue_eq]
  unfold toDigit
  simp only [h.1, h.2, and_self, if_true, Option.bind_some]
  rw [if_pos (by omega)]

theorem toDigit_hex {k : Casing} {c : Char} (h : IsHex k c) : toDigit 16 c = some (digitValue c) := by
  have h := isHex_any h
  rw [isHex_iff] at h
  rw [digitValue_eq]
  unfold toDigit
  generalize c.toNat = n at h ⊢
  dsimp only
  rcases h with h | h | h
  · have h3 : n ≤ 57 := h.2
    rw [if_pos h, if_pos h3, Option.bind_some, if_pos (by omega)]
  · have h1 : ¬ (48 ≤ n ∧ n ≤ 57) := by omega
    have h2 : 97 ≤ n ∧ n ≤ 122 := by omega
    have h3 : ¬ n ≤ 57 := by omega
    have h4 : ¬ n ≤ 70 := by omega
    rw [if_neg h1, if_pos h2, if_neg h3, if_neg h4, Option.bind_some, if_pos (by omega)]
  · have h1 : ¬ (48 ≤ n ∧ n ≤ 57) := by omega
    have h2 : ¬ (97 ≤ n ∧ n ≤ 122) := by omega
    have h2' : 65 ≤ n ∧ n ≤ 90 := by omega
    have h3 : ¬ n ≤ 57 := by omega
    have h4 : n ≤ 70 := by omega
    rw [if_neg h1, if_neg h2, if_pos h2', if_neg h3, if_pos h4, Option.bind_some, if_pos (by omega)]

theorem readDigits_positional {base limit : Nat} (hb : 1 ≤ base) (cs : List Char)
    (h : ∀ c ∈ cs, toDigit base c = some (digitValue c)) (acc : Nat) (hacc : acc ≤ limit) :
    readDigits base limit cs acc =
      if acc * base ^ cs.length + positional base cs ≤ limit then some (acc * base ^ cs.length + positional base cs) else none := by
  induction cs generalizing acc with
  | nil => simp [readDigits, positional, hacc]
  | cons c cs ih =>
    have he : acc * base ^ (c :: cs).length + positional base (c :: cs) =
        (acc * base + digitValue c) * base ^ cs.length + positional base cs := by
      simp only [List.length_cons, positional, Nat.pow_succ]
      ring
    rw [he]
    simp only [readDigits, h c (by simp)]
    by_cases hl : acc * base + digitValue c > limit
    · have h1 : acc * base + digitValue c ≤ (acc * base + digitValue c) * base ^ cs.length :=
        Nat.le_mul_of_pos_right _ (Nat.pow_pos hb)
      rw [if_pos hl, if_neg (by omega)]
    · rw [if_neg hl]
      exact ih (fun c' hc' => h c' (by simp [hc'])) _ (by omega)

/-- Reading digits without a sign. -/
theorem fromStrRadix_unsigned {base : Nat} (hb : 1 ≤ base) {cs : List Char} (hne : cs ≠ [])
    (h : ∀ c ∈ cs, toDigit base c = some (digitValue c)) (hs : ∀ c ∈ cs, c ≠ '-' ∧ c ≠ '+') :
    fromStrRadix base cs = if positional base cs ≤ i128Max then some (positional base cs : Int) else none := by
  have hr := readDigits_positional (limit := i128Max) hb cs h 0 (Nat.zero_le _)
  cases cs with
  | nil => exact absurd rfl hne
  | cons d ds =>
    have hs := hs d (by simp)
    unfold fromStrRadix
    split
    · simp at *
    · rename_i he; simp at he; exact absurd he.1 hs.2
    · rename_i he; simp at he; exact absurd he.1 hs.1
    · rename_i he; simp at he; exact absurd he.1 hs.2
    · rename_i he; simp at he; exact absurd he.1 hs.1
    · rw [hr]
      simp only [Nat.zero_mul, Nat.zero_add]
      split <;> rfl

theorem dec_not_sign {c : Char} (h : IsDec c) : c ≠ '-' ∧ c ≠ '+' := by
  rw [isDec_iff] at h
  constructor <;> rintro rfl <;> simp at h

theorem hex_not_sign {k : Casing} {c : Char} (h : IsHex k c) : c ≠ '-' ∧ c ≠ '+' ∧ c ≠ 'x' := by
  have h := isHex_any h
  rw [isHex_iff] at h
  refine ⟨?_, ?_, ?_⟩ <;> rintro rfl <;> simp at h

theorem casingOk_of {k : Casing} {cs : List Char} (h : ∀ c ∈ cs, IsHex k c) : casingOk k cs = true := by
  cases k with
  | any => rfl
  | upper =>
    simp only [casingOk, List.all_eq_true]
    intro c hc
    rcases h c hc with ⟨h1, h2⟩ | ⟨h1, h2⟩ <;> simp [h1, h2]
  | lower =>
    simp only [casingOk, List.all_eq_true]
    intro c hc
    rcases h c hc with ⟨h1, h2⟩ | ⟨h1, h2⟩ <;> simp [h1, h2]

/-- What a format makes of a number: accepted if it fits into 128 bits, otherwise rejected as out of range. -/
def fits (v : Int) : Except NumErr Int := if -(2 ^ 127) ≤ v ∧ v < 2 ^ 127 then .ok v else .error .invalidFormat

theorem fits_nat (n : Nat) : fits n = if n ≤ i128Max then .ok (n : Int) else .error .invalidFormat := by
  unfold fits i128Max
  by_cases h : n ≤ 2 ^ 127 - 1
  · rw [if_pos h, if_pos (by omega)]
  · rw [if_neg h, if_neg (by omega)]

/-- **C55**: a text which matches the regular expression of a format as a whole denotes a number, and the format reads
exactly this number; the only reason for which it may be rejected is that the number does not fit into 128 bits. -/
theorem C55_matched_is_read (f : NumFmt) (s : List Char) (h : MatchesFormat s f) :
    ∃ v, Denotes s v f ∧ parseWithFormat s f = fits v := by
  cases f with
  | unsigned p =>
    obtain ⟨h1, h2, h3, h4⟩ := h
    have hne : s ≠ [] := by rintro rfl; simp at h2
    refine ⟨positional 10 s, rfl, ?_⟩
    rw [fits_nat]
    unfold parseWithFormat
    have hs : ¬ (s.head? = some '-' ∨ s.head? = some '+') := by
      cases s with
      | nil => exact absurd rfl hne
      | cons c cs =>
        have := dec_not_sign (h1 c (by simp))
        simp [this.1, this.2]
    simp only [hs, if_false]
    rw [fromStrRadix_unsigned (by omega) hne (fun c hc => toDigit_dec (h1 c hc)) (fun c hc => dec_not_sign (h1 c hc))]
    by_cases hl : positional 10 s ≤ i128Max
    · simp only [hl, if_true]
      split
      · rfl
      · rw [if_neg (by omega)]
    · simp only [hl, if_false]
  | signed p =>
    obtain ⟨sign, ds, rfl, hsign, h1, h2, h3, h4⟩ := h
    have hne : ds ≠ [] := by rintro rfl; simp at h2
    have hd : ∀ c ∈ ds, toDigit 10 c = some (digitValue c) := fun c hc => toDigit_dec (h1 c hc)
    rcases hsign with rfl | rfl | rfl
    · refine ⟨positional 10 ds, ⟨[], ds, rfl, h1, .inr ⟨.inl rfl, rfl⟩⟩, ?_⟩
      rw [fits_nat]
      have hstrip : stripSign ds = ds := by
        cases ds with
        | nil => rfl
        | cons c cs =>
          have := dec_not_sign (h1 c (by simp))
          unfold stripSign
          split
          · rename_i heq; simp at heq; exact absurd heq.1 this.1
          · rename_i heq; simp at heq; exact absurd heq.1 this.2
          · rfl
      unfold parseWithFormat
      simp only [List.nil_append]
      simp only [fromStrRadix_unsigned (by omega) hne hd (fun c hc => dec_not_sign (h1 c hc)), hstrip]
      by_cases hl : positional 10 ds ≤ i128Max
      · simp only [hl, if_true]
        split
        · rfl
        · rw [if_neg (by omega)]
      · simp only [hl, if_false]
    · refine ⟨-(positional 10 ds : Int), ⟨['-'], ds, rfl, h1, .inl ⟨rfl, rfl⟩⟩, ?_⟩
      have hr := readDigits_positional (limit := i128Max + 1) (by omega) ds hd 0 (Nat.zero_le _)
      simp only [Nat.zero_mul, Nat.zero_add] at hr
      have hf : fromStrRadix 10 ('-' :: ds) = if positional 10 ds ≤ i128Max + 1 then some (-(positional 10 ds : Int)) else none := by
        cases ds with
        | nil => exact absurd rfl hne
        | cons c cs =>
          simp only [fromStrRadix, hr]
          split <;> rfl
      unfold parseWithFormat
      simp only [List.singleton_append, hf, stripSign]
      have hfit : fits (-(positional 10 ds : Int)) =
          if positional 10 ds ≤ i128Max + 1 then .ok (-(positional 10 ds : Int)) else .error .invalidFormat := by
        unfold fits i128Max
        by_cases hl : positional 10 ds ≤ 2 ^ 127 - 1 + 1
        · rw [if_pos hl, if_pos (by omega)]
        · rw [if_neg hl, if_neg (by omega)]
      rw [hfit]
      by_cases hl : positional 10 ds ≤ i128Max + 1
      · simp only [hl, if_true]
        split
        · rfl
        · rw [if_neg (by omega)]
      · simp only [hl, if_false]
    · refine ⟨positional 10 ds, ⟨['+'], ds, rfl, h1, .inr ⟨.inr rfl, rfl⟩⟩, ?_⟩
      rw [fits_nat]
      have hr := readDigits_positional (limit := i128Max) (by omega) ds hd 0 (Nat.zero_le _)
      simp only [Nat.zero_mul, Nat.zero_add] at hr
      have hf : fromStrRadix 10 ('+' :: ds) = if positional 10 ds ≤ i128Max then some (positional 10 ds : Int) else none := by
        cases ds with
        | nil => exact absurd rfl hne
        | cons c cs =>
          simp only [fromStrRadix, hr]
          split <;> rfl
      unfold parseWithFormat
      simp only [List.singleton_append, hf, stripSign]
      by_cases hl : positional 10 ds ≤ i128Max
      · simp only [hl, if_true]
        split
        · rfl
        · rw [if_neg (by omega)]
      · simp only [hl, if_false]
  | hex p pre k =>
    obtain ⟨ds, rfl, h1, h2, h3, h4⟩ := h
    have hne : ds ≠ [] := by rintro rfl; simp at h2
    refine ⟨positional 16 ds, ⟨ds, rfl, rfl⟩, ?_⟩
    rw [fits_nat]
    have hr := fromStrRadix_unsigned (base := 16) (by omega) hne (fun c hc => toDigit_hex (h1 c hc))
      (fun c hc => ⟨(hex_not_sign (h1 c hc)).1, (hex_not_sign (h1 c hc)).2.1⟩)
    have hx : strip0x ds = none := by
      match ds, h1 with
      | [], _ => rfl
      | [d], _ => simp [strip0x]
      | d :: e :: ds, h1 =>
        have he := (hex_not_sign (h1 e (by simp))).2.2
        unfold strip0x
        split
        · rename_i heq; simp at heq; exact absurd heq.2.1 he
        · rfl
    have hc := casingOk_of h1
    have hnl : ¬ (p > 0 ∧ ds.length < p) := by omega
    unfold parseWithFormat
    cases pre with
    | false =>
      simp only [Bool.false_eq_true, if_false, List.nil_append, hx, hr]
      by_cases hl : positional 16 ds ≤ i128Max
      · simp only [hl, if_true, hc, Bool.not_true, Bool.false_eq_true, if_false, hnl]
      · simp only [hl, if_false]
    | true =>
      have hx' : strip0x (['0', 'x'] ++ ds) = some ds := rfl
      simp only [if_true, hx', hr]
      by_cases hl : positional 16 ds ≤ i128Max
      · simp only [hl, if_true, hc, Bool.not_true, Bool.false_eq_true, if_false, hnl]
      · simp only [hl, if_false]

theorem showDigits_length {base n k : Nat} (hb : 1 < base) (hk : 1 ≤ k) (h : n < base ^ k) :
    1 ≤ (showDigits base n).length ∧ (showDigits base n).length ≤ k := by
  refine ⟨?_, ?_⟩
  · have := showDigits_ne base n
    exact List.length_pos_iff.2 this
  · unfold showDigits
    split
    · simpa using hk
    · rw [List.length_reverse]
      exact (Nat.digits_length_le_iff hb _).2 h

theorem digitChar_dec {up : Bool} {d : Nat} (h : d < 10) : IsDec (digitChar up d) := by
  have : ∀ d < 10, ∀ up : Bool, '0' ≤ digitChar up d ∧ digitChar up d ≤ '9' := by decide
  exact this d h up

theorem digitChar_hex (k : Casing) {d : Nat} (h : d < 16) : IsHex k (digitChar (k == .upper) d) := by
  by_cases h10 : d < 10
  · have := digitChar_dec (up := k == .upper) h10
    cases k <;> exact .inl this
  · have hl : ∀ d < 16, 10 ≤ d → 'a' ≤ digitChar false d ∧ digitChar false d ≤ 'f' := by decide
    have hu : ∀ d < 16, 10 ≤ d → 'A' ≤ digitChar true d ∧ digitChar true d ≤ 'F' := by decide
    cases k with
    | any => exact .inr (.inl (hl d h (by omega)))
    | lower => exact .inr (hl d h (by omega))
    | upper => exact .inr (hu d h (by omega))

/-- The number of digits which the regular expression of a format can match. -/
def mostDigits : NumFmt → Nat
  | .hex _ _ _ => 32
  | _ => 39

/-- **C55**: a number in the range of a format, printed in the format, is matched by the regular expression of the
format, unless the precision is larger than the expression allows. -/
theorem C55_printed_matches (f : NumFmt) (v : Int) (h : InFormatRange v f) (hp : precisionOf f ≤ mostDigits f) :
    MatchesFormat (display v f) f := by
  rw [display_eq]
  cases f with
  | unsigned p =>
    obtain ⟨h1, h2⟩ := h
    have hn : asU64 v < 10 ^ 39 := by unfold asU64; omega
    have hl := showDigits_length (base := 10) (by omega) (by omega) hn
    have hp : p ≤ 39 := hp
    refine ⟨?_, ?_⟩
    · intro c hc
      obtain ⟨d, hd, rfl⟩ := List.mem_map.1 hc
      exact digitChar_dec (padDigits_lt (by omega) _ _ d hd)
    · unfold DigitCount
      rw [List.length_map, padDigits_length]
      omega
  | signed p =>
    obtain ⟨h1, h2⟩ := h
    have hn : v.natAbs < 10 ^ 39 := by omega
    have hl := showDigits_length (base := 10) (by omega) (by omega) hn
    have hp : p ≤ 39 := hp
    refine ⟨_, _, rfl, ?_, ?_, ?_⟩
    · split <;> simp
    · intro c hc
      obtain ⟨d, hd, rfl⟩ := List.mem_map.1 hc
      exact digitChar_dec (padDigits_lt (by omega) _ _ d hd)
    · unfold DigitCount
      rw [List.length_map, padDigits_length]
      omega
  | hex p pre k =>
    obtain ⟨h1, h2⟩ := h
    have hn : asU128 v < 16 ^ 32 := by unfold asU128; omega
    have hl := showDigits_length (base := 16) (by omega) (by omega) hn
    have hp : p ≤ 32 := hp
    refine ⟨_, rfl, ?_, ?_⟩
    · intro c hc
      obtain ⟨d, hd, rfl⟩ := List.mem_map.1 hc
      exact digitChar_hex k (padDigits_lt (by omega) _ _ d hd)
    · unfold DigitCount
      rw [List.length_map, padDigits_length]
      omega

/-- **C55** fails for larger precisions, which the parser accepts (a precision is any number up to 255): nothing can
match the expression. (In the program, the regular expression `[0-9]{40,39}` cannot even be compiled.) -/
theorem C55_precision_refuted (s : List Char) : ¬ MatchesFormat s (.unsigned 40) := by
  rintro ⟨-, h1, h2, h3⟩; omega

example : MatchesFormat "0x00ff".toList (.hex 4 true .lower) := by
  refine ⟨"00ff".toList, rfl, ?_, by decide, by decide, by decide⟩
  have h : ∀ x ∈ "00ff".toList, ('0' ≤ x ∧ x ≤ '9') ∨ ('a' ≤ x ∧ x ≤ 'f') := by decide
  exact h

end Litcheck
