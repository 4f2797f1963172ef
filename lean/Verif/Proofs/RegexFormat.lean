import Verif.Proofs.RegexLang
import Verif.Props.Number
import Verif.Model.Smart

/-!
# What the regular expressions of the numeric formats match
-/

namespace Litcheck.Regex
open RegexSpec Litcheck.Spec Litcheck.Smart
variable {ic : Bool} {b : Buf}

/-- The precision is one which the regular expression can express. -/
def okPrecision : NumFmt → Prop
  | .unsigned p | .signed p => p ≤ 39
  | .hex p _ _ => p ≤ 32

/-- The digits of a casing. -/
def hexRanges : Casing → List (Nat × Nat)
  | .any => [(65, 70), (97, 102), (48, 57)]
  | .upper => [(65, 70), (48, 57)]
  | .lower => [(97, 102), (48, 57)]

/-- The items of the expression of a format, in reverse. -/
def formatItems : NumFmt → List Re
  | .unsigned p => [.rep (.cls false [(48, 57)]) (if p = 0 then 1 else p) (some 39) true]
  | .signed p => [.rep (.cls false [(48, 57)]) (if p = 0 then 1 else p) (some 39) true,
      .rep (.cls false [(45, 45), (43, 43)]) 0 (some 1) true]
  | .hex p pre c => .rep (.cls false (hexRanges c)) (if p = 0 then 1 else p) (some 32) true ::
      (if pre then [.char 'x', .char '0'] else [])

theorem digit_digitChar {d : Nat} (hd : d < 10) : digit (Num.digitChar false d) = some d := by
  have : ∀ d < 10, digit (Num.digitChar false d) = some d := by decide
  exact this d hd

theorem steps_count (lz : Bool) (t : Frame) (stk : List Frame) : ∀ (ds : List Nat) (m : Option Nat), ds ≠ [] → (∀ d ∈ ds, d < 10) →
    steps ⟨.count m, lz, t, stk⟩ (ds.map (Num.digitChar false)) = some ⟨.count (some (fromDigits 10 (m.getD 0) ds)), lz, t, stk⟩
  | [], m, h, _ => absurd rfl h
  | [d], m, _, hd => by
    have := digit_digitChar (hd d (by simp))
    simp [steps, step, this, fromDigits]
  | d :: e :: ds, m, _, hd => by
    have h1 := digit_digitChar (hd d (by simp))
    have h2 := steps_count lz t stk (e :: ds) (some (m.getD 0 * 10 + d)) (by simp) (fun x hx => hd x (by simp [hx]))
    simp only [List.map_cons, steps] at h2 ⊢
    simp only [step, h1, Option.bind_some]
    simp only [step] at h2
    rw [h2]
    rfl

/-- The count between braces. -/
theorem steps_precision (p hi : Nat) (tail : Str) (hp : p ≤ hi) (lz : Bool) (t : Frame) (stk : List Frame) (r : Re) (rs : List Re)
    (ht : t.seq = r :: rs) (htail : ∀ lz t stk m, steps ⟨.count (some m), lz, t, stk⟩ tail = 
      (if m ≤ hi then (PSt.repeat_ ⟨.normal, lz, t, stk⟩ m (some hi)) else none)) :
    steps ⟨.count none, lz, t, stk⟩ (Num.showNat 10 false p ++ tail) =
      some ⟨.normal, true, { t with seq := .rep r p (some hi) true :: rs }, stk⟩ := by
  rw [steps_append, showNat_map, steps_count _ _ _ _ _ (showDigits_ne _ _) (showDigits_lt (by omega) _),
    Option.bind_some, Option.getD_none, fromDigits_show, htail, if_pos hp]
  simp [PSt.repeat_, ht]

theorem tail39 (lz : Bool) (t : Frame) (stk : List Frame) (m : Nat) : steps ⟨.count (some m), lz, t, stk⟩ ",39}".toList = 
      (if m ≤ 39 then (PSt.repeat_ ⟨.normal, lz, t, stk⟩ m (some 39)) else none) := by
  rw [show ",39}".toList = [',', '3', '9', '}'] from rfl]
  by_cases h : m ≤ 39
  · simp [steps, step, digit, h, PSt.repeat_]
  · simp [steps, step, digit, h, PSt.repeat_]

theorem tail32 (lz : Bool) (t : Frame) (stk : List Frame) (m : Nat) : steps ⟨.count (some m), lz, t, stk⟩ ",32}".toList = 
      (if m ≤ 32 then (PSt.repeat_ ⟨.normal, lz, t, stk⟩ m (some 32)) else none) := by
  rw [show ",32}".toList = [',', '3', '2', '}'] from rfl]
  by_cases h : m ≤ 32
  · simp [steps, step, digit, h, PSt.repeat_]
  · simp [steps, step, digit, h, PSt.repeat_]

/-- The class of a casing. -/
def clsSrc : Casing → Str
  | .any => "[A-Fa-f0-9]".toList
  | .upper => "[A-F0-9]".toList
  | .lower => "[a-f0-9]".toList

theorem body_unsigned (p : Nat) : formatBody (.unsigned p) =
    "[0-9]{".toList ++ (Num.showNat 10 false (if p = 0 then 1 else p) ++ ",39}".toList) := by
  simp only [formatBody]
  by_cases h : p = 0
  · subst h; decide +kernel
  · rw [if_neg h, if_neg h, List.append_assoc]

theorem body_signed (p : Nat) : formatBody (.signed p) =
    "[-+]?[0-9]{".toList ++ (Num.showNat 10 false (if p = 0 then 1 else p) ++ ",39}".toList) := by
  simp only [formatBody]
  by_cases h : p = 0
  · subst h; decide +kernel
  · rw [if_neg h, if_neg h, List.append_assoc]

theorem body_hex (p : Nat) (pre : Bool) (c : Casing) : formatBody (.hex p pre c) =
    ((if pre then "0x".toList else []) ++ clsSrc c ++ "{".toList) ++
      (Num.showNat 10 false (if p = 0 then 1 else p) ++ ",32}".toList) := by
  have h1 : (if p = 0 then ['1'] else Num.showNat 10 false p) = Num.showNat 10 false (if p = 0 then 1 else p) := by
    split
    · decide +kernel
    · rfl
  rw [← h1, ← List.append_assoc]
  cases c <;> rfl

/-- The source of the expression of a format is read as its items. -/
theorem items_format (f : NumFmt) (hp : okPrecision f) : Items (formatBody f) (formatItems f) := by
  cases f with
  | unsigned p =>
    refine ⟨true, ?_⟩
    have e : steps init "[0-9]{".toList = some ⟨.count none, false, ⟨none, [], [.cls false [(48, 57)]]⟩, []⟩ := by decide +kernel
    have hp' : (if p = 0 then 1 else p) ≤ 39 := by simp only [okPrecision] at hp; split <;> omega
    have := steps_precision _ 39 ",39}".toList hp' false ⟨none, [], [.cls false [(48, 57)]]⟩ [] (.cls false [(48, 57)]) [] rfl tail39
    rw [body_unsigned, steps_append, e, Option.bind_some, this, formatItems]
  | signed p =>
    refine ⟨true, ?_⟩
    have e : steps init "[-+]?[0-9]{".toList = some ⟨.count none, false, ⟨none, [], [.cls false [(48, 57)],
      .rep (.cls false [(45, 45), (43, 43)]) 0 (some 1) true]⟩, []⟩ := by decide +kernel
    have hp' : (if p = 0 then 1 else p) ≤ 39 := by simp only [okPrecision] at hp; split <;> omega
    have := steps_precision _ 39 ",39}".toList hp' false ⟨none, [], [.cls false [(48, 57)], .rep (.cls false [(45, 45), (43, 43)]) 0 (some 1) true]⟩
      [] (.cls false [(48, 57)]) [.rep (.cls false [(45, 45), (43, 43)]) 0 (some 1) true] rfl tail39
    rw [body_signed, steps_append, e, Option.bind_some, this, formatItems]
  | hex p pre c =>
    refine ⟨true, ?_⟩
    have e : ∀ (pre : Bool) (c : Casing), steps init ((if pre then "0x".toList else []) ++ clsSrc c ++ "{".toList) =
        some ⟨.count none, false, ⟨none, [], .cls false (hexRanges c) ::
        (if pre then [.char 'x', .char '0'] else [])⟩, []⟩ := by
      intro pre c
      cases pre <;> cases c <;> decide +kernel
    have hp' : (if p = 0 then 1 else p) ≤ 32 := by simp only [okPrecision] at hp; split <;> omega
    have := steps_precision (if p = 0 then 1 else p) 32 ",32}".toList hp' false ⟨none, [], .cls false (hexRanges c) ::
        (if pre then [.char 'x', .char '0'] else [])⟩ [] (.cls false (hexRanges c)) (if pre then [.char 'x', .char '0'] else []) rfl tail32
    rw [body_hex, steps_append, e, Option.bind_some, this, formatItems]

theorem char_ofNat_toNat {v : Nat} (h : Scalar v) : (Char.ofNat v).toNat = v := by
  unfold Scalar at h
  have hv : v.isValidChar := by unfold Nat.isValidChar; omega
  unfold Char.ofNat
  rw [dif_pos hv]
  simp [Char.toNat, Char.ofNatAux]

theorem otherCase_scalar {v : Nat} (h : Scalar v) : Scalar (otherCase v) := by
  unfold Scalar otherCase at *
  split
  · omega
  · split <;> omega

/-- A class matches one of its characters. -/
theorem lang_cls (rs : List (Nat × Nat)) {i j : Nat} {c : Caps} :
    Lang ic b (.cls false rs) i j c ↔ ∃ ch : Char, inRanges rs ch.toNat = true ∧ Lang ic b (Re.char ch) i j c := by
  constructor
  · rintro ⟨v, n, h1, h2, rfl, rfl⟩
    have hs := (decode_sound h1).2.2
    simp only [inClass, bne_iff_ne, ne_eq, Bool.not_eq_false, Bool.or_eq_true, Bool.and_eq_true] at h2
    rcases h2 with h2 | ⟨rfl, h2⟩
    · refine ⟨Char.ofNat v, by rw [char_ofNat_toNat hs]; exact h2, v, n, h1, inClass_char.2 (.inl ?_), rfl, rfl⟩
      rw [char_ofNat_toNat hs]
    · refine ⟨Char.ofNat (otherCase v), by rw [char_ofNat_toNat (otherCase_scalar hs)]; exact h2, v, n, h1,
        inClass_char.2 (.inr ⟨rfl, ?_⟩), rfl, rfl⟩
      rw [char_ofNat_toNat (otherCase_scalar hs)]
  · rintro ⟨ch, h, v, n, h1, h2, rfl, rfl⟩
    refine ⟨v, n, h1, ?_, rfl, rfl⟩
    simp only [inClass, bne_iff_ne, ne_eq, Bool.not_eq_false, Bool.or_eq_true, Bool.and_eq_true]
    rcases inClass_char.1 h2 with e | ⟨rfl, e⟩
    · left; rw [e]; exact h
    · right; rw [e]; exact ⟨rfl, h⟩

theorem iter_cls (rs : List (Nat × Nat)) : ∀ (n : Nat) {i j : Nat} {c : Caps},
    Iter (Lang ic b (.cls false rs)) n i j c ↔
      c = [] ∧ ∃ s : Str, s.length = n ∧ (∀ ch ∈ s, inRanges rs ch.toNat = true) ∧ Occurs ic (utf8 s) b i j
  | 0, i, j, c => by
    constructor
    · intro h
      cases h with
      | zero => exact ⟨rfl, [], rfl, by simp, by simp [utf8, occurs_nil]⟩
    · rintro ⟨rfl, s, hs, _, ho⟩
      have : s = [] := by simpa using hs
      subst this
      simp only [utf8, List.flatMap_nil, occurs_nil] at ho
      subst ho
      exact .zero
  | n + 1, i, j, c => by
    constructor
    · intro h
      cases h with
      | succ h1 h2 =>
        obtain ⟨ch, h3, h4⟩ := (lang_cls rs).1 h1
        obtain ⟨h5, rfl⟩ := (lang_char ch).1 h4
        obtain ⟨rfl, s, h6, h7, h8⟩ := (iter_cls rs n).1 h2
        refine ⟨rfl, ch :: s, by simp [h6], by simpa using ⟨h3, h7⟩, ?_⟩
        rw [utf8_cons, occurs_append]
        exact ⟨_, h5, h8⟩
    · rintro ⟨rfl, s, hs, hc, ho⟩
      cases s with
      | nil => simp at hs
      | cons ch s =>
        rw [utf8_cons, occurs_append] at ho
        obtain ⟨k, h1, h2⟩ := ho
        exact .succ (c := []) (d := []) ((lang_cls rs).2 ⟨ch, hc ch (by simp), (lang_char ch).2 ⟨h1, rfl⟩⟩)
          ((iter_cls rs n).2 ⟨rfl, s, by simpa using hs, fun x hx => hc x (by simp [hx]), h2⟩)

theorem lang_rep_cls (rs : List (Nat × Nat)) (m M : Nat) (g : Bool) {i j : Nat} {c : Caps} :
    Lang ic b (.rep (.cls false rs) m (some M) g) i j c ↔
      c = [] ∧ ∃ s : Str, m ≤ s.length ∧ (s.length ≤ M ∨ s.length = m) ∧ (∀ ch ∈ s, inRanges rs ch.toNat = true) ∧ Occurs ic (utf8 s) b i j := by
  constructor
  · rintro ⟨n, h1, h2, h⟩
    obtain ⟨rfl, s, rfl, h3, h4⟩ := (iter_cls rs n).1 h
    exact ⟨rfl, s, h1, h2 M rfl, h3, h4⟩
  · rintro ⟨rfl, s, h1, h2, h3, h4⟩
    exact ⟨s.length, h1, fun m' hm => by cases hm; exact h2, (iter_cls rs _).2 ⟨rfl, s, rfl, h3, h4⟩⟩

theorem inRanges_dec (c : Char) : inRanges [(48, 57)] c.toNat = true ↔ IsDec c := by
  rw [isDec_iff]; simp [inRanges]

theorem inRanges_sign (c : Char) : inRanges [(45, 45), (43, 43)] c.toNat = true ↔ c = '-' ∨ c = '+' := by
  have e : ∀ d : Char, c = d ↔ c.toNat = d.toNat := fun d => ⟨fun h => h ▸ rfl, fun h => Char.toNat_inj.1 h⟩
  rw [e, e]
  simp only [inRanges, List.any_cons, List.any_nil, Bool.or_false, Bool.or_eq_true, Bool.and_eq_true, decide_eq_true_eq]
  have h1 : '-'.toNat = 45 := rfl
  have h2 : '+'.toNat = 43 := rfl
  omega

theorem inRanges_hex (k : Casing) (c : Char) : inRanges (hexRanges k) c.toNat = true ↔ IsHex k c := by
  have e : ∀ d e : Char, (d ≤ c ∧ c ≤ e) ↔ (d.toNat ≤ c.toNat ∧ c.toNat ≤ e.toNat) := fun d e => Iff.rfl
  have h1 : 'a'.toNat = 97 := rfl
  have h2 : 'f'.toNat = 102 := rfl
  have h3 : 'A'.toNat = 65 := rfl
  have h4 : 'F'.toNat = 70 := rfl
  cases k <;> simp only [hexRanges, inRanges, List.any_cons, List.any_nil, Bool.or_false, Bool.or_eq_true, Bool.and_eq_true,
    decide_eq_true_eq, IsHex, isDec_iff, e, h1, h2, h3, h4] <;> omega

/-- The texts which the expression of a format matches. -/
theorem lang_format (f : NumFmt) (hp : okPrecision f) {i j : Nat} {c : Caps} :
    Lang ic b (seqRe (formatItems f)) i j c ↔ c = [] ∧ ∃ t, MatchesFormat t f ∧ Occurs ic (utf8 t) b i j := by
  cases f with
  | unsigned p =>
    simp only [okPrecision] at hp
    simp only [formatItems, seqRe, lang_rep_cls, inRanges_dec, MatchesFormat, DigitCount]
    constructor
    · rintro ⟨rfl, s, h1, h2, h3, h4⟩
      refine ⟨rfl, s, ⟨h3, ?_⟩, h4⟩
      split at h1 <;> split at h2 <;> omega
    · rintro ⟨rfl, s, ⟨h3, h1⟩, h4⟩
      refine ⟨rfl, s, ?_, .inl h1.2.2, h3, h4⟩
      split <;> omega
  | signed p =>
    simp only [okPrecision] at hp
    simp only [formatItems, seqRe, Lang.eq_5, lang_rep_cls, inRanges_dec, inRanges_sign, MatchesFormat, DigitCount]
    constructor
    · rintro ⟨k, c1, c2, ⟨rfl, s1, -, h1, h2, h3⟩, ⟨rfl, s, h4, h5, h6, h7⟩, rfl⟩
      refine ⟨rfl, s1 ++ s, ⟨s1, s, rfl, ?_, h6, ?_⟩, ?_⟩
      · match s1, h1, h2 with
        | [], _, _ => exact .inl rfl
        | [x], _, h2 =>
          rcases h2 x (by simp) with rfl | rfl
          · exact .inr (.inl rfl)
          · exact .inr (.inr rfl)
        | _ :: _ :: _, h1, _ => simp at h1
      · split at h4 <;> split at h5 <;> omega
      · rw [utf8_append, occurs_append]; exact ⟨k, h3, h7⟩
    · rintro ⟨rfl, t, ⟨s1, s, rfl, h1, h6, h4⟩, h7⟩
      rw [utf8_append, occurs_append] at h7
      obtain ⟨k, h8, h9⟩ := h7
      refine ⟨k, [], [], ⟨rfl, s1, Nat.zero_le _, ?_, ?_, h8⟩, ⟨rfl, s, ?_, .inl h4.2.2, h6, h9⟩, rfl⟩
      · rcases h1 with rfl | rfl | rfl <;> simp
      · rcases h1 with rfl | rfl | rfl <;> simp
      · split <;> omega
  | hex p pre k =>
    simp only [okPrecision] at hp
    have key : Lang ic b (seqRe (formatItems (.hex p pre k))) i j c ↔
        ∃ x c1 c2, Lang ic b (seqRe ((if pre then ['0', 'x'] else []).map Re.char).reverse) i x c1 ∧
          Lang ic b (.rep (.cls false (hexRanges k)) (if p = 0 then 1 else p) (some 32) true) x j c2 ∧ c = c1 ++ c2 := by
      rw [formatItems, lang_seq_cons]
      cases pre <;> rfl
    rw [key]
    simp only [lang_chars, lang_rep_cls, inRanges_hex, MatchesFormat, DigitCount]
    constructor
    · rintro ⟨x, c1, c2, ⟨h1, rfl⟩, ⟨rfl, s, h4, h5, h6, h7⟩, rfl⟩
      refine ⟨rfl, (if pre then ['0', 'x'] else []) ++ s, ⟨s, rfl, h6, ?_⟩, ?_⟩
      · split at h4 <;> split at h5 <;> omega
      · rw [utf8_append, occurs_append]; exact ⟨x, h1, h7⟩
    · rintro ⟨rfl, t, ⟨s, rfl, h6, h4⟩, h7⟩
      rw [utf8_append, occurs_append] at h7
      obtain ⟨x, h8, h9⟩ := h7
      refine ⟨x, [], [], ⟨h8, rfl⟩, ⟨rfl, s, ?_, .inl h4.2.2, h6, h9⟩, rfl⟩
      split <;> omega

end Litcheck.Regex
