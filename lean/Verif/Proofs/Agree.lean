import Verif.Proofs.StaticSound

/-!
# The two ways in which a captured number is read agree
-/

namespace Litcheck.Pattern
open Litcheck.Smart Litcheck.Spec Litcheck.RegexSpec Litcheck.PatternSpec Litcheck.Num
open Litcheck.Regex hiding Items

theorem utf8_ascii {t : Str} (h : ∀ c ∈ t, c.toNat < 128) : (utf8 t).length = t.length := by
  induction t with
  | nil => rfl
  | cons c t ih =>
    have e : encode c.toNat = [c.toNat.toUInt8] := if_pos (h c (by simp))
    rw [utf8_cons, e]
    simp [ih (fun x hx => h x (by simp [hx]))]

theorem positional_dropZeros (base : Nat) : ∀ t : Str, positional base (t.dropWhile (· == '0')) = positional base t
  | [] => rfl
  | c :: t => by
    by_cases h : c = '0'
    · subst h
      rw [List.dropWhile_cons_of_pos (by simp), positional_dropZeros base t]
      simp [positional, digitValue]
    · rw [List.dropWhile_cons_of_neg (by simpa using h)]

theorem trim_digits {t : Str} (h : ∀ c ∈ t, BParse.isWs c = false) : Script.trim t = t := by
  have h1 : ∀ s : Str, (∀ c ∈ s, BParse.isWs c = false) → s.dropWhile BParse.isWs = s := by
    intro s hs
    cases s with
    | nil => rfl
    | cons c s => rw [List.dropWhile_cons_of_neg (by simp [hs c (by simp)])]
  unfold Script.trim Script.trimEnd Script.trimStart
  rw [h1 t h, h1 t.reverse (by simpa using h)]
  simp

theorem ws_small {c : Char} (h : 33 ≤ c.toNat) (h' : c.toNat < 128) : BParse.isWs c = false := by
  have e : c.val.toNat = c.toNat := rfl
  unfold BParse.isWs
  simp only [Bool.or_eq_false_iff, Bool.and_eq_false_iff, beq_eq_false_iff_ne, decide_eq_false_iff_not, ne_eq,
    ← UInt32.toNat_inj, UInt32.le_iff_toNat_le, e]
  refine ⟨⟨⟨⟨⟨⟨⟨⟨⟨⟨?_, ?_⟩, ?_⟩, ?_⟩, ?_⟩, ?_⟩, ?_⟩, ?_⟩, ?_⟩, ?_⟩, ?_⟩ <;> simp <;> omega

theorem read_dec {s : Str} {v : Int} (h : ∀ c ∈ s, IsDec c) (hr : fromStrRadix 10 s = some v) : v = positional 10 s := by
  by_cases hne : s = []
  · subst hne; simp [fromStrRadix] at hr
  · rw [fromStrRadix_unsigned (by omega) hne (fun c hc => toDigit_dec (h c hc)) (fun c hc => dec_not_sign (h c hc))] at hr
    split at hr
    · simpa using hr.symm
    · simp at hr

theorem read_hex {s : Str} {v : Int} (h : ∀ c ∈ s, IsHex .any c) (hr : fromStrRadix 16 s = some v) : v = positional 16 s := by
  by_cases hne : s = []
  · subst hne; simp [fromStrRadix] at hr
  · rw [fromStrRadix_unsigned (by omega) hne (fun c hc => toDigit_hex (h c hc))
      (fun c hc => ⟨(hex_not_sign (h c hc)).1, (hex_not_sign (h c hc)).2.1⟩)] at hr
    split at hr
    · simpa using hr.symm
    · simp at hr

theorem fits_inv {v n : Int} (h : fits v = .ok n) : n = v := by
  unfold fits at h
  split at h
  · simpa using h.symm
  · simp at h

theorem dropZeros_nil {base : Nat} {t : Str} (h : (t.dropWhile (· == '0')).isEmpty = true) : positional base t = 0 := by
  have e := positional_dropZeros base t
  rw [List.isEmpty_iff.1 h] at e
  exact e.symm

/-- Digits read by `parse_number`. -/
theorem parseNumber_dec {t : Str} {p : Nat} {sg : Bool} {v : Int} (h : ∀ c ∈ t, IsDec c) (hr : parseNumber t p sg = some v) :
    v = positional 10 t := by
  have hfin : ∀ s : Str, (∀ c ∈ s, IsDec c) → (match fromStrRadix 10 s with
      | none => none
      | some v => if !sg && decide (v < 0) then none else some v) = some v → v = positional 10 s := by
    intro s hs hv
    split at hv
    · simp at hv
    · rename_i w hw
      split at hv
      · simp at hv
      · simp only [Option.some.injEq] at hv
        subst hv
        exact read_dec hs hw
  unfold parseNumber at hr
  dsimp only at hr
  split at hr
  · split at hr
    · simp at hr
    · split at hr
      · rename_i he
        simp only [Option.some.injEq] at hr
        subst hr
        rw [dropZeros_nil he]; rfl
      · rw [← positional_dropZeros]
        exact hfin _ (fun c hc => h c ((List.dropWhile_sublist _).mem hc)) hr
  · exact hfin t h hr

theorem denotes_unique {t : Str} {f : NumFmt} {n v : Int} (hm : MatchesFormat t f) (hp : parseWithFormat t f = .ok n) (hd : Denotes t v f)
    : n = v := by
  obtain ⟨w, h1, h2⟩ := C55_matched_is_read f t hm
  rw [h2] at hp
  have := fits_inv hp
  subst this
  cases f with
  | unsigned p => exact h1.trans hd.symm
  | hex p pre k =>
    obtain ⟨ds, h3, h4⟩ := h1
    obtain ⟨ds', h5, h6⟩ := hd
    rw [h3] at h5
    rw [List.append_cancel_left h5] at h4
    rw [h4, h6]
  | signed p =>
    obtain ⟨s1, d1, h3, h4, h5⟩ := h1
    obtain ⟨s2, d2, h6, h7, h8⟩ := hd
    have key : s1 = s2 ∧ d1 = d2 := by
      rw [h3] at h6
      have hs1 : s1 = [] ∨ s1 = ['-'] ∨ s1 = ['+'] := by rcases h5 with h | h <;> rcases h with ⟨h | h, _⟩ <;> simp_all
      have hs2 : s2 = [] ∨ s2 = ['-'] ∨ s2 = ['+'] := by rcases h8 with h | h <;> rcases h with ⟨h | h, _⟩ <;> simp_all
      have nm : ¬ IsDec '-' := by rw [isDec_iff]; decide
      have np : ¬ IsDec '+' := by rw [isDec_iff]; decide
      rcases hs1 with rfl | rfl | rfl <;> rcases hs2 with rfl | rfl | rfl
      · exact ⟨rfl, h6⟩
      · exact absurd (h4 '-' (by simp at h6; simp [h6])) nm
      · exact absurd (h4 '+' (by simp at h6; simp [h6])) np
      · exact absurd (h7 '-' (by simp at h6; simp [← h6])) nm
      · exact ⟨rfl, by simpa using h6⟩
      · simp at h6
      · exact absurd (h7 '+' (by simp at h6; simp [← h6])) np
      · simp at h6
      · exact ⟨rfl, by simpa using h6⟩
    obtain ⟨rfl, rfl⟩ := key
    rcases h5 with ⟨rfl, h5⟩ | ⟨h, h5⟩ <;> rcases h8 with ⟨h', h8⟩ | ⟨h', h8⟩ <;> simp_all

/-- The characters of a number. -/
theorem format_chars {t : Str} {f : NumFmt} (h : MatchesFormat t f) : ∀ c ∈ t, 33 ≤ c.toNat ∧ c.toNat < 128 := by
  intro c hc
  cases f with
  | unsigned p => have := h.1 c hc; rw [isDec_iff] at this; omega
  | signed p =>
    obtain ⟨sg, ds, rfl, h1, h2, _⟩ := h
    rcases List.mem_append.1 hc with hc | hc
    · rcases h1 with rfl | rfl | rfl
      · simp at hc
      · simp at hc; subst hc; decide
      · simp at hc; subst hc; decide
    · have := h2 c hc; rw [isDec_iff] at this; omega
  | hex p pre k =>
    obtain ⟨ds, rfl, h1, _⟩ := h
    rcases List.mem_append.1 hc with hc | hc
    · cases pre with
      | false => simp at hc
      | true => simp at hc; rcases hc with rfl | rfl <;> decide
    · have := isHex_any (h1 c hc); rw [isHex_iff] at this; omega

/-- A captured text is converted twice, with the same result. -/
theorem asNumeric_agree {t : Str} {f f' : Option NumFmt} {n v : Int} (hm : MatchesFormat t (f.getD plainFormat))
    (hp : parseWithFormat t (f.getD plainFormat) = .ok n) (ha : asNumeric (.str t) f = some (v, f')) : v = n ∧ f' = f := by
  have hch := format_chars hm
  have hu : (utf8 t).length = t.length := utf8_ascii (fun c hc => (hch c hc).2)
  have ht : Script.trim t = t := trim_digits (fun c hc => ws_small (hch c hc).1 (hch c hc).2)
  have hd := fun v => denotes_unique (v := v) hm hp
  have hpl : (f.getD plainFormat) = f.getD (.unsigned 0) := rfl
  unfold asNumeric at ha
  dsimp only at ha
  rw [ht] at ha
  rw [hpl] at hm hd
  cases hf : f.getD (.unsigned 0) with
  | unsigned p =>
    rw [hf] at ha hm hd
    dsimp only at ha
    obtain ⟨w, hw, he⟩ := Option.map_eq_some_iff.1 ha
    simp only [Prod.mk.injEq] at he
    obtain ⟨rfl, rfl⟩ := he
    exact ⟨(hd _ (parseNumber_dec hm.1 hw)).symm, rfl⟩
  | signed p =>
    rw [hf] at ha hm hd
    dsimp only at ha
    obtain ⟨w, hw, he⟩ := Option.map_eq_some_iff.1 ha
    simp only [Prod.mk.injEq] at he
    obtain ⟨rfl, rfl⟩ := he
    refine ⟨?_, rfl⟩
    obtain ⟨sg, ds, rfl, h1, h2, h3, h4, h5⟩ := hm
    have hne : ds ≠ [] := by rintro rfl; simp at h3
    rcases h1 with rfl | rfl | rfl
    · exact (hd _ ⟨[], ds, rfl, h2, .inr ⟨.inl rfl, parseNumber_dec h2 hw⟩⟩).symm
    · unfold parseNumber at hw
      dsimp only at hw
      split at hw
      · rw [hu] at hw
        simp only [List.length_append, List.length_singleton] at hw
        rw [if_pos (by omega)] at hw
        simp at hw
      · split at hw
        · simp at hw
        · rename_i x hx
          simp only [Bool.not_true, Bool.false_and, Bool.false_eq_true, if_false, Option.some.injEq] at hw
          subst hw
          refine (hd _ ⟨['-'], ds, rfl, h2, .inl ⟨rfl, ?_⟩⟩).symm
          have hr := readDigits_positional (limit := i128Max + 1) (by omega) ds (fun c hc => toDigit_dec (h2 c hc)) 0 (Nat.zero_le _)
          simp only [Nat.zero_mul, Nat.zero_add] at hr
          cases ds with
          | nil => exact absurd rfl hne
          | cons c cs =>
            simp only [List.singleton_append, fromStrRadix, hr] at hx
            split at hx
            · simpa using hx.symm
            · simp at hx
    · unfold parseNumber at hw
      dsimp only at hw
      split at hw
      · rw [hu] at hw
        simp only [List.length_append, List.length_singleton] at hw
        rw [if_pos (by omega)] at hw
        simp at hw
      · split at hw
        · simp at hw
        · rename_i x hx
          simp only [Bool.not_true, Bool.false_and, Bool.false_eq_true, if_false, Option.some.injEq] at hw
          subst hw
          refine (hd _ ⟨['+'], ds, rfl, h2, .inr ⟨.inr rfl, ?_⟩⟩).symm
          have hr := readDigits_positional (limit := i128Max) (by omega) ds (fun c hc => toDigit_dec (h2 c hc)) 0 (Nat.zero_le _)
          simp only [Nat.zero_mul, Nat.zero_add] at hr
          cases ds with
          | nil => exact absurd rfl hne
          | cons c cs =>
            simp only [List.singleton_append, fromStrRadix, hr] at hx
            split at hx
            · simpa using hx.symm
            · simp at hx
  | hex p pre k =>
    rw [hf] at ha hm hd
    dsimp only at ha
    obtain ⟨ds, rfl, h1, _⟩ := hm
    have hx : ∀ c ∈ ds, IsHex .any c := fun c hc => isHex_any (h1 c hc)
    have hs : (if pre = true then strip0x ((if pre = true then ['0', 'x'] else []) ++ ds)
        else some ((if pre = true then ['0', 'x'] else []) ++ ds)) = some ds := by
      cases pre <;> simp [strip0x]
    rw [hs] at ha
    dsimp only at ha
    split at ha
    · simp at ha
    · split at ha
      · rename_i he
        simp only [Option.some.injEq, Prod.mk.injEq] at ha
        obtain ⟨rfl, rfl⟩ := ha
        refine ⟨(hd _ ⟨ds, rfl, ?_⟩).symm, rfl⟩
        rw [dropZeros_nil he]; rfl
      · obtain ⟨w, hw, he⟩ := Option.map_eq_some_iff.1 ha
        simp only [Prod.mk.injEq] at he
        obtain ⟨rfl, rfl⟩ := he
        refine ⟨(hd _ ⟨ds, rfl, ?_⟩).symm, rfl⟩
        rw [← positional_dropZeros]
        exact read_hex (fun c hc => hx c ((List.dropWhile_sublist _).mem hc)) hw

end Litcheck.Pattern
