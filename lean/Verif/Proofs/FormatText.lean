import Verif.Proofs.Static

/-!
# The texts captured by numeric formats
-/

namespace Litcheck.Pattern
open Litcheck.Smart Litcheck.Spec Litcheck.RegexSpec Litcheck.PatternSpec Litcheck.Num
open Litcheck.Regex hiding Items
variable {ic : Bool} {b : Buf}

/-- The same character, or the same ASCII letter in the other case. -/
def SameChar (c' c : Char) : Prop :=
  c' = c ∨ (65 ≤ c'.toNat ∧ c'.toNat ≤ 90 ∧ c.toNat = c'.toNat + 32) ∨ (65 ≤ c.toNat ∧ c.toNat ≤ 90 ∧ c'.toNat = c.toNat + 32)

theorem sliceOf_cons {i j : Nat} {y : UInt8} (h : b[i]? = some y) (hij : i < j) : sliceOf b i j = y :: sliceOf b (i + 1) j := by
  unfold sliceOf
  have hl : i < (b.take j).length := by
    have := (List.getElem?_eq_some_iff.1 h).1
    simp; omega
  rw [List.drop_eq_getElem_cons hl]
  congr 1
  rw [List.getElem_take]
  exact (List.getElem?_eq_some_iff.1 h).2

theorem encode_head {c : Char} {y : UInt8} {t : Str} {rest : Buf} (hy : y.toNat < 128) (h : encode c.toNat ++ utf8 t = y :: rest) :
    c.toNat = y.toNat ∧ utf8 t = rest := by
  by_cases hc : c.toNat < 128
  · have e : encode c.toNat = [c.toNat.toUInt8] := if_pos hc
    rw [e] at h
    simp only [List.singleton_append, List.cons.injEq] at h
    refine ⟨?_, h.2⟩
    rw [← h.1, toUInt8_toNat (by omega)]
  · exfalso
    have hs := char_scalar c
    unfold Scalar at hs
    have hb := encode_big (v := c.toNat) (by omega) (by omega)
    have hn := encode_ne_nil c.toNat
    cases he : encode c.toNat with
    | nil => exact hn he
    | cons z zs =>
      rw [he] at h hb
      simp only [List.cons_append, List.cons.injEq] at h
      have := hb z (by simp)
      rw [h.1] at this
      omega

/-- A text which occurs in the input up to case, if it is ASCII. -/
theorem same_text : ∀ (t' t : Str) {i j : Nat}, (∀ c ∈ t', c.toNat < 128) → Occurs ic (utf8 t') b i j → utf8 t = sliceOf b i j →
    List.Forall₂ SameChar t' t
  | [], t, i, j, _, ho, ht => by
    have hj : j = i := occurs_nil.1 ho
    have : sliceOf b i j = [] := by
      unfold sliceOf
      rw [hj]
      apply List.drop_eq_nil_of_le
      simp
    rw [this] at ht
    cases t with
    | nil => exact .nil
    | cons c t =>
      rw [utf8_cons] at ht
      exact absurd (List.append_eq_nil_iff.1 ht).1 (encode_ne_nil _)
  | c' :: t', t, i, j, ha, ho, ht => by
    rw [utf8_cons, occurs_append] at ho
    obtain ⟨k, h1, h2⟩ := ho
    have hc' := ha c' (by simp)
    have e : encode c'.toNat = [c'.toNat.toUInt8] := if_pos hc'
    rw [e] at h1
    obtain ⟨rfl, h1⟩ := h1
    obtain ⟨y, hy, hs⟩ := h1 0 _ rfl
    have hij : i < j := by have := h2.1; simp at this; omega
    simp only [Nat.add_zero] at hy
    rw [sliceOf_cons hy hij] at ht
    have hu : c'.toNat.toUInt8.toNat = c'.toNat := toUInt8_toNat (by omega)
    unfold SameLetter at hs
    rw [hu] at hs
    have hy' : y.toNat < 128 := by
      rcases hs with hs | ⟨_, hs⟩
      · rw [← hs, hu]; exact hc'
      · omega
    cases t with
    | nil => simp [utf8] at ht
    | cons c t =>
      rw [utf8_cons] at ht
      obtain ⟨h3, h4⟩ := encode_head hy' ht
      refine .cons ?_ (same_text t' t (fun x hx => ha x (by simp [hx])) h2 h4)
      rcases hs with hs | ⟨_, hs⟩
      · left; apply Char.toNat_inj.1; rw [h3, ← hs, hu]
      · right; rw [h3]; exact hs

theorem sameChar_small {c' c : Char} (h : SameChar c' c) (hl : c'.toNat < 65) : c = c' := by
  rcases h with h | h | h
  · exact h.symm
  · omega
  · omega

theorem sameChars_small {t' t : Str} (h : List.Forall₂ SameChar t' t) (hl : ∀ c ∈ t', c.toNat < 65) : t = t' := by
  induction h with
  | nil => rfl
  | cons h1 _ ih =>
    rw [sameChar_small h1 (hl _ (by simp)), ih (fun c hc => hl c (by simp [hc]))]

theorem sameChars_hex {t' t : Str} (h : List.Forall₂ SameChar t' t) (hl : ∀ c ∈ t', IsHex .any c) : ∀ c ∈ t, IsHex .any c := by
  induction h with
  | nil => simp
  | cons h1 _ ih =>
    intro c hc
    rcases List.mem_cons.1 hc with rfl | hc
    · have h2 := hl _ (List.mem_cons_self ..)
      rw [isHex_iff] at h2 ⊢
      rcases h1 with rfl | h | h
      · exact h2
      · omega
      · omega
    · exact ih (fun c hc => hl c (by simp [hc])) c hc

theorem isDec_small {c : Char} (h : IsDec c) : c.toNat < 65 := by rw [isDec_iff] at h; omega

theorem isHex_of_casing {k : Casing} {ds : Str} (hx : ∀ c ∈ ds, IsHex .any c) (h : casingOk k ds = true) : ∀ c ∈ ds, IsHex k c := by
  intro c hc
  cases k with
  | any => exact hx c hc
  | upper =>
    simp only [casingOk, List.all_eq_true] at h
    have := h c hc
    simp only [Bool.or_eq_true, Bool.and_eq_true, decide_eq_true_eq] at this
    exact this.symm
  | lower =>
    simp only [casingOk, List.all_eq_true] at h
    have := h c hc
    simp only [Bool.or_eq_true, Bool.and_eq_true, decide_eq_true_eq] at this
    exact this.symm

theorem hex_no_prefix {ds : Str} (h : ∀ c ∈ ds, IsHex .any c) : strip0x ds = none := by
  match ds, h with
  | [], _ => rfl
  | [d], _ => simp [strip0x]
  | d :: e :: ds, h =>
    have he := h e (by simp)
    rw [isHex_iff] at he
    have : e ≠ 'x' := by
      rintro rfl
      have : 'x'.toNat = 120 := rfl
      omega
    simp [strip0x, this]

/-- A text found by the expression of a format, perhaps without regard to case, and then read with this format, is one of
the format, and it denotes what was read. -/
theorem format_text {f : NumFmt} {t t' : Str} {v : Int} {i j : Nat} (h' : MatchesFormat t' f) (ho : Occurs ic (utf8 t') b i j)
    (ht : utf8 t = sliceOf b i j) (hp : parseWithFormat t f = .ok v) : MatchesFormat t f ∧ Denotes t v f := by
  have hm : MatchesFormat t f := by
    cases f with
    | unsigned p =>
      have hs := same_text t' t (fun c hc => by have := isDec_small (h'.1 c hc); omega) ho ht
      rw [sameChars_small hs (fun c hc => isDec_small (h'.1 c hc))]
      exact h'
    | signed p =>
      have hc : ∀ c ∈ t', c.toNat < 65 := by
        obtain ⟨sign, ds, rfl, h1, h2, _⟩ := h'
        intro c hc
        rcases List.mem_append.1 hc with hc | hc
        · rcases h1 with rfl | rfl | rfl
          · simp at hc
          · simp at hc; subst hc; decide
          · simp at hc; subst hc; decide
        · exact isDec_small (h2 c hc)
      have hs := same_text t' t (fun c h => by have := hc c h; omega) ho ht
      rw [sameChars_small hs hc]
      exact h'
    | hex p pre k =>
      obtain ⟨ds', rfl, h1, h2⟩ := h'
      have ha : ∀ c ∈ ds', c.toNat < 128 := by
        intro c hc
        have := isHex_any (h1 c hc)
        rw [isHex_iff] at this
        omega
      cases pre with
      | false =>
        simp only [Bool.false_eq_true, if_false, List.nil_append] at ho ⊢
        have hs := same_text ds' t ha ho ht
        have hx := sameChars_hex hs (fun c hc => isHex_any (h1 c hc))
        refine ⟨t, by simp, ?_, by rw [← hs.length_eq]; exact h2⟩
        refine isHex_of_casing hx ?_
        unfold parseWithFormat at hp
        simp only [hex_no_prefix hx, Bool.false_eq_true, if_false] at hp
        split at hp
        · simp at hp
        · split at hp
          · simp at hp
          · rename_i hk; simpa using hk
      | true =>
        simp only [if_true] at ho ⊢
        have hs := same_text _ t (by
          intro c hc
          rcases List.mem_append.1 hc with hc | hc
          · simp at hc; rcases hc with rfl | rfl <;> decide
          · exact ha c hc) ho ht
        simp only [List.cons_append, List.nil_append] at hs
        obtain ⟨c0, t1, hs0, hsa, rfl⟩ := List.forall₂_cons_left_iff.1 hs
        obtain ⟨c1, ds, hs1, hsb, rfl⟩ := List.forall₂_cons_left_iff.1 hsa
        clear hs hsa
        rename List.Forall₂ SameChar ds' ds => hs
        have e0 : c0 = '0' := sameChar_small hs0 (by decide)
        subst e0
        have hx := sameChars_hex hs (fun c hc => isHex_any (h1 c hc))
        unfold parseWithFormat at hp
        by_cases e1 : c1 = 'x'
        · subst e1
          refine ⟨ds, rfl, ?_, by rw [← hs.length_eq]; exact h2⟩
          refine isHex_of_casing hx ?_
          simp only [strip0x] at hp
          split at hp
          · simp at hp
          · split at hp
            · simp at hp
            · rename_i hk; simpa using hk
        · simp [strip0x, e1] at hp
  refine ⟨hm, ?_⟩
  obtain ⟨v', h1, h2⟩ := C55_matched_is_read f t hm
  rw [h2] at hp
  unfold fits at hp
  split at hp
  · simp only [Except.ok.injEq] at hp; subst hp; exact h1
  · simp at hp

end Litcheck.Pattern
