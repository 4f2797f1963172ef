import Verif.Proofs.Regex
import Verif.Proofs.RegexSyntax
import Verif.Proofs.Utf8
import Verif.Spec.Literal

/-!
# What sequences and literal texts match
-/

namespace Litcheck.Regex
open RegexSpec Litcheck.Spec
variable {ic : Bool} {b : Buf}

theorem lang_seq_cons (r : Re) (rs : List Re) {i j : Nat} {c : Caps} :
    Lang ic b (seqRe (r :: rs)) i j c ↔ ∃ k c1 c2, Lang ic b (seqRe rs) i k c1 ∧ Lang ic b r k j c2 ∧ c = c1 ++ c2 := by
  cases rs with
  | nil =>
    constructor
    · intro h; exact ⟨i, [], c, ⟨rfl, rfl⟩, h, rfl⟩
    · rintro ⟨k, c1, c2, ⟨rfl, rfl⟩, h2, rfl⟩; exact h2
  | cons s ss => exact Iff.rfl

/-- A match of a sequence is a match of its first part followed by one of its second part. -/
theorem lang_seq_append : ∀ (m l : List Re) {i j : Nat} {c : Caps},
    Lang ic b (seqRe (m ++ l)) i j c ↔ ∃ k c1 c2, Lang ic b (seqRe l) i k c1 ∧ Lang ic b (seqRe m) k j c2 ∧ c = c1 ++ c2
  | [], l, i, j, c => by
    constructor
    · intro h; exact ⟨j, c, [], h, ⟨rfl, rfl⟩, by simp⟩
    · rintro ⟨k, c1, c2, h1, ⟨rfl, rfl⟩, rfl⟩; simpa using h1
  | r :: m, l, i, j, c => by
    rw [List.cons_append, lang_seq_cons]
    constructor
    · rintro ⟨k, c1, c2, h1, h2, rfl⟩
      obtain ⟨k', d1, d2, h3, h4, rfl⟩ := (lang_seq_append m l).1 h1
      exact ⟨k', d1, d2 ++ c2, h3, (lang_seq_cons _ _).2 ⟨k, d2, c2, h4, h2, rfl⟩, by simp⟩
    · rintro ⟨k, c1, c2, h1, h2, rfl⟩
      obtain ⟨k', d1, d2, h3, h4, rfl⟩ := (lang_seq_cons _ _).1 h2
      exact ⟨k', c1 ++ d1, d2, (lang_seq_append m l).2 ⟨k, c1, d1, h1, h3, rfl⟩, h4, by simp⟩

theorem occurs_nil {i j : Nat} : Occurs ic [] b i j ↔ j = i := by
  simp [Occurs, OccursAt]

theorem occurs_append {x y : Buf} {i j : Nat} :
    Occurs ic (x ++ y) b i j ↔ ∃ k, Occurs ic x b i k ∧ Occurs ic y b k j := by
  unfold Occurs OccursAt
  constructor
  · rintro ⟨rfl, h⟩
    refine ⟨i + x.length, ⟨rfl, ?_⟩, by simp; omega, ?_⟩
    · intro p a hp
      refine h p a ?_
      rw [List.getElem?_append_left (by have := List.getElem?_eq_some_iff.1 hp; exact this.1)]
      exact hp
    · intro p a hp
      obtain ⟨y', h1, h2⟩ := h (x.length + p) a (by rw [List.getElem?_append_right (by omega)]; simpa using hp)
      exact ⟨y', by rw [← h1]; congr 1; omega, h2⟩
  · rintro ⟨k, ⟨rfl, h1⟩, rfl, h2⟩
    refine ⟨by simp; omega, ?_⟩
    intro p a hp
    by_cases hl : p < x.length
    · rw [List.getElem?_append_left hl] at hp; exact h1 p a hp
    · rw [List.getElem?_append_right (by omega)] at hp
      obtain ⟨y', h3, h4⟩ := h2 _ a hp
      exact ⟨y', by rw [← h3]; congr 1; omega, h4⟩

theorem sameLetter_refl (x : UInt8) : SameLetter ic x x := .inl rfl

theorem occurs_of_take {x : Buf} {i : Nat} (h : (b.drop i).take x.length = x) : Occurs ic x b i (i + x.length) := by
  refine ⟨rfl, ?_⟩
  intro p a hp
  have hl := (List.getElem?_eq_some_iff.1 hp).1
  refine ⟨a, ?_, sameLetter_refl a⟩
  rw [← h, List.getElem?_take, if_pos (by simpa using hl), List.getElem?_drop] at hp
  exact hp

/-- The bytes of a scalar value of more than one byte are no letters. -/
theorem encode_big {v : Nat} (hv : 128 ≤ v) (hs : v < 0x110000) : ∀ x ∈ encode v, 128 ≤ x.toNat := by
  intro x hx
  unfold encode at hx
  rw [if_neg (by omega)] at hx
  split at hx
  · simp only [List.mem_cons, List.not_mem_nil, or_false] at hx
    rcases hx with rfl | rfl <;> rw [toUInt8_toNat (by omega)] <;> omega
  · split at hx
    · simp only [List.mem_cons, List.not_mem_nil, or_false] at hx
      rcases hx with rfl | rfl | rfl <;> rw [toUInt8_toNat (by omega)] <;> omega
    · simp only [List.mem_cons, List.not_mem_nil, or_false] at hx
      rcases hx with rfl | rfl | rfl | rfl <;> rw [toUInt8_toNat (by omega)] <;> omega

theorem inClass_char {c : Char} {v : Nat} : inClass ic false [(c.toNat, c.toNat)] v = true ↔
    v = c.toNat ∨ (ic = true ∧ otherCase v = c.toNat) := by
  simp only [inClass, inRanges, List.any_cons, List.any_nil, Bool.or_false, bne_iff_ne, ne_eq, Bool.not_eq_false,
    Bool.or_eq_true, Bool.and_eq_true, decide_eq_true_eq]
  constructor
  · rintro (h | ⟨h, h'⟩)
    · left; omega
    · right; exact ⟨h, by omega⟩
  · rintro (h | ⟨h, h'⟩)
    · left; omega
    · right; exact ⟨h, by omega⟩

/-- A character matches its encoding, and nothing else (but for its case). -/
theorem lang_char (c : Char) {i j : Nat} {cs : Caps} :
    Lang ic b (Re.char c) i j cs ↔ Occurs ic (encode c.toNat) b i j ∧ cs = [] := by
  have hc := char_scalar c
  have hc' : c.toNat < 0x110000 := by unfold Scalar at hc; omega
  simp only [Re.char, Lang, inClass_char]
  constructor
  · rintro ⟨v, n, h1, h2, rfl, rfl⟩
    obtain ⟨h3, h4, h5⟩ := decode_sound h1
    refine ⟨?_, rfl⟩
    rcases h2 with rfl | ⟨rfl, h2⟩
    · rw [← h4] at h3 ⊢
      exact occurs_of_take h3
    · unfold otherCase at h2
      split at h2
      · rename_i hr
        have e1 : encode v = [v.toUInt8] := if_pos (by omega)
        have e2 : encode c.toNat = [c.toNat.toUInt8] := if_pos (by omega)
        rw [e1, List.length_singleton] at h4
        subst h4
        rw [e1] at h3
        rw [e2]
        refine ⟨rfl, ?_⟩
        intro p a hp
        cases p with
        | zero =>
          simp only [List.getElem?_cons_zero, Option.some.injEq] at hp
          subst hp
          refine ⟨v.toUInt8, ?_, ?_⟩
          · have := congrArg (fun l => l[0]?) h3
            simpa [List.getElem?_take] using this
          · right
            refine ⟨rfl, .inr ?_⟩
            rw [toUInt8_toNat (by omega), toUInt8_toNat (by omega)]
            omega
        | succ p => simp at hp
      · split at h2
        · rename_i hr
          have e1 : encode v = [v.toUInt8] := if_pos (by omega)
          have e2 : encode c.toNat = [c.toNat.toUInt8] := if_pos (by omega)
          rw [e1, List.length_singleton] at h4
          subst h4
          rw [e1] at h3
          rw [e2]
          refine ⟨rfl, ?_⟩
          intro p a hp
          cases p with
          | zero =>
            simp only [List.getElem?_cons_zero, Option.some.injEq] at hp
            subst hp
            refine ⟨v.toUInt8, ?_, ?_⟩
            · have := congrArg (fun l => l[0]?) h3
              simpa [List.getElem?_take] using this
            · right
              refine ⟨rfl, .inl ?_⟩
              rw [toUInt8_toNat (by omega), toUInt8_toNat (by omega)]
              omega
          | succ p => simp at hp
        · subst h2
          rw [← h4] at h3 ⊢
          exact occurs_of_take h3
  · rintro ⟨⟨rfl, h⟩, rfl⟩
    by_cases hs : c.toNat < 128
    · have e2 : encode c.toNat = [c.toNat.toUInt8] := if_pos hs
      rw [e2] at h ⊢
      obtain ⟨y, h1, h2⟩ := h 0 c.toNat.toUInt8 rfl
      simp only [Nat.add_zero] at h1
      have hy := y.toNat_lt
      have hd : b.drop i = y :: b.drop (i + 1) := by
        obtain ⟨hl, he⟩ := List.getElem?_eq_some_iff.1 h1
        rw [List.drop_eq_getElem_cons hl, he]
      unfold SameLetter at h2
      rw [toUInt8_toNat (by omega)] at h2
      have hlt : y.toNat < 128 := by
        rcases h2 with rfl | ⟨_, h2⟩
        · rw [toUInt8_toNat (by omega)]; exact hs
        · omega
      refine ⟨y.toNat, 1, ?_, ?_, rfl, rfl⟩
      · rw [hd]; unfold decode; dsimp only; rw [if_pos hlt]
      · rcases h2 with rfl | ⟨hic, h2⟩
        · left; rw [toUInt8_toNat (by omega)]
        · right; refine ⟨hic, ?_⟩
          unfold otherCase
          rcases h2 with h2 | h2
          · rw [if_neg (by omega), if_pos (by omega)]; omega
          · rw [if_pos (by omega)]; omega
    · refine ⟨c.toNat, (encode c.toNat).length, ?_, .inl rfl, rfl, rfl⟩
      have hb := encode_big (by omega) hc'
      have hd : (b.drop i).take (encode c.toNat).length = encode c.toNat := by
        apply List.ext_getElem?
        intro p
        rw [List.getElem?_take]
        split
        · rename_i hp
          obtain ⟨y, h1, h2⟩ := h p ((encode c.toNat)[p]) (by simp [hp])
          rw [List.getElem?_drop, h1, List.getElem?_eq_getElem hp]
          have := hb _ (List.getElem_mem hp)
          rcases h2 with rfl | ⟨_, h2⟩
          · rfl
          · omega
        · rename_i hp
          rw [List.getElem?_eq_none (by omega)]
      have := decode_encode hc ((b.drop i).drop (encode c.toNat).length)
      rw [← this]
      congr 1
      conv_lhs => rw [← List.take_append_drop (encode c.toNat).length (b.drop i)]
      rw [hd]

theorem lang_chars : ∀ (s : Str) {i j : Nat} {cs : Caps},
    Lang ic b (seqRe (s.map Re.char).reverse) i j cs ↔ Occurs ic (utf8 s) b i j ∧ cs = []
  | [], i, j, cs => by simp [seqRe, Lang, utf8, occurs_nil]
  | c :: s, i, j, cs => by
    rw [List.map_cons, List.reverse_cons, lang_seq_append, utf8_cons, occurs_append]
    constructor
    · rintro ⟨k, c1, c2, h1, h2, rfl⟩
      obtain ⟨h3, rfl⟩ := (lang_char c).1 h1
      obtain ⟨h4, rfl⟩ := (lang_chars s).1 h2
      exact ⟨⟨k, h3, h4⟩, rfl⟩
    · rintro ⟨⟨k, h3, h4⟩, rfl⟩
      exact ⟨k, [], [], (lang_char c).2 ⟨h3, rfl⟩, (lang_chars s).2 ⟨h4, rfl⟩, rfl⟩

end Litcheck.Regex
