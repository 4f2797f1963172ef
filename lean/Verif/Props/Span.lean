import Mathlib.Tactic.SplitIfs
import Verif.Model.Span
import Verif.Props.Position

/-!
# C101: spans of source files
-/

namespace Litcheck.Spans
open Litcheck.Position (Res IsIndex)

/-! ## Specification -/

/-- `t` is what the text `b` has from `s` to before `e`. -/
def IsPart (b t : Buf) (s e : Nat) : Prop := ∃ before after : Buf, b = before ++ t ++ after ∧ before.length = s ∧ s + t.length = e

/-- `t` is the only text which `b` has from `s` to before `e`. -/
theorem isPart_unique {b t t' : Buf} {s e : Nat} (h : IsPart b t s e) (h' : IsPart b t' s e) : t = t' := by
  obtain ⟨p, q, h1, h2, h3⟩ := h
  obtain ⟨p', q', g1, g2, g3⟩ := h'
  rw [h1] at g1
  rw [List.append_assoc, List.append_assoc] at g1
  have e1 := List.append_inj g1 (by omega)
  exact (List.append_inj e1.2 (by omega)).1

/-! ## C101 -/

/-- **C101**: a range of positions is accepted exactly if both positions are below 2 ^ 32, and the span has exactly these. -/
theorem C101_accepted (id s e : Nat) (x : Span) :
    tryFromRange id s e = some x ↔ s < 2 ^ 32 ∧ e < 2 ^ 32 ∧ x.source = id ∧ intoStd x = (s, e) := by
  obtain ⟨a, c, d⟩ := x
  unfold tryFromRange fromRangeUnchecked toU32 intoStd
  constructor
  · intro h
    split_ifs at h with h1
    simp only [Option.some.injEq, Span.mk.injEq] at h
    refine ⟨by omega, by omega, by simp only; omega, Prod.ext ?_ ?_⟩ <;> simp only <;> omega
  · rintro ⟨h1, h2, h3, h4⟩
    simp only [Prod.mk.injEq] at h3 h4
    rw [if_neg (by omega)]
    simp only [Option.some.injEq, Span.mk.injEq]
    omega

/-- The same of the way which does not look, for positions below 2 ^ 32. -/
theorem C101_unchecked_partial (id : Nat) {s e : Nat} (hs : s < 2 ^ 32) (he : e < 2 ^ 32) :
    (fromRangeUnchecked id s e).source = id ∧ intoStd (fromRangeUnchecked id s e) = (s, e) := by
  unfold fromRangeUnchecked intoStd toU32
  refine ⟨rfl, Prod.ext ?_ ?_⟩ <;> simp only <;> omega

/-- … others are silently replaced by other positions. -/
theorem C101_unchecked_refuted : intoStd (fromRangeUnchecked 0 (2 ^ 32 - 1) (2 ^ 32 + 2)) = (2 ^ 32 - 1, 2) := by decide

/-- The span of one position: exact, or a panic. -/
theorem C101_at (id off : Nat) :
    (off < 2 ^ 32 → ∃ x, spanAt id off = .ok x ∧ x.source = id ∧ intoStd x = (off, off)) ∧ (¬ off < 2 ^ 32 → spanAt id off = .panic) := by
  unfold spanAt
  exact ⟨fun h => ⟨_, if_pos h, rfl, rfl⟩, fun h => if_neg h⟩

/-- **C101**: what a span stands for. For positions within the text, the span of a range stands for the part of the text between them, and
its length is that of this part. -/
theorem C101_text {id s e : Nat} {b : Buf} (hse : s ≤ e) (hb : e ≤ b.length) (hl : b.length < 2 ^ 32) (checked : Bool) :
    ∃ x t, tryFromRange id s e = some x ∧ IsPart b t s e ∧ index b x = .ok t ∧ len checked x = .ok t.length ∧
      isEmpty checked x = .ok (t == []) ∧ intoRange x = .ok ⟨s, e⟩ := by
  refine ⟨⟨id, s, e⟩, sliceOf b s e, (C101_accepted id s e _).2 ⟨by omega, by omega, rfl, rfl⟩, ?_, ?_, ?_, ?_, ?_⟩
  · refine ⟨b.take s, b.drop e, ?_, by rw [List.length_take]; omega, by unfold sliceOf; rw [List.length_drop, List.length_take]; omega⟩
    unfold sliceOf
    have h1 : b.take s = (b.take e).take s := by rw [List.take_take]; congr 1; omega
    rw [h1, List.take_append_drop, List.take_append_drop]
  · unfold index
    exact if_pos ⟨hse, hb⟩
  · unfold len sliceOf
    rw [if_pos hse, List.length_drop, List.length_take]
    congr 1
    simp only
    omega
  · unfold isEmpty len
    rw [if_pos hse]
    show Res.ok _ = _
    congr 1
    have hlen : (sliceOf b s e).length = e - s := by unfold sliceOf; rw [List.length_drop, List.length_take]; omega
    rw [Bool.eq_iff_iff, beq_iff_eq, beq_iff_eq, ← List.length_eq_zero_iff, hlen]
  · unfold intoRange Rng.new
    exact if_pos hse

/-- Slicing never gives anything else: it panics unless the span is within the text. -/
theorem C101_slice {b t : Buf} {x : Span} : index b x = .ok t ↔ IsPart b t (intoStd x).1 (intoStd x).2 := by
  obtain ⟨id, s, e⟩ := x
  constructor
  · intro h
    unfold index at h
    split_ifs at h with h1
    · simp only [Res.ok.injEq] at h
      subst h
      dsimp only [intoStd] at *
      refine ⟨b.take s, b.drop e, ?_, by rw [List.length_take]; omega, by unfold sliceOf; rw [List.length_drop, List.length_take]; omega⟩
      unfold sliceOf
      have h2 : b.take s = (b.take e).take s := by rw [List.take_take]; congr 1; omega
      rw [h2, List.take_append_drop, List.take_append_drop]
  · rintro ⟨p, q, h1, h2, h3⟩
    dsimp only [intoStd] at *
    unfold index
    dsimp only
    have hl : b.length = p.length + t.length + q.length := by rw [h1]; simp; omega
    rw [if_pos (by omega)]
    congr 1
    unfold sliceOf
    rw [h1, List.take_append_of_le_length (by simp; omega), List.take_of_length_le (by simp; omega), ← h2, List.drop_left]

/-- A position is in the span exactly if it is from the start to before the end. -/
theorem C101_contains (x : Span) (i : Nat) : contains x i = true ↔ (intoStd x).1 ≤ i ∧ i < (intoStd x).2 := by
  unfold contains intoStd
  simp

theorem shift_ok {checked : Bool} {x : Span} {d : Int} {s e : Nat} (h1 : Position.Byte.addOffset checked x.start d = .ok s)
    (h2 : Position.Byte.addOffset checked x.stop d = .ok e) : shift checked x d = .ok ⟨x.source, s, e⟩ := by
  unfold shift
  generalize Position.Byte.addOffset checked x.start d = a at h1
  generalize Position.Byte.addOffset checked x.stop d = c at h2
  subst h1 h2
  rfl

/-- **C101**: a shifted span stands for the same part, after the text is shifted: put `p` in front of the text. -/
theorem C101_shift_partial {b t p : Buf} {x : Span} (h : index b x = .ok t) (hl : (p ++ b).length < 2 ^ 32) (checked : Bool) :
    ∃ y, shift checked x p.length = .ok y ∧ y.source = x.source ∧ index (p ++ b) y = .ok t := by
  have hp := C101_slice.1 h
  obtain ⟨id, s, e⟩ := x
  obtain ⟨u, v, h1, h2, h3⟩ := hp
  dsimp only [intoStd] at *
  have hl2 : b.length = u.length + t.length + v.length := by rw [h1]; simp; omega
  rw [List.length_append] at hl
  obtain ⟨s', e1, e2⟩ := (Position.C95_offset_partial checked s p.length (by unfold IsIndex; omega)).1 (by unfold IsIndex; omega)
  obtain ⟨e', e3, e4⟩ := (Position.C95_offset_partial checked e p.length (by unfold IsIndex; omega)).1 (by unfold IsIndex; omega)
  refine ⟨⟨id, s', e'⟩, ?_, rfl, ?_⟩
  · exact shift_ok (x := ⟨id, s, e⟩) e1 e3
  · rw [C101_slice]
    refine ⟨p ++ u, v, by rw [h1]; simp, ?_, ?_⟩
    · simp only [intoStd, List.length_append]; omega
    · simp only [intoStd]; omega

/-- A span which is extended stands for what it stood for, and what follows. -/
theorem C101_extend_partial {b t r : Buf} {x : Span} (h : IsPart b (t ++ r) (intoStd x).1 ((intoStd x).2 + r.length))
    (hx : index b x = .ok t) (hl : b.length < 2 ^ 32) (checked : Bool) :
    ∃ y, extend checked x r.length = .ok y ∧ y.source = x.source ∧ index b y = .ok (t ++ r) := by
  obtain ⟨n, s, e⟩ := x
  have hp := C101_slice.1 hx
  dsimp only [intoStd] at *
  obtain ⟨u, v, h1, h2, h3⟩ := h
  have hl2 : b.length = u.length + (t ++ r).length + v.length := by rw [h1]; simp; omega
  rw [List.length_append] at hl2 h3
  obtain ⟨e', e3, e4⟩ := (Position.C95_offset_partial checked e r.length (by unfold IsIndex; omega)).1 (by unfold IsIndex; omega)
  refine ⟨⟨n, s, e'⟩, ?_, rfl, ?_⟩
  · unfold extend
    dsimp only
    rw [e3]
    simp only [Res.bind]
  · rw [C101_slice]
    dsimp only [intoStd]
    have : e' = e + r.length := by omega
    rw [this]
    exact ⟨u, v, h1, h2, by rw [List.length_append]; exact h3⟩

/-- C101 is false of ranges which end before they start: they are accepted, but have no length: asking for it panics, or gives nearly 2 ^ 64. -/
theorem C101_reversed_refuted : ∃ x, tryFromRange 0 2 1 = some x ∧ len true x = .panic ∧ len false x = .ok (2 ^ 64 - 1) ∧
    intoRange x = .error .assertFailed := ⟨⟨0, 2, 1⟩, by decide, by decide, by decide, rfl⟩

/-- C101 is false of shifts to the left of the start: the span is at the end of the largest file, also if arithmetic is checked. -/
theorem C101_shift_refuted : shift true ⟨0, 0, 1⟩ (-1) = .ok ⟨0, 2 ^ 32 - 1, 0⟩ := by decide

/-- Comparing values which have spans does not look at the spans, and changing one does not change the other. -/
theorem C101_spanned {α β : Type} [BEq α] [LawfulBEq α] [Ord α] (x y : Spanned α) (s s' : Span) (f : α → β) :
    ((x.withSpan s).same (y.withSpan s') = true ↔ x.spanned = y.spanned) ∧ (x.withSpan s).order (y.withSpan s') = compare x.spanned y.spanned ∧
      (x.withSpan s).span = s ∧ (x.withSpan s).spanned = x.spanned ∧ (x.map f).span = x.span ∧ (x.map f).spanned = f x.spanned :=
  ⟨beq_iff_eq, rfl, rfl, rfl, rfl, rfl⟩

/-! ## Examples -/

example : ∃ x, tryFromRange 3 1 4 = some x ∧ index (bytes "hello") x = .ok (bytes "ell") ∧ len true x = .ok 3 := ⟨⟨3, 1, 4⟩, by decide, by decide, by decide⟩
example : ∃ y, shift true ⟨3, 1, 4⟩ (bytes "oh ").length = .ok y ∧ y.source = 3 ∧ index (bytes "oh " ++ bytes "hello") y = .ok (bytes "ell") :=
  C101_shift_partial (by decide) (by decide) true
example : ∃ y, extend true ⟨3, 1, 4⟩ (bytes "o").length = .ok y ∧ y.source = 3 ∧ index (bytes "hello") y = .ok (bytes "ell" ++ bytes "o") :=
  C101_extend_partial (b := bytes "hello") (t := bytes "ell") ⟨bytes "h", [], by decide, by decide, by decide⟩ (by decide) (by decide) true
example : index (bytes "hello") ⟨3, 1, 6⟩ = .panic ∧ tryFromRange 3 1 (2 ^ 32) = none ∧ contains ⟨3, 1, 4⟩ 3 = true ∧ contains ⟨3, 1, 4⟩ 4 = false := by decide

end Litcheck.Spans
