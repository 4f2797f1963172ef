import Verif.Model.Position

/-!
# Property C95: positions in a source file

Indices count from zero, numbers from one. The specification is the arithmetic of the integers.
-/

namespace Litcheck.Position

/-- What an index can be. -/
def IsIndex (x : Int) : Prop := 0 ≤ x ∧ x < 2 ^ 32

/-- What a number can be. -/
def IsNumber (x : Int) : Prop := 1 ≤ x ∧ x < 2 ^ 32

/-- `y` is the one of the values `good` which is nearest to `x`. -/
def Nearest (good : Int → Prop) (x y : Int) : Prop := good y ∧ ∀ z, good z → (x - y).natAbs ≤ (x - z).natAbs

/-- The operation computes `x`, if that is good, and otherwise reports that it is not. -/
def Reports (good : Int → Prop) (x : Int) (r : Option Nat) : Prop := (∀ y : Nat, r = some y ↔ good x ∧ (y : Int) = x)

/-- The operator computes `x`, if that is good, and otherwise panics. -/
def Panics (good : Int → Prop) (x : Int) (r : Res Nat) : Prop := (∀ y : Nat, r = .ok y ↔ good x ∧ (y : Int) = x) ∧ (r = .panic ↔ ¬ good x)

/-- **C95**: the number of an index is one more than the index, and both ways of going back give the index. -/
theorem C95_number_partial (checked : Bool) (i : Nat) (h : i + 1 < 2 ^ 32) :
    Index.number checked i = .ok (i + 1) ∧ Number.toIndex (i + 1) = i ∧ Index.ofNumber checked (i + 1) = .ok i := by
  refine ⟨?_, by simp [Number.toIndex, satSubU32], by simp [Index.ofNumber, subU32]⟩
  unfold Index.number addU32
  rw [if_pos h]
  simp [Res.bind, nonZero]

/-- … and every number is the number of an index. -/
theorem C95_index (checked : Bool) (n : Nat) (h : IsNumber n) :
    Index.ofNumber checked n = .ok (n - 1) ∧ Number.toIndex n = n - 1 ∧ Index.number checked (n - 1) = .ok n := by
  obtain ⟨h1, h2⟩ := h
  obtain ⟨k, rfl⟩ : ∃ k, n = k + 1 := ⟨n - 1, by omega⟩
  obtain ⟨h3, h4, h5⟩ := C95_number_partial checked k (by omega)
  exact ⟨h5, h4, h3⟩

/-- **C95**: the checked operations compute the exact value, or say that it is none. -/
theorem C95_checked (i n : Nat) (o : Nat) (d : Int) (hn : IsNumber n) :
    Reports IsIndex (i + o) (Index.checkedAdd i o) ∧ Reports IsIndex (i + d) (Index.checkedAddSigned i d) ∧ (IsIndex i → Reports IsIndex (i - o) (Index.checkedSub i o)) ∧
    Reports IsNumber (n + o) (Number.checkedAdd n o) ∧ Reports IsNumber (n + d) (Number.checkedAddSigned n d) ∧ Reports IsNumber (n - o) (Number.checkedSub n o) := by
  unfold IsNumber at hn
  refine ⟨?_, ?_, fun hi => ?_, ?_, ?_, ?_⟩ <;> intro y
  · unfold Index.checkedAdd checkedAddU32 IsIndex
    by_cases hc : i + o < 2 ^ 32
    · rw [if_pos hc]; simp; omega
    · rw [if_neg hc]; simp; omega
  · unfold Index.checkedAddSigned checkedAddSignedU32 IsIndex
    by_cases hc : 0 ≤ (i : Int) + d ∧ (i : Int) + d < 2 ^ 32
    · rw [if_pos hc]; simp; omega
    · rw [if_neg hc]; simp; omega
  · unfold Index.checkedSub checkedSubU32
    unfold IsIndex at hi ⊢
    by_cases hc : o ≤ i
    · rw [if_pos hc]; simp; omega
    · rw [if_neg hc]; simp; omega
  · unfold Number.checkedAdd checkedAddU32 IsNumber
    by_cases hc : n + o < 2 ^ 32
    · rw [if_pos hc]; simp; omega
    · rw [if_neg hc]; simp; omega
  · unfold Number.checkedAddSigned checkedAddSignedU32 IsNumber
    by_cases hc : 0 ≤ (n : Int) + d ∧ (n : Int) + d < 2 ^ 32
    · rw [if_pos hc]
      simp only [Option.bind_some, Number.new]
      by_cases hz : ((n : Int) + d).toNat = 0
      · rw [if_pos hz]; simp; omega
      · rw [if_neg hz]; simp; omega
    · rw [if_neg hc]; simp; omega
  · unfold Number.checkedSub checkedSubU32 IsNumber
    by_cases hc : o ≤ n
    · rw [if_pos hc]
      simp only [Option.bind_some, Number.new]
      by_cases hz : n - o = 0
      · rw [if_pos hz]; simp; omega
      · rw [if_neg hz]; simp; omega
    · rw [if_neg hc]; simp; omega

/-- **C95**: the saturating operations compute the nearest value there is. (For numbers this is 1, where the comments say 0.) -/
theorem C95_saturating (i n : Nat) (o : Nat) (d : Int) (hi : IsIndex i) (hn : IsNumber n) :
    Nearest IsIndex (i + o) (Index.satAdd i o) ∧ Nearest IsIndex (i + d) (Index.satAddSigned i d) ∧ Nearest IsIndex (i - o) (Index.satSub i o) ∧
    (∃ y : Nat, Number.satAdd n o = .ok y ∧ Nearest IsNumber (n + o) y) ∧ Nearest IsNumber (n + d) (Number.satAddSigned n d) ∧ Nearest IsNumber (n - o) (Number.satSub n o) := by
  unfold IsIndex at hi
  unfold IsNumber at hn
  refine ⟨⟨?_, ?_⟩, ⟨?_, ?_⟩, ⟨?_, ?_⟩, ⟨satAddU32 n o, ?_, ?_, ?_⟩, ?_, ?_⟩
  · unfold IsIndex Index.satAdd satAddU32; omega
  · intro z hz; unfold IsIndex at hz; unfold Index.satAdd satAddU32; omega
  · unfold IsIndex Index.satAddSigned satAddSignedU32; omega
  · intro z hz; unfold IsIndex at hz; unfold Index.satAddSigned satAddSignedU32; omega
  · unfold IsIndex Index.satSub satSubU32; omega
  · intro z hz; unfold IsIndex at hz; unfold Index.satSub satSubU32; omega
  · unfold Number.satAdd nonZero
    rw [if_neg]
    unfold satAddU32; omega
  · unfold IsNumber satAddU32; omega
  · intro z hz; unfold IsNumber at hz; unfold satAddU32; omega
  · have key : Number.satAddSigned n d = max 1 (satAddSignedU32 n d) := by
      unfold Number.satAddSigned Number.new Number.default
      split <;> simp <;> omega
    rw [key]
    unfold satAddSignedU32
    refine ⟨?_, fun z hz => ?_⟩
    · unfold IsNumber; omega
    · unfold IsNumber at hz; omega
  · have key : Number.satSub n o = max 1 (n - o) := by
      unfold Number.satSub Number.new Number.default satSubU32
      split <;> simp <;> omega
    rw [key]
    refine ⟨?_, fun z hz => ?_⟩
    · unfold IsNumber; omega
    · unfold IsNumber at hz; omega

/-- **C95**: where arithmetic is checked, the operators compute the exact value or panic. Missing (hence partial): builds where it is not (`C95_invalid_refuted`). -/
theorem C95_operators_partial (i n : Nat) (o : Nat) (d : Int) (hi : IsIndex i) (hn : IsNumber n) :
    Panics IsIndex (i + o) (Byte.add true i o) ∧ Panics IsIndex (i - o) (Byte.sub true i o) ∧
    Panics IsIndex (i + o) (Index.add true i o) ∧ Panics IsIndex (i + d) (Index.addSigned i d) ∧ Panics IsIndex (i - o) (Index.sub true i o) ∧
    Panics IsNumber (i + 1) (Index.number true i) ∧
    Panics IsNumber (n + o) (Number.add true n o) ∧ Panics IsNumber (n + d) (Number.addSigned n d) ∧ Panics IsNumber (n - o) (Number.sub n o) := by
  have hadd : Panics IsIndex (i + o) (addU32 true i o) := by
    unfold IsIndex at *
    unfold addU32
    by_cases hc : i + o < 2 ^ 32
    · rw [if_pos hc]; refine ⟨fun y => ?_, ?_⟩
      · simp; omega
      · simp; omega
    · rw [if_neg hc]; refine ⟨fun y => ?_, ?_⟩
      · simp; omega
      · simp; omega
  have hsub : Panics IsIndex (i - o) (subU32 true i o) := by
    unfold IsIndex at *
    unfold subU32
    by_cases hc : o ≤ i
    · rw [if_pos hc]; refine ⟨fun y => ?_, ?_⟩
      · simp; omega
      · simp; omega
    · rw [if_neg hc]; refine ⟨fun y => ?_, ?_⟩
      · simp; omega
      · simp; omega
  have hexp : ∀ good x (r : Option Nat), 0 ≤ x ∨ ¬ good x → Reports good x r → Panics good x (expect r) := by
    intro good x r h0 h
    cases r with
    | none =>
      refine ⟨fun y => ?_, ?_⟩
      · have := h y; simp [expect] at this ⊢; exact this
      · simp only [expect, true_iff]
        intro hg
        rcases h0 with h0 | h0
        · have := (h x.toNat).2 ⟨hg, by omega⟩; simp at this
        · exact h0 hg
    | some z =>
      refine ⟨fun y => ?_, ?_⟩
      · have := h y; simp [expect] at this ⊢; exact this
      · have := ((h z).1 rfl).1; simp [expect, this]
  obtain ⟨c1, c2, c3, c4, c5, c6⟩ := C95_checked i n o d hn
  have hnum : ∀ m p : Nat, 1 ≤ m + p → Panics IsNumber ((m : Int) + p) ((addU32 true m p).bind nonZero) := by
    intro m p hp
    unfold IsNumber addU32
    by_cases hc : m + p < 2 ^ 32
    · rw [if_pos hc]
      simp only [Res.bind, nonZero]
      rw [if_neg (by omega)]
      refine ⟨fun y => ?_, ?_⟩
      · simp; omega
      · simp; omega
    · rw [if_neg hc]; simp only [Res.bind, if_true]; refine ⟨fun y => ?_, ?_⟩
      · simp; omega
      · simp; omega
  refine ⟨hadd, hsub, hadd, ?_, hsub, ?_, ?_, ?_, ?_⟩
  · exact hexp _ _ _ (by unfold IsIndex; omega) c2
  · exact hnum i 1 (by omega)
  · exact hnum n o (by unfold IsNumber at hn; omega)
  · exact hexp _ _ _ (by unfold IsNumber; omega) c5
  · exact hexp _ _ _ (by unfold IsNumber; omega) c6

/-- **C95** is false of builds without overflow checks: the number of the last index, and sums which wrap to zero, are undefined behaviour; other sums are wrong. -/
theorem C95_invalid_refuted : Index.number false (2 ^ 32 - 1) = .undefined ∧ Number.add false 1 (2 ^ 32 - 1) = .undefined ∧
    Number.add false 2 (2 ^ 32 - 1) = .ok 1 ∧ Index.sub false 0 1 = .ok (2 ^ 32 - 1) := by decide

/-- **C95**: a byte index and an offset give the exact sum or difference, if that is an index. -/
theorem C95_offset_partial (checked : Bool) (i : Nat) (d : Int) (hi : IsIndex i) :
    (IsIndex (i + d) → ∃ y : Nat, Byte.addOffset checked i d = .ok y ∧ (y : Int) = i + d) ∧
    (IsIndex (i - d) → ∃ y : Nat, Byte.subOffset checked i d = .ok y ∧ (y : Int) = i - d) := by
  unfold IsIndex at *
  constructor
  · intro h
    refine ⟨((i : Int) + d).toNat, ?_, by omega⟩
    unfold Byte.addOffset addI64
    rw [if_pos (by omega)]
    simp only [Res.bind]
    rw [Int.emod_eq_of_lt (by omega) (by omega)]
  · intro h
    refine ⟨((i : Int) - d).toNat, ?_, by omega⟩
    unfold Byte.subOffset addI64
    rw [if_pos (by omega)]
    simp only [Res.bind]
    rw [Int.emod_eq_of_lt (by omega) (by omega)]
    rfl

/-- … otherwise the result is another index, even if arithmetic is checked. -/
theorem C95_offset_refuted : Byte.addOffset true 0 (-1) = .ok (2 ^ 32 - 1) ∧ Byte.subOffset true 5 6 = .ok (2 ^ 32 - 1) ∧ ¬ IsIndex (0 + -1) := by
  refine ⟨by decide, by decide, ?_⟩
  unfold IsIndex; omega

example : IsNumber ((2 ^ 32 - 1 : Nat) : Int) ∧ IsIndex ((7 : Nat) : Int) := by unfold IsNumber IsIndex; omega
example : Index.checkedAdd 7 (2 ^ 32 - 8) = some (2 ^ 32 - 1) ∧ Index.checkedAdd 8 (2 ^ 32 - 8) = none := by decide
example : Number.checkedSub 7 6 = some 1 ∧ Number.checkedSub 7 7 = none ∧ Number.satSub 7 9 = 1 ∧ Number.satAddSigned 3 (-8) = 1 := by decide

end Litcheck.Position
