import Verif.Model.Source
import Verif.Spec.Source
import Verif.Props.Text
import Verif.Proofs.Tac
import Mathlib.Data.List.Sort

/-!
# Line tables
-/

namespace Litcheck

open Spec

theorem mem_memchrIter {x : UInt8} {b : Buf} {i : Nat} : i ∈ memchrIter x b ↔ b[i]? = some x := by
  unfold memchrIter
  rw [List.mem_filter, List.mem_range, beq_iff_eq]
  constructor
  · exact fun h => h.2
  · intro h
    refine ⟨?_, h⟩
    by_contra hn
    rw [List.getElem?_eq_none (by omega)] at h
    exact absurd h (by simp)

theorem memchrIter_length (x : UInt8) (b : Buf) : (memchrIter x b).length = b.count x := filter_range_count x b

theorem memchrIter_append (x : UInt8) (a b : Buf) :
    memchrIter x (a ++ b) = memchrIter x a ++ (memchrIter x b).map (· + a.length) := by
  unfold memchrIter
  rw [List.length_append, List.range_add, List.filter_append]
  congr 1
  · apply List.filter_congr
    intro i hi
    rw [List.mem_range] at hi
    rw [List.getElem?_append_left hi]
  · rw [List.filter_map]
    have : (fun i => a.length + i) = (fun i => i + a.length) := by funext i; omega
    rw [this]
    congr 1
    apply List.filter_congr
    intro i hi
    simp only [Function.comp]
    rw [List.getElem?_append_right (by omega), Nat.add_sub_cancel]

theorem memchrIter_sorted (x : UInt8) (b : Buf) : (memchrIter x b).Pairwise (· < ·) := by
  unfold memchrIter
  exact List.Pairwise.filter _ List.pairwise_lt_range

theorem starts_sorted (b : Buf) : (computeLineStarts b none).Pairwise (· < ·) := by
  unfold computeLineStarts
  simp only [Option.getD_none, Nat.zero_add, List.singleton_append, List.pairwise_cons]
  constructor
  · intro y hy
    obtain ⟨i, _, rfl⟩ := List.mem_map.1 hy
    omega
  · rw [List.pairwise_map]
    exact (memchrIter_sorted LF b).imp (by intro a b h; omega)

theorem mem_starts {b : Buf} {o : Nat} : o ∈ computeLineStarts b none ↔ o = 0 ∨ ∃ i, IsLF b i ∧ o = i + 1 := by
  unfold computeLineStarts IsLF
  simp only [Option.getD_none, Nat.zero_add, List.singleton_append, List.mem_cons, List.mem_map, mem_memchrIter]
  constructor
  · rintro (h | ⟨i, hi, h⟩)
    · exact .inl h
    · exact .inr ⟨i, hi, h.symm⟩
  · rintro (h | ⟨i, hi, h⟩)
    · exact .inl h
    · exact .inr ⟨i, hi, h.symm⟩

theorem lineTable_iff {b : Buf} {t : List Nat} : LineTable b t ↔ t = computeLineStarts b none := by
  constructor
  · rintro ⟨h1, h2⟩
    have hp : t.Perm (computeLineStarts b none) := by
      rw [List.perm_ext_iff_of_nodup]
      · intro a
        rw [h2, mem_starts]
      · exact h1.imp (fun h => Nat.ne_of_lt h)
      · exact (starts_sorted b).imp (fun h => Nat.ne_of_lt h)
    exact hp.eq_of_pairwise (fun a b _ _ h h' => absurd h' (by omega)) h1 (starts_sorted b)
  · rintro rfl
    exact ⟨starts_sorted b, fun o => mem_starts⟩

theorem starts_append (a b : Buf) :
    computeLineStarts (a ++ b) none = computeLineStarts a none ++ computeLineStarts b (some a.length) := by
  unfold computeLineStarts
  simp only [Option.getD_none, Nat.zero_add, Option.getD_some, memchrIter_append, List.map_append, List.nil_append,
    List.append_assoc, List.map_map]
  congr 2
  apply List.map_congr_left
  intro i _
  simp only [Function.comp]
  omega

theorem starts_some_append (a b : Buf) (k : Nat) :
    computeLineStarts (a ++ b) (some k) = computeLineStarts a (some k) ++ computeLineStarts b (some (k + a.length)) := by
  unfold computeLineStarts
  simp only [Option.getD_some, memchrIter_append, List.map_append, List.nil_append, List.map_map]
  congr 1
  apply List.map_congr_left
  intro i _
  simp only [Function.comp]
  omega

theorem starts_length (b : Buf) : (computeLineStarts b none).length = b.count LF + 1 := by
  simp [computeLineStarts, memchrIter_length]

theorem starts_some_length (b : Buf) (k : Nat) : (computeLineStarts b (some k)).length = b.count LF := by
  simp [computeLineStarts, memchrIter_length]

theorem starts_split {b : Buf} {o : Nat} (h : o ≤ b.length) :
    computeLineStarts b none = computeLineStarts (b.take o) none ++ computeLineStarts (b.drop o) (some o) := by
  conv_lhs => rw [← List.take_append_drop o b]
  rw [starts_append, List.length_take_of_le h]

theorem lfCount_take (b : Buf) (o : Nat) : (b.take o).count LF = lfCount b 0 o := by
  simp [lfCount, between]

theorem isLF_lt {b : Buf} {i : Nat} (h : IsLF b i) : i < b.length := by
  unfold IsLF at h
  by_contra hn
  rw [List.getElem?_eq_none (by omega)] at h
  exact absurd h (by simp)

theorem noLF_count {b : Buf} {lo hi : Nat} (h : NoLF b lo hi) (hle : lo ≤ hi) :
    (b.take hi).count LF = (b.take lo).count LF := by
  obtain ⟨k, rfl⟩ := Nat.exists_eq_add_of_le hle
  rw [List.take_add, List.count_append]
  have : List.count LF (List.take k (List.drop lo b)) = 0 := by
    rw [List.count_eq_zero]
    intro hm
    obtain ⟨i, hi⟩ := List.mem_iff_getElem?.1 hm
    have hik : i < k := by
      by_contra hn
      rw [List.getElem?_eq_none (by rw [List.length_take]; omega)] at hi
      exact absurd hi (by simp)
    rw [List.getElem?_take_of_lt hik, List.getElem?_drop] at hi
    exact h (lo + i) (by omega) (by omega) hi
  omega

/-- The start of the line of a position. -/
theorem lineStart_pos {b : Buf} {o l c : Nat} (ho : o ≤ b.length) (h : IsPos b o l c) :
    (computeLineStarts b none)[l]? = some (o - c) := by
  obtain ⟨h1, h2, h3, h4⟩ := h
  have hc : (b.take (o - c)).count LF = l := by
    rw [← noLF_count h4 (by omega), lfCount_take, h1]
  rw [starts_split (o := o - c) (by omega), List.getElem?_append_left (by rw [starts_length]; omega)]
  rcases h3 with h3 | h3
  · rw [h3] at hc ⊢
    simp only [List.take_zero, List.count_nil] at hc
    subst hc
    rfl
  · have hlt := isLF_lt h3
    by_cases hz : o - c = 0
    · rw [hz] at hc ⊢
      simp only [List.take_zero, List.count_nil] at hc
      subst hc
      rfl
    · obtain ⟨k, hk⟩ : ∃ k, o - c = k + 1 := ⟨o - c - 1, by omega⟩
      rw [hk] at hc h3 hlt ⊢
      rw [Nat.add_sub_cancel] at h3 hlt
      have : b.take (k + 1) = b.take k ++ [LF] := by
        rw [List.take_add_one, h3]
        rfl
      rw [this] at hc ⊢
      rw [List.count_append, List.count_singleton_self] at hc
      rw [starts_append, List.getElem?_append_right (by rw [starts_length]; omega), starts_length,
        List.length_take_of_le (by omega)]
      have h0 : l - ((b.take k).count LF + 1) = 0 := by omega
      rw [h0]
      simp [computeLineStarts, memchrIter]

/-- The start of the line after a position. -/
theorem nextStart_pos {b : Buf} {o l c e : Nat} (ho : o ≤ b.length) (h : IsPos b o l c)
    (he : (computeLineStarts b none)[l + 1]? = some e) : o < e ∧ e ≤ b.length ∧ IsLF b (e - 1) ∧ NoLF b o (e - 1) := by
  obtain ⟨h1, -, -, -⟩ := h
  rw [starts_split ho, List.getElem?_append_right (by rw [starts_length, lfCount_take]; omega), starts_length,
    lfCount_take, h1, Nat.sub_self] at he
  have hm := List.mem_of_getElem? he
  unfold computeLineStarts at hm
  simp only [Option.getD_some, List.nil_append, List.mem_map, mem_memchrIter] at hm
  obtain ⟨i, hi, rfl⟩ := hm
  rw [List.getElem?_drop] at hi
  have := isLF_lt (b := b) (i := o + i) hi
  refine ⟨by omega, by omega, by rw [show o + (i + 1) - 1 = o + i by omega]; exact hi, ?_⟩
  intro j hj1 hj2 hj3
  have hjm : j + 1 ∈ computeLineStarts (b.drop o) (some o) := by
    unfold computeLineStarts
    simp only [Option.getD_some, List.nil_append, List.mem_map, mem_memchrIter]
    refine ⟨j - o, ?_, by omega⟩
    rw [List.getElem?_drop, show o + (j - o) = j by omega]
    exact hj3
  have hsort : (computeLineStarts (b.drop o) (some o)).Pairwise (· < ·) := by
    have := starts_sorted b
    rw [starts_split ho, List.pairwise_append] at this
    exact this.2.1
  cases hl : computeLineStarts (b.drop o) (some o) with
  | nil => rw [hl] at hjm; exact absurd hjm (by simp)
  | cons y ys =>
    rw [hl] at hjm hsort he
    simp only [List.getElem?_cons_zero, Option.some.injEq] at he
    rw [List.pairwise_cons] at hsort
    rcases List.mem_cons.1 hjm with h | h
    · omega
    · have := hsort.1 _ h
      omega

theorem nextStart_none {b : Buf} {o l c : Nat} (ho : o ≤ b.length) (h : IsPos b o l c)
    (he : (computeLineStarts b none)[l + 1]? = none) : NoLF b o b.length := by
  obtain ⟨h1, -, -, -⟩ := h
  rw [List.getElem?_eq_none_iff, starts_split ho, List.length_append, starts_length, lfCount_take, h1,
    starts_some_length] at he
  intro i hi1 hi2 hi3
  have : List.count LF (b.drop o) = 0 := by omega
  rw [List.count_eq_zero] at this
  apply this
  apply List.mem_of_getElem? (i := i - o)
  rw [List.getElem?_drop, show o + (i - o) = i by omega]
  exact hi3

theorem not_isCont {x : UInt8} : isCont x = false ↔ ¬ Continues x := by
  unfold isCont Continues
  simp only [Bool.and_eq_false_iff, decide_eq_false_iff_not, not_and_or]

theorem boundary_of_atChar {b : Buf} {o : Nat} (h : AtChar b o) : strBoundary b o = true := by
  unfold strBoundary
  cases hb : b[o]? with
  | none =>
    have := List.getElem?_eq_none_iff.1 hb
    have h1 := h.1
    have : o = b.length := by omega
    simp [this]
  | some x =>
    have := not_isCont.2 (h.2 x hb)
    simp [this]

theorem atChar_lineStart {b : Buf} {i : Nat} (ht : TextOk b) (h : IsLF b i) : AtChar b (i + 1) := by
  have hlt := isLF_lt h
  exact ⟨by omega, fun y hy => ht.ascii i 10 y h (by decide) hy⟩

theorem atChar_zero {b : Buf} (ht : TextOk b) : AtChar b 0 := ⟨by omega, ht.first⟩

theorem atChar_len (b : Buf) : AtChar b b.length :=
  ⟨by omega, fun x hx => by rw [List.getElem?_eq_none (by omega)] at hx; exact absurd hx (by simp)⟩

theorem strGet_atChar {b : Buf} {s e : Nat} (hs : AtChar b s) (he : AtChar b e) (hle : s ≤ e) :
    strGet b s e = some (sliceOf b s e) := by
  unfold strGet
  rw [if_pos ⟨hle, he.1, boundary_of_atChar hs, boundary_of_atChar he⟩]

/-- The range of the line of a position. -/
theorem lineRange_pos {s : Source} {o l c : Nat} (ht : TextOk s.content) (hL : LineTable s.content s.lineStarts)
    (ho : o ≤ s.content.length) (h : IsPos s.content o l c) :
    ∃ e, s.lineRange l = some (o - c, e) ∧ o ≤ e ∧ AtChar s.content (o - c) ∧ AtChar s.content e ∧
      (e = s.content.length ∧ s.lineStart (l + 1) = none ∧ NoLF s.content o e ∨
        o < e ∧ s.lineStart (l + 1) = some e ∧ IsLF s.content (e - 1) ∧ NoLF s.content o (e - 1)) := by
  have ha : AtChar s.content (o - c) := by
    rcases h.2.2.1 with h3 | h3
    · rw [h3]
      exact atChar_zero ht
    · have := atChar_lineStart ht h3
      by_cases hz : o - c = 0
      · rw [hz]
        exact atChar_zero ht
      · rwa [show o - c - 1 + 1 = o - c by omega] at this
  have hs := lineStart_pos ho h
  unfold Source.lineRange Source.lineStart
  rw [lineTable_iff.1 hL, hs]
  dsimp only
  cases hn : (computeLineStarts s.content none)[l + 1]? with
  | none => exact ⟨_, rfl, ho, ha, atChar_len _, .inl ⟨rfl, rfl, nextStart_none ho h hn⟩⟩
  | some e =>
    obtain ⟨h1, h2, h3, h4⟩ := nextStart_pos ho h hn
    refine ⟨e, rfl, by omega, ha, ?_, .inr ⟨h1, rfl, h3, h4⟩⟩
    have := atChar_lineStart ht h3
    rwa [show e - 1 + 1 = e by omega] at this

/-- Line and column of a position give its offset. -/
theorem lineColumnToOffset_pos {s : Source} {o l c : Nat} (ht : TextOk s.content)
    (hL : LineTable s.content s.lineStarts) (ho : AtChar s.content o) (h : IsPos s.content o l c) :
    s.lineColumnToOffset l c = .ok (some o) := by
  obtain ⟨e, hr, hoe, ha, he, -⟩ := lineRange_pos ht hL ho.1 h
  have hco := h.2.1
  unfold Source.lineColumnToOffset
  rw [hr]
  dsimp only
  rw [strGet_atChar ha he (by omega)]
  dsimp only
  have hlen : (sliceOf s.content (o - c) e).length = e - (o - c) := by
    have := he.1
    unfold sliceOf
    rw [List.length_drop, List.length_take]
    omega
  rw [if_neg (by omega)]
  have hb : strBoundary (sliceOf s.content (o - c) e) c = true := by
    apply boundary_of_atChar
    refine ⟨by omega, ?_⟩
    intro x hx
    unfold sliceOf at hx
    rw [List.getElem?_drop, show o - c + c = o by omega, List.getElem?_take] at hx
    split at hx
    · exact ho.2 x hx
    · exact absurd hx (by simp)
  rw [if_pos hb, List.length_take, hlen, Nat.min_eq_left (by omega), show o - c + c = o by omega]

end Litcheck
