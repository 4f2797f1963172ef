import Verif.Spec.Text
import Verif.Model.Line
import Verif.Proofs.Cursor
import Mathlib.Data.List.Induction

/-!
# Properties C20, C23, C51, C52
-/

namespace Litcheck
open Spec

/-! ## C20 -/

theorem nonCanonical_iff (c : Char) :
    isNonCanonicalHorizontalWhitespace c = true ↔ HSpace c ∧ c ≠ ' ' := by
  have hsp : c = ' ' ↔ c.toNat = 0x20 := by
    constructor
    · rintro rfl; rfl
    · intro h
      have h1 : (c.toNat.toUInt32) = 0x20 := by rw [h]; rfl
      apply Char.ext
      have h2 : c.val.toNat = 0x20 := h
      exact UInt32.toNat_inj.1 (by rw [h2]; rfl)
  rw [Ne, hsp]
  unfold HSpace isNonCanonicalHorizontalWhitespace horizontalSpaces
  generalize c.toNat = n
  simp
  omega

theorem canonicalize_map (s : List Char) :
    canonicalizeHorizontalWhitespace s false = s.map (fun c => if isNonCanonicalHorizontalWhitespace c then ' ' else c) := by
  unfold canonicalizeHorizontalWhitespace
  simp only [Bool.false_eq_true, if_false]
  split
  · rfl
  · rename_i h
    symm
    rw [List.map_congr_left (g := id)]
    · simp
    · intro c hc
      simp at h
      simp [h c hc]

theorem canonical_char (c : Char) :
    (if isNonCanonicalHorizontalWhitespace c then ' ' else c) = if c.toNat ∈ horizontalSpaces then ' ' else c := by
  have h := nonCanonical_iff c
  unfold HSpace at h
  by_cases h1 : c.toNat ∈ horizontalSpaces
  · by_cases h2 : c = ' '
    · subst h2; simp
    · have : isNonCanonicalHorizontalWhitespace c = true := h.2 ⟨h1, h2⟩
      simp [this, h1]
  · have : ¬ isNonCanonicalHorizontalWhitespace c = true := fun hh => h1 (h.1 hh).1
    simp [this, h1]

/-- **C20**: nothing changes under `--strict-whitespace`. -/
theorem C20_strict (s : List Char) : canonicalizeHorizontalWhitespace s true = s := rfl

/-- **C20**: otherwise each horizontal white space character becomes a space, and nothing else changes. -/
theorem C20_each (s : List Char) (i : Nat) :
    (canonicalizeHorizontalWhitespace s false).length = s.length ∧
    (∀ c, s[i]? = some c → HSpace c → (canonicalizeHorizontalWhitespace s false)[i]? = some ' ') ∧
    (∀ c, s[i]? = some c → ¬ HSpace c → (canonicalizeHorizontalWhitespace s false)[i]? = some c) := by
  rw [canonicalize_map]
  refine ⟨by simp, ?_, ?_⟩ <;> intro c hc hs <;> unfold HSpace at hs <;>
    simp only [List.getElem?_map, hc, Option.map_some, canonical_char, hs, if_true, if_false]

/-- **C20**: canonicalisation is idempotent. -/
theorem C20_idempotent (s : List Char) (strict : Bool) :
    canonicalizeHorizontalWhitespace (canonicalizeHorizontalWhitespace s strict) strict =
      canonicalizeHorizontalWhitespace s strict := by
  cases strict with
  | true => rfl
  | false =>
    rw [canonicalize_map, canonicalize_map, List.map_map]
    apply List.map_congr_left
    intro c _
    simp only [Function.comp, canonical_char]
    by_cases h : c.toNat ∈ horizontalSpaces
    · simp [h]
    · simp [h]

/-- **C20**: two texts become equal if and only if they differ only in which horizontal white space they use. -/
theorem C20_equal_iff (a b : List Char) :
    canonicalizeHorizontalWhitespace a false = canonicalizeHorizontalWhitespace b false ↔ SameUpToSpace a b := by
  rw [canonicalize_map, canonicalize_map]
  unfold SameUpToSpace
  induction a generalizing b with
  | nil => cases b <;> simp
  | cons x xs ih =>
    cases b with
    | nil => simp
    | cons y ys =>
      have key : ((if x.toNat ∈ horizontalSpaces then ' ' else x) = if y.toNat ∈ horizontalSpaces then ' ' else y) ↔
          (x = y ∨ HSpace x ∧ HSpace y) := by
        unfold HSpace
        have hsp : (' ' : Char).toNat ∈ horizontalSpaces := by decide
        by_cases hx : x.toNat ∈ horizontalSpaces <;> by_cases hy : y.toNat ∈ horizontalSpaces
        · simp [hx, hy]
        · simp only [hx, hy, if_true, if_false, and_false, or_false]
          constructor
          · intro h; rw [← h] at hy; exact absurd hsp hy
          · intro h; rw [h] at hx; exact absurd hx hy
        · simp only [hx, hy, if_true, if_false, false_and, or_false]
          constructor
          · intro h; rw [h] at hx; exact absurd hsp hx
          · intro h; rw [h] at hx; exact absurd hy hx
        · simp [hx, hy]
      rw [List.map_cons, List.map_cons, List.cons.injEq, List.forall₂_cons, ih ys, canonical_char, canonical_char, key]

example : SameUpToSpace "a\tb".toList "a b".toList := (C20_equal_iff _ _).1 rfl
example : ¬ SameUpToSpace "a\nb".toList "a b".toList := fun h => absurd ((C20_equal_iff _ _).2 h) (by decide)

/-! ## C23 -/

theorem filter_range_count (x : UInt8) (b : Buf) :
    ((List.range b.length).filter fun i => b[i]? == some x).length = b.count x := by
  induction b using List.reverseRec with
  | nil => rfl
  | append_singleton ys y ih =>
    rw [List.length_append, List.length_singleton, List.range_succ, List.filter_append, List.length_append,
      List.count_append, ← ih]
    congr 1
    · congr 1
      apply List.filter_congr
      intro i hi
      rw [List.mem_range] at hi
      rw [List.getElem?_append_left hi]
    · simp [List.filter_cons, List.count_cons]
      by_cases h : y = x <;> simp [h]

/-- **C23**: `@LINE` is one more than the number of line feeds before the offset. -/
theorem C23_line (file : Buf) (offset : Nat) : pseudoLineForOffset file offset = lfCount file 0 offset + 1 := by
  unfold pseudoLineForOffset memchrIter lfCount between
  rw [filter_range_count]
  congr 2
  by_cases h : file.length ≤ offset
  · rw [Nat.min_eq_left h, List.take_length, List.take_of_length_le h, List.drop_zero]
  · rw [Nat.min_eq_right (by omega), List.drop_zero]

/-- **C23**: `@LINE` is monotone: it grows by one at each line feed and nowhere else. -/
theorem C23_step (file : Buf) (offset : Nat) :
    (IsLF file offset → pseudoLineForOffset file (offset + 1) = pseudoLineForOffset file offset + 1) ∧
    (¬ IsLF file offset → pseudoLineForOffset file (offset + 1) = pseudoLineForOffset file offset) := by
  rw [C23_line, C23_line]
  unfold lfCount between IsLF
  rw [List.take_succ, List.drop_zero, List.drop_zero, List.count_append]
  constructor
  · intro h; rw [h]; rfl
  · intro h
    cases hb : file[offset]? with
    | none => simp
    | some y =>
      rw [hb] at h
      simp at h
      simp [h]

/-- **C23**: `@LINE` is monotone. -/
theorem C23_mono (file : Buf) {a b : Nat} (h : a ≤ b) : pseudoLineForOffset file a ≤ pseudoLineForOffset file b := by
  induction h with
  | refl => exact Nat.le_refl _
  | step _ ih =>
    rename_i m _
    show _ ≤ pseudoLineForOffset file (m + 1)
    rcases Classical.em (IsLF file m) with hl | hl
    · have := (C23_step file m).1 hl; omega
    · have := (C23_step file m).2 hl; omega

example : pseudoLineForOffset (bytes "a\nb\nc") 4 = 3 := rfl

/-! ## C51 -/

/-- The range given by a pair of bounds within `allowed`: the elements it is meant to have. -/
def InBounds (lo hi : Bound) (i : Nat) : Prop :=
  (match lo with | .included a => a ≤ i | .excluded a => a < i | .unbounded => True) ∧
  (match hi with | .included a => i ≤ a | .excluded a => i < a | .unbounded => True)

/-- The first element which a lower bound admits. -/
def first (lo : Bound) (d : Nat) : Nat := match lo with | .included a => a | .excluded a => a + 1 | .unbounded => d

/-- The first number past the elements which an upper bound admits. -/
def past (hi : Bound) (d : Nat) : Nat := match hi with | .included a => a + 1 | .excluded a => a | .unbounded => d

/-- **C51**: a user range which is accepted has exactly the elements of the allowed range which satisfy its bounds,
and lies within the allowed range. -/
theorem C51_accepted {lo hi : Bound} {allowed r : Rng} (h : rangeFromBounds lo hi allowed = .ok r) :
    r.start ≤ r.stop ∧ allowed.start ≤ r.start ∧ r.stop ≤ allowed.stop ∧
    ∀ i, InRange r.start r.stop i ↔ InRange allowed.start allowed.stop i ∧ InBounds lo hi i := by
  unfold rangeFromBounds at h
  dsimp only at h
  split at h
  · simp at h
  · rename_i hc
    have h := Except.ok.inj h
    subst h
    dsimp only
    refine ⟨by omega, by omega, by omega, fun i => ?_⟩
    unfold InRange InBounds
    cases lo <;> cases hi <;> simp only [startOf, endOf, and_true, true_and] at hc ⊢ <;> omega

/-- **C51**: a user range is rejected if and only if it is inverted, or reaches out of the allowed range. -/
theorem C51_rejected_iff (lo hi : Bound) (allowed : Rng) :
    (∃ e, rangeFromBounds lo hi allowed = .error e) ↔
      first lo allowed.start > past hi allowed.stop ∨ first lo allowed.start < allowed.start ∨
        past hi allowed.stop > allowed.stop := by
  have h1 : ∀ d, first lo d = startOf lo d := fun d => by cases lo <;> rfl
  have h2 : ∀ d, past hi d = endOf hi d := fun d => by cases hi <;> rfl
  rw [h1, h2]
  unfold rangeFromBounds
  dsimp only
  split
  · rename_i h; simpa using h
  · rename_i h; simp; omega

/-- **C51**: shrinking from the front drops the first `n` elements (all if there are fewer), and the result is a range again: it
does not start past its end. -/
theorem C51_shrink_front (r : Rng) (hr : r.start ≤ r.stop) (n : Nat) :
    (r.shrinkFront n).start ≤ (r.shrinkFront n).stop ∧ (r.shrinkFront n).stop = r.stop ∧
    ∀ i, InRange (r.shrinkFront n).start (r.shrinkFront n).stop i ↔ InRange r.start r.stop i ∧ r.start + n ≤ i := by
  unfold Rng.shrinkFront InRange
  dsimp only
  refine ⟨by omega, rfl, fun i => by omega⟩

/-- **C51** fails: taking the first element of a range never removes it, and even an empty range yields one. -/
theorem C51_pop_front_refuted (r : Rng) (hr : r.start ≤ r.stop) : r.popFront = (some r.start, r) := by
  simp [Rng.popFront, Rng.numericOne, hr]

/-- **C51** fails: taking the last element of a range yields its (excluded) end, and never removes anything. -/
theorem C51_pop_back_refuted (r : Rng) (hr : r.start < r.stop) : r.popBack = (some r.stop, r) ∧ ¬ InRange r.start r.stop r.stop := by
  constructor
  · simp [Rng.popBack, Rng.numericOne]; omega
  · unfold InRange; omega

/-- **C51** fails: truncating a range to its own length, which its documentation allows, panics. -/
theorem C51_truncate_refuted (r : Rng) (hr : r.start ≤ r.stop) : r.truncate (r.stop - r.start) = .error .assertFailed := by
  simp [Rng.truncate, Rng.len, hr, bind, Except.bind]

/-- **C51**: truncating to a smaller length keeps exactly the first elements. -/
theorem C51_truncate (r : Rng) (n : Nat) (hn : n < r.stop - r.start) :
    r.truncate n = .ok ⟨r.start, r.start + n⟩ := by
  have : r.start ≤ r.stop := by omega
  simp [Rng.truncate, Rng.len, this, bind, Except.bind, hn]

example : rangeFromBounds (.excluded 2) (.included 4) ⟨0, 10⟩ = .ok ⟨3, 5⟩ := rfl

/-! ## C52 -/

/-- **C52**: searching forward from any position of the text finds the first line feed at or after it (or the end of
the text), and the next line starts just past it; with a carriage return before the line feed, the line end is at the
carriage return. -/
theorem C52_next (b : Buf) (p : Nat) (hp : p ≤ b.length) : ∃ nl, Newline.nextFrom b p = .ok nl ∧
    ((∃ n, FirstLF b p n ∧ nl.nextLineStart = n + 1 ∧
        nl.offset = if n > 0 ∧ b[n - 1]? = some 13 then n - 1 else n) ∨
     (NoLF b p b.length ∧ nl.offset = b.length ∧ nl.nextLineStart = b.length)) := by
  obtain ⟨nl, h⟩ := nextFrom_ok hp
  refine ⟨nl, h, ?_⟩
  rcases (nextFrom_spec h).2 with ⟨n, h1, h2, h3⟩ | h3
  · left
    refine ⟨n, h1, h2, ?_⟩
    rcases h3 with ⟨h4, h5, h6⟩ | ⟨h4, h6⟩
    · have : n > 0 ∧ b[n - 1]? = some 13 := ⟨h4, h5⟩
      rw [h6, if_pos this]
    · have : ¬ (n > 0 ∧ b[n - 1]? = some 13) := by
        rintro ⟨k1, k2⟩
        rcases h4 with h4 | h4
        · omega
        · exact h4 k2
      rw [h6, if_neg this]
  · right
    obtain ⟨h4, h5⟩ := h3
    subst h5
    exact ⟨h4, rfl, rfl⟩

/-- **C52**: searching backwards finds the last line feed before the position; `none` if there is none. -/
theorem C52_prev (b : Buf) (p : Nat) (hp : p ≤ b.length) : ∃ nl, Newline.prevFrom b p = .ok nl ∧
    ((∃ n, LastLFBefore b p n ∧ nl.ty ≠ .none ∧ nl.offset = if n > 0 ∧ b[n - 1]? = some 13 then n - 1 else n) ∨
     (NoLF b 0 p ∧ nl = ⟨0, .none⟩)) := by
  unfold Newline.prevFrom
  rw [if_neg (by omega)]
  cases h : memrchr LF (b.take p) with
  | none =>
    refine ⟨_, rfl, .inr ⟨?_, rfl⟩⟩
    intro i _ hi hlf
    apply memrchr_none h i
    rw [List.getElem?_take_of_lt hi]; exact hlf
  | some n =>
    obtain ⟨h1, h2⟩ := memrchr_some h
    have hn : n < p := by
      by_contra hc
      rw [List.getElem?_take_eq_none (by omega)] at h1
      simp at h1
    have hlast : LastLFBefore b p n := by
      refine ⟨hn, ?_, ?_⟩
      · rw [List.getElem?_take_of_lt hn] at h1; exact h1
      · intro i hi1 hi2 hlf
        apply h2 i (by omega)
        rw [List.getElem?_take_of_lt hi2]; exact hlf
    dsimp only
    by_cases h0 : n > 0
    · by_cases hcr : b[n - 1]? = some CR
      · refine ⟨_, by rw [if_pos h0, if_pos hcr], .inl ⟨n, hlast, by simp, ?_⟩⟩
        rw [if_pos ⟨h0, hcr⟩]
      · refine ⟨_, by rw [if_pos h0, if_neg hcr], .inl ⟨n, hlast, by simp, ?_⟩⟩
        rw [if_neg (fun hh => hcr hh.2)]
    · refine ⟨_, by rw [if_neg h0], .inl ⟨n, hlast, by simp, ?_⟩⟩
      rw [if_neg (fun hh => h0 hh.1)]

/-- **C52** fails: after searching backwards, the start of the next line is wrong (by one) for a plain line feed. -/
theorem C52_prev_refuted : (Newline.prevFrom (bytes "a\nbc") 4).map Newline.nextLineStart = .ok 3 := rfl

/-- **C52** fails: searching a text backwards from its end finds nothing, whatever is in it: the search is from the beginning. -/
theorem C52_last_refuted (b : Buf) : Newline.prev b = .ok ⟨0, .none⟩ := by
  unfold Newline.prev Newline.prevFrom
  rw [if_neg (by omega), List.take_zero]
  rfl

/-- **C52** fails: with `\r\n` line endings, searching a range for a line end ignores where the range starts. Here
the range starts at the second line, whose end is at 7 (or 8), but nothing is found. -/
theorem C52_crlf_refuted : findNextCrlf (bytes "abc\r\nde\r\n") ⟨5, 9⟩ = none ∧
    IsLF (bytes "abc\r\nde\r\n") 8 ∧ (bytes "abc\r\nde\r\n")[7]? = some 13 := ⟨rfl, rfl, rfl⟩

/-- **C52**: with line feeds, searching a range for a line end finds exactly the first one of the range. -/
theorem C52_next_in_range (b : Buf) (r : Rng) (n : Nat) :
    findNextLf b r = some n ↔ FirstLF b r.start n ∧ n < r.stop := by
  constructor
  · intro h
    obtain ⟨h1, h2, h3, h4⟩ := findNextLf_some (s := r.start) (e := r.stop) h
    exact ⟨⟨h1, h3, h4⟩, h2⟩
  · rintro ⟨hf, hlt⟩
    cases h : findNextLf b r with
    | none => exact absurd hf.2.1 (findNextLf_none (s := r.start) (e := r.stop) h n hf.1 hlt)
    | some m =>
      obtain ⟨h1, h2, h3, h4⟩ := findNextLf_some (s := r.start) (e := r.stop) h
      rw [Spec.FirstLF.unique hf ⟨h1, h3, h4⟩]

/-- **C52**: with line feeds, searching a range backwards finds exactly the last one of the range. -/
theorem C52_prev_in_range (b : Buf) (r : Rng) (n : Nat) :
    findPrevLf b r = some n ↔ LastLFBefore b r.stop n ∧ r.start ≤ n := by
  constructor
  · intro h
    obtain ⟨h1, h2, h3, h4⟩ := findPrevLf_some (s := r.start) (e := r.stop) h
    exact ⟨⟨h2, h3, h4⟩, h1⟩
  · rintro ⟨⟨h1, h2, h3⟩, h0⟩
    cases h : findPrevLf b r with
    | none => exact absurd h2 (findPrevLf_none (s := r.start) (e := r.stop) h n h0 h1)
    | some m =>
      obtain ⟨k1, k2, k3, k4⟩ := findPrevLf_some (s := r.start) (e := r.stop) h
      by_contra hne
      rcases Nat.lt_trichotomy m n with hlt | heq | hgt
      · exact k4 n (by omega) h1 h2
      · exact hne (by rw [heq])
      · exact h3 m (by omega) k2 k3

/-! ## C54 -/

theorem crlfToLf_lf (xs : Buf) : crlfToLf (LF :: xs) = LF :: crlfToLf xs := by
  rw [crlfToLf]
  intro _ h
  exact absurd h (by decide)

theorem crlfToLf_append {cur : Buf} (h : LF ∉ cur) (xs : Buf) :
    crlfToLf (cur ++ LF :: xs) = (if cur.getLast? = some CR then cur.dropLast else cur) ++ LF :: crlfToLf xs := by
  induction cur with
  | nil => simp [crlfToLf_lf]
  | cons y ys ih =>
    have hy : y ≠ LF := fun e => h (by simp [e])
    have hys : LF ∉ ys := fun e => h (by simp [e])
    cases ys with
    | nil =>
      by_cases hc : y = CR
      · subst hc; simp [crlfToLf]
      · simp [crlfToLf, hc, crlfToLf_lf]
    | cons z zs =>
      have hz : z ≠ LF := fun e => hys (by simp [e])
      have h1 : crlfToLf (y :: z :: (zs ++ LF :: xs)) = y :: crlfToLf (z :: (zs ++ LF :: xs)) := by
        rw [crlfToLf]
        rintro _ - he
        exact hz (List.cons.inj he).1
      have ih := ih hys
      simp only [List.cons_append] at ih ⊢
      rw [h1, ih]
      by_cases hl : (z :: zs).getLast? = some CR
      · have : (y :: z :: zs).getLast? = some CR := by rw [List.getLast?_cons_cons]; exact hl
        simp [hl, this, List.dropLast]
      · have : ¬ (y :: z :: zs).getLast? = some CR := by rw [List.getLast?_cons_cons]; exact hl
        simp only [hl, this, if_false, List.cons_append]

theorem crlfToLf_noLF {cur : Buf} (h : LF ∉ cur) : crlfToLf cur = cur := by
  induction cur with
  | nil => rfl
  | cons y ys ih =>
    have hys : LF ∉ ys := fun e => h (by simp [e])
    have : crlfToLf (y :: ys) = y :: crlfToLf ys := by
      rw [crlfToLf]
      rintro zs - he
      exact hys (by rw [he]; simp)
    rw [this, ih hys]

theorem crlfToLf_ne {xs : Buf} (h : xs ≠ []) : crlfToLf xs ≠ [] := by
  cases xs with
  | nil => exact absurd rfl h
  | cons x xs =>
    intro hc
    cases xs with
    | nil => simp [crlfToLf] at hc
    | cons z zs =>
      rw [crlfToLf.eq_def] at hc
      split at hc
      · simp at hc
      · simp at hc
      · rename_i he; simp at he

theorem bufLines_ne {xs cur : Buf} (h : xs ≠ [] ∨ cur ≠ []) : bufLines xs cur ≠ [] := by
  induction xs generalizing cur with
  | nil => simpa [bufLines] using h
  | cons x xs ih =>
    unfold bufLines
    split
    · simp
    · exact ih (.inr (by simp))

theorem dropFinalLf_append (xs ys : Buf) (h : ys ≠ []) : dropFinalLf (xs ++ ys) = xs ++ dropFinalLf ys := by
  unfold dropFinalLf
  rw [List.getLast?_append_of_ne_nil _ h]
  split
  · rw [List.dropLast_append_of_ne_nil h]
  · rfl

theorem join_bufLines (xs cur : Buf) (h : LF ∉ cur) :
    [LF].intercalate (bufLines xs cur) = dropFinalLf (crlfToLf (cur ++ xs)) := by
  induction xs generalizing cur with
  | nil =>
    rw [List.append_nil, crlfToLf_noLF h]
    have : ¬ cur.getLast? = some LF := fun hc => h (List.mem_of_getLast? hc)
    unfold bufLines dropFinalLf
    rw [if_neg this]
    cases cur <;> simp [List.intercalate]
  | cons x xs ih =>
    unfold bufLines
    by_cases hx : x = LF
    · subst hx
      simp only [beq_self_eq_true, if_true]
      rw [crlfToLf_append h]
      have e : (if (cur.getLast? == some CR) = true then cur.dropLast else cur) =
          if cur.getLast? = some CR then cur.dropLast else cur := by
        by_cases hl : cur.getLast? = some CR <;> simp [hl]
      rw [e]
      generalize (if cur.getLast? = some CR then cur.dropLast else cur) = line
      have ih := ih [] (by simp)
      cases xs with
      | nil => simp [bufLines, List.intercalate, crlfToLf, dropFinalLf]
      | cons y ys =>
        have hne : bufLines (y :: ys) [] ≠ [] := bufLines_ne (.inl (by simp))
        have hj : [LF].intercalate (line :: bufLines (y :: ys) []) = line ++ LF :: [LF].intercalate (bufLines (y :: ys) []) := by
          cases hb : bufLines (y :: ys) [] with
          | nil => exact absurd hb hne
          | cons a as => simp [List.intercalate, List.intersperse]
        rw [hj, ih, List.nil_append]
        have h2 := crlfToLf_ne (xs := y :: ys) (by simp)
        rw [dropFinalLf_append _ _ (by simp)]
        congr 1
        exact (dropFinalLf_append [LF] _ h2).symm
    · have hb : (x == LF) = false := by simpa using hx
      simp only [hb, Bool.false_eq_true, if_false]
      rw [ih _ (by simp [h]; exact fun e => hx e.symm)]
      simp

theorem foldl_join (ls : List Buf) (n : Nat) (acc : Buf) (hn : n > 0) :
    (ls.zipIdx n).foldl (fun acc x => (if x.2 > 0 then acc ++ [LF] else acc) ++ x.1) acc =
      acc ++ (ls.flatMap fun l => LF :: l) := by
  induction ls generalizing n acc with
  | nil => simp
  | cons l ls ih =>
    simp only [List.zipIdx_cons, List.foldl_cons, hn, if_true]
    rw [ih _ _ (by omega)]
    simp

theorem intercalate_cons (l : Buf) (ls : List Buf) : [LF].intercalate (l :: ls) = l ++ ls.flatMap fun l => LF :: l := by
  induction ls generalizing l with
  | nil => simp [List.intercalate]
  | cons a as ih =>
    have h := ih a
    simp only [List.intercalate] at h
    simp only [List.intercalate, List.intersperse, List.flatten_cons, List.flatMap_cons, h]
    simp

/-- **C54**: a test script or configuration is read with each `\r\n` replaced by `\n` and without a final line
feed; nothing else changes. An input or check file (`strict`) is read unchanged. -/
theorem C54_read (content : Buf) :
    readToString content true = content ∧ readToString content false = dropFinalLf (crlfToLf content) := by
  refine ⟨rfl, ?_⟩
  have h := join_bufLines content [] (by simp)
  rw [List.nil_append] at h
  rw [← h]
  unfold readToString
  simp only [Bool.false_eq_true, if_false]
  cases bufLines content [] with
  | nil => rfl
  | cons l ls =>
    rw [intercalate_cons]
    simp only [List.zipIdx_cons, List.foldl_cons]
    rw [foldl_join _ _ _ (by omega)]
    simp

example : readToString (bytes "a\r\nb\n\nc\n") false = bytes "a\nb\n\nc" := by
  rw [(C54_read _).2]; rfl

end Litcheck
