import Verif.Proofs.Tac
import Verif.Model.Cursor
import Verif.Spec.Lines

namespace Litcheck
open Spec

theorem memchr_some {x : UInt8} {b : Buf} {i : Nat} (h : memchr x b = some i) :
    b[i]? = some x ∧ ∀ j, j < i → b[j]? ≠ some x := by
  induction b generalizing i with
  | nil => simp [memchr] at h
  | cons y ys ih =>
    simp only [memchr] at h
    split at h
    · rename_i hy
      simp at h
      subst h
      simp_all
    · rename_i hy
      cases hm : memchr x ys with
      | none => simp [hm] at h
      | some k =>
        simp [hm] at h
        subst h
        obtain ⟨h1, h2⟩ := ih hm
        refine ⟨by simpa using h1, ?_⟩
        intro j hj
        cases j with
        | zero => simpa using hy
        | succ j => simpa using h2 j (by omega)

theorem memchr_none {x : UInt8} {b : Buf} (h : memchr x b = none) : ∀ j : Nat, b[j]? ≠ some x := by
  induction b with
  | nil => simp
  | cons y ys ih =>
    simp only [memchr] at h
    split at h
    · simp at h
    · rename_i hy
      cases hm : memchr x ys with
      | some k => simp [hm] at h
      | none =>
        intro j
        cases j with
        | zero => simpa using hy
        | succ j => simpa using ih hm j

theorem memrchr_none {x : UInt8} {b : Buf} (h : memrchr x b = none) : ∀ j : Nat, b[j]? ≠ some x := by
  induction b with
  | nil => simp
  | cons y ys ih =>
    simp only [memrchr] at h
    split at h
    · simp at h
    · rename_i hm
      split at h
      · simp at h
      · rename_i hy
        intro j
        cases j with
        | zero => simpa using hy
        | succ j => simpa using ih hm j

theorem memrchr_some {x : UInt8} {b : Buf} {i : Nat} (h : memrchr x b = some i) :
    b[i]? = some x ∧ ∀ j, i < j → b[j]? ≠ some x := by
  induction b generalizing i with
  | nil => simp [memrchr] at h
  | cons y ys ih =>
    simp only [memrchr] at h
    split at h
    · rename_i k hm
      simp at h
      subst h
      obtain ⟨h1, h2⟩ := ih hm
      refine ⟨by simpa using h1, ?_⟩
      intro j hj
      cases j with
      | zero => omega
      | succ j => simpa using h2 j (by omega)
    · rename_i hm
      split at h
      · rename_i hy
        simp at h
        subst h
        refine ⟨by simpa using hy, ?_⟩
        intro j hj
        cases j with
        | zero => omega
        | succ j => simpa using memrchr_none hm j
      · simp at h

theorem sliceOf_get (b : Buf) (s e j : Nat) : (sliceOf b s e)[j]? = if s + j < e then b[s + j]? else none := by
  simp [sliceOf, List.getElem?_drop, List.getElem?_take]

theorem findNextLf_some {b : Buf} {s e i : Nat} (h : findNextLf b ⟨s, e⟩ = some i) :
    s ≤ i ∧ i < e ∧ IsLF b i ∧ NoLF b s i := by
  simp only [findNextLf] at h
  cases hm : memchr LF (sliceOf b s e) with
  | none => simp [hm] at h
  | some k =>
    simp [hm] at h
    subst h
    obtain ⟨h1, h2⟩ := memchr_some hm
    rw [sliceOf_get] at h1
    split at h1
    · refine ⟨by omega, by omega, h1, ?_⟩
      intro j hj1 hj2 hlf
      have := h2 (j - s) (by omega)
      rw [sliceOf_get] at this
      have hjs : s + (j - s) = j := by omega
      rw [hjs, if_pos (by omega)] at this
      exact this hlf
    · simp at h1

theorem findNextLf_none {b : Buf} {s e : Nat} (h : findNextLf b ⟨s, e⟩ = none) : NoLF b s e := by
  simp only [findNextLf, Option.map_eq_none_iff] at h
  intro j hj1 hj2 hlf
  have := memchr_none h (j - s)
  rw [sliceOf_get] at this
  have hjs : s + (j - s) = j := by omega
  rw [hjs, if_pos hj2] at this
  exact this hlf

theorem findPrevLf_some {b : Buf} {s e i : Nat} (h : findPrevLf b ⟨s, e⟩ = some i) :
    s ≤ i ∧ i < e ∧ IsLF b i ∧ NoLF b (i + 1) e := by
  simp only [findPrevLf] at h
  cases hm : memrchr LF (sliceOf b s e) with
  | none => simp [hm] at h
  | some k =>
    simp [hm] at h
    subst h
    obtain ⟨h1, h2⟩ := memrchr_some hm
    rw [sliceOf_get] at h1
    split at h1
    · refine ⟨by omega, by omega, h1, ?_⟩
      intro j hj1 hj2 hlf
      have := h2 (j - s) (by omega)
      rw [sliceOf_get] at this
      have hjs : s + (j - s) = j := by omega
      rw [hjs, if_pos (by omega)] at this
      exact this hlf
    · simp at h1

theorem findPrevLf_none {b : Buf} {s e : Nat} (h : findPrevLf b ⟨s, e⟩ = none) : NoLF b s e := by
  simp only [findPrevLf, Option.map_eq_none_iff] at h
  intro j hj1 hj2 hlf
  have := memrchr_none h (j - s)
  rw [sliceOf_get] at this
  have hjs : s + (j - s) = j := by omega
  rw [hjs, if_pos hj2] at this
  exact this hlf

theorem Spec.IsLF.lt {b : Buf} {i : Nat} (h : IsLF b i) : i < b.length := by
  unfold IsLF at h
  by_contra hc
  rw [List.getElem?_eq_none (by omega)] at h
  simp at h

theorem Spec.FirstLF.unique {b : Buf} {p n m : Nat} (h : FirstLF b p n) (h' : FirstLF b p m) : n = m := by
  obtain ⟨h1, h2, h3⟩ := h
  obtain ⟨k1, k2, k3⟩ := h'
  by_contra hne
  rcases Nat.lt_or_gt_of_ne hne with hlt | hgt
  · exact k3 n h1 hlt h2
  · exact h3 m k1 hgt k2

/-- What `Newline::next_from` computes. -/
theorem nextFrom_spec {b : Buf} {p : Nat} {nl : Newline} (h : Newline.nextFrom b p = .ok nl) :
    p ≤ b.length ∧
    ((∃ n, FirstLF b p n ∧ nl.nextLineStart = n + 1 ∧
        ((n > 0 ∧ b[n - 1]? = some CR ∧ nl = ⟨n - 1, .crlf⟩) ∨
         ((n = 0 ∨ b[n - 1]? ≠ some CR) ∧ nl = ⟨n, .lf⟩))) ∨
     (NoLF b p b.length ∧ nl = ⟨b.length, .none⟩)) := by
  simp only [Newline.nextFrom] at h
  split at h
  · simp at h
  · rename_i hp
    refine ⟨by omega, ?_⟩
    split at h
    · rename_i i hm
      obtain ⟨h1, h2⟩ := memchr_some hm
      rw [List.getElem?_drop] at h1
      have hf : FirstLF b p (p + i) := by
        refine ⟨by omega, h1, ?_⟩
        intro j hj1 hj2 hlf
        have := h2 (j - p) (by omega)
        rw [List.getElem?_drop] at this
        have hjs : p + (j - p) = j := by omega
        rw [hjs] at this
        exact this hlf
      left
      refine ⟨p + i, hf, ?_⟩
      split at h
      · split at h
        · rename_i h0 hcr
          simp at h
          subst h
          refine ⟨by simp [Newline.nextLineStart]; omega, Or.inl ⟨h0, hcr, rfl⟩⟩
        · rename_i h0 hcr
          simp at h
          subst h
          refine ⟨by simp [Newline.nextLineStart], Or.inr ⟨Or.inr hcr, rfl⟩⟩
      · rename_i h0
        simp at h
        subst h
        refine ⟨by simp [Newline.nextLineStart], Or.inr ⟨Or.inl (by omega), rfl⟩⟩
    · rename_i hm
      simp at h
      right
      refine ⟨?_, h.symm⟩
      intro j hj1 hj2 hlf
      have := memchr_none hm (j - p)
      rw [List.getElem?_drop] at this
      have hjs : p + (j - p) = j := by omega
      rw [hjs] at this
      exact this hlf

theorem nextFrom_ok {b : Buf} {p : Nat} (h : p ≤ b.length) : ∃ nl, Newline.nextFrom b p = .ok nl := by
  unfold Newline.nextFrom
  rw [if_neg (by omega)]
  split
  · dsimp only
    split
    · split <;> exact ⟨_, rfl⟩
    · exact ⟨_, rfl⟩
  · exact ⟨_, rfl⟩

end Litcheck
