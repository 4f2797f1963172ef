import Verif.Proofs.Text

/-!
# The cursor on inputs with line-feed endings
-/

namespace Litcheck
open Spec

/-- Well-formed cursor state (for inputs whose line ending is a line feed): the invariant which the
proofs thread through the checker. -/
structure Cursor.WF (c : Cursor) : Prop where
  lf : c.crlf = false
  lo : c.start ≤ c.stop
  hi : c.stop ≤ c.buf.length
  eolLo : c.start ≤ c.eol
  eolHi : c.eol ≤ c.stop
  eolNo : NoLF c.buf c.start c.eol
  eolIs : c.eol = c.stop ∨ IsLF c.buf c.eol
  bend : c.stop = c.buf.length ∨ (IsLF c.buf c.stop ∧ c.stop + 1 < c.buf.length ∧ ¬ IsLF c.buf (c.stop + 1))

theorem bounded_eq (b : Buf) (lo hi : Bound) :
    Cursor.bounded b lo hi =
      if startOf lo 0 ≤ endOf hi b.length ∧ endOf hi b.length ≤ b.length
      then .ok ⟨startOf lo 0, endOf hi b.length⟩ else .error .invalidRange := by
  unfold Cursor.bounded rangeFromBounds
  by_cases h : startOf lo 0 ≤ endOf hi b.length ∧ endOf hi b.length ≤ b.length
  · have : ¬ (startOf lo 0 > endOf hi b.length ∨ startOf lo 0 < 0 ∨ endOf hi b.length > b.length) := by omega
    simp only [this, if_pos h, if_false]
  · have : (startOf lo 0 > endOf hi b.length ∨ startOf lo 0 < 0 ∨ endOf hi b.length > b.length) := by omega
    simp only [this, if_neg h, if_true]

theorem bounded_ok {b : Buf} {s e : Nat} (h1 : s ≤ e) (h2 : e ≤ b.length) :
    Cursor.bounded b (.included s) (.excluded e) = .ok ⟨s, e⟩ := by
  rw [bounded_eq]; simp [startOf, endOf, h1, h2]

theorem bounded_inv {b : Buf} {s e : Nat} {r : Rng}
    (h : Cursor.bounded b (.included s) (.excluded e) = .ok r) : r = ⟨s, e⟩ ∧ s ≤ e ∧ e ≤ b.length := by
  rw [bounded_eq] at h
  split_ifs at h with hh
  simp only [startOf, endOf] at h hh
  simp at h; exact ⟨h.symm, hh⟩

theorem bounded_from_ok {b : Buf} {s : Nat} (h1 : s ≤ b.length) :
    Cursor.bounded b (.included s) .unbounded = .ok ⟨s, b.length⟩ := by
  rw [bounded_eq]; simp [startOf, endOf, h1]

theorem bounded_from_inv {b : Buf} {s : Nat} {r : Rng}
    (h : Cursor.bounded b (.included s) .unbounded = .ok r) : r = ⟨s, b.length⟩ ∧ s ≤ b.length := by
  rw [bounded_eq] at h
  split_ifs at h with hh
  simp only [startOf, endOf] at h hh
  simp at h; exact ⟨h.symm, hh.1⟩

theorem bounded_to_ok {b : Buf} {e : Nat} (h1 : e ≤ b.length) :
    Cursor.bounded b .unbounded (.excluded e) = .ok ⟨0, e⟩ := by
  rw [bounded_eq]; simp [startOf, endOf, h1]

theorem bounded_to_inv {b : Buf} {e : Nat} {r : Rng}
    (h : Cursor.bounded b .unbounded (.excluded e) = .ok r) : r = ⟨0, e⟩ ∧ e ≤ b.length := by
  rw [bounded_eq] at h
  split_ifs at h with hh
  simp only [startOf, endOf] at h hh
  simp at h; exact ⟨h.symm, hh.2⟩

namespace Cursor

/-- The outcome of looking for the next newline, from `s` up to `e`. -/
def NextNL (b : Buf) (s e : Nat) (r : Option Nat) : Prop :=
  (∃ n, r = some n ∧ s ≤ n ∧ n < e ∧ IsLF b n ∧ NoLF b s n) ∨ (r = none ∧ NoLF b s e)

theorem findNextLf_nl (b : Buf) (s e : Nat) : NextNL b s e (findNextLf b ⟨s, e⟩) := by
  cases h : findNextLf b ⟨s, e⟩ with
  | none => exact Or.inr ⟨rfl, findNextLf_none h⟩
  | some n =>
    obtain ⟨h1, h2, h3, h4⟩ := findNextLf_some h
    exact Or.inl ⟨n, rfl, h1, h2, h3, h4⟩

theorem nextNewlineInRange_ok {c : Cursor} (hlf : c.crlf = false) {s e : Nat} (h1 : s ≤ e)
    (h2 : e ≤ c.buf.length) :
    ∃ r, c.nextNewlineInRange (.included s) (.excluded e) = .ok r ∧ NextNL c.buf s e r := by
  refine ⟨_, ?_, findNextLf_nl c.buf s e⟩
  simp [nextNewlineInRange, bounded_ok h1 h2, hlf, bind, Except.bind]

theorem nextNewlineFrom_ok {c : Cursor} (hlf : c.crlf = false) {s : Nat} (h1 : s ≤ c.buf.length) :
    ∃ r, c.nextNewlineFrom s = .ok r ∧ NextNL c.buf s c.buf.length r := by
  refine ⟨_, ?_, findNextLf_nl c.buf s _⟩
  simp [nextNewlineFrom, nextNewlineInRange, bounded_from_ok h1, hlf, bind, Except.bind]

theorem nextNewlineFrom_inv {c : Cursor} (hlf : c.crlf = false) {s : Nat} {r : Option Nat}
    (h : c.nextNewlineFrom s = .ok r) : s ≤ c.buf.length ∧ NextNL c.buf s c.buf.length r := by
  simp only [nextNewlineFrom, nextNewlineInRange, bind, Except.bind] at h
  split at h
  · simp at h
  · rename_i rr hrr
    obtain ⟨rfl, hs⟩ := bounded_from_inv hrr
    simp [hlf] at h
    subst h
    exact ⟨hs, findNextLf_nl c.buf s _⟩

/-- The outcome of looking for the closest newline before `e`. -/
def PrevNL (b : Buf) (e : Nat) (r : Option Nat) : Prop :=
  (∃ n, r = some n ∧ n < e ∧ IsLF b n ∧ NoLF b (n + 1) e) ∨ (r = none ∧ NoLF b 0 e)

theorem prevNewlineFrom_inv {c : Cursor} (hlf : c.crlf = false) {e : Nat} {r : Option Nat}
    (h : c.prevNewlineFrom e = .ok r) : e ≤ c.buf.length ∧ PrevNL c.buf e r := by
  simp only [prevNewlineFrom, prevNewlineInRange, bind, Except.bind] at h
  split at h
  · simp at h
  · rename_i rr hrr
    obtain ⟨rfl, hs⟩ := bounded_to_inv hrr
    simp [hlf] at h
    subst h
    refine ⟨hs, ?_⟩
    cases h : findPrevLf c.buf ⟨0, e⟩ with
    | none => exact Or.inr ⟨rfl, findPrevLf_none h⟩
    | some n =>
      obtain ⟨_, h2, h3, h4⟩ := findPrevLf_some h
      exact Or.inl ⟨n, rfl, h2, h3, h4⟩

theorem prevNewlineFrom_ok {c : Cursor} {e : Nat} (h1 : e ≤ c.buf.length) :
    ∃ r, c.prevNewlineFrom e = .ok r := by
  simp [prevNewlineFrom, prevNewlineInRange, bounded_to_ok h1, bind, Except.bind]

/-- `set_start` on a well-formed cursor, for a position not before the cursor. -/
theorem setStart_wf {c : Cursor} (w : c.WF) {s : Nat} (hs : c.start ≤ s) :
    ∃ c', c.setStart s = .ok c' ∧ c'.WF ∧ c'.start = min s c.stop ∧ c'.stop = c.stop ∧ c'.buf = c.buf := by
  obtain ⟨hlf, hlo, hhi, he1, he2, he3, he4, hb⟩ := w
  unfold setStart
  simp only
  by_cases h1 : s > c.start
  · rw [if_pos h1]
    by_cases h2 : min s c.stop > c.eol
    · rw [if_pos h2]
      obtain ⟨r, hr, hnl⟩ := nextNewlineInRange_ok (c := { c with start := min s c.stop }) hlf
        (s := min s c.stop) (e := c.stop) (by omega) hhi
      simp only [hr, bind, Except.bind]
      refine ⟨_, rfl, ?_, rfl, rfl, rfl⟩
      rcases hnl with ⟨n, rfl, hn1, hn2, hn3, hn4⟩ | ⟨rfl, hno⟩
      · exact ⟨hlf, by simp; omega, hhi, hn1, by simp; omega, hn4, Or.inr hn3, hb⟩
      · exact ⟨hlf, by simp; omega, hhi, by simp; omega, by simp, hno, Or.inl rfl, hb⟩
    · rw [if_neg h2]
      refine ⟨_, rfl, ?_, rfl, rfl, rfl⟩
      refine ⟨hlf, by simp; omega, hhi, by simp at h2 ⊢; omega, he2, ?_, he4, hb⟩
      intro i hi1 hi2
      exact he3 i (by simp at hi1; omega) hi2
  · rw [if_neg h1]
    rw [if_neg (by omega : ¬ s < c.start)]
    have : s = c.start := by omega
    subst this
    refine ⟨_, rfl, ?_, rfl, rfl, rfl⟩
    have hm : min c.start c.stop = c.start := by omega
    simp only [hm]
    exact ⟨hlf, hlo, hhi, he1, he2, he3, he4, hb⟩

theorem searchBlock_wf {c : Cursor} (w : c.WF) : c.searchBlock = .ok ⟨c.start, c.stop⟩ :=
  bounded_ok w.lo w.hi

theorem searchLine_wf {c : Cursor} (w : c.WF) : c.searchLine = .ok ⟨c.start, c.eol⟩ :=
  bounded_ok w.eolLo (Nat.le_trans w.eolHi w.hi)

/-- `start_of_next_line`: just past the next line feed, or the end of the input. -/
theorem startOfNextLine_wf {c : Cursor} (w : c.WF) :
    ∃ s, c.startOfNextLine = .ok s ∧
      ((∃ n, FirstLF c.buf c.start n ∧ s = n + 1) ∨ (NoLF c.buf c.start c.buf.length ∧ s = c.buf.length)) := by
  obtain ⟨nl, hnl⟩ := nextFrom_ok (b := c.buf) (p := c.start) (by have := w.lo; have := w.hi; omega)
  refine ⟨nl.nextLineStart, by simp [startOfNextLine, hnl, bind, Except.bind], ?_⟩
  obtain ⟨_, ⟨n, h1, h2, _⟩ | ⟨h1, rfl⟩⟩ := nextFrom_spec hnl
  · exact Or.inl ⟨n, h1, h2⟩
  · exact Or.inr ⟨h1, rfl⟩

theorem new_wf {b : Buf} (h : LFMode b) :
    ∃ c, Cursor.new b = .ok c ∧ c.WF ∧ c.buf = b ∧ c.start = 0 ∧ c.stop = b.length := by
  obtain ⟨nl, hnl⟩ := nextFrom_ok (b := b) (p := 0) (by omega)
  have hnew : Cursor.new b = .ok ⟨b, 0, b.length, nl.offset, nl.isCrlf⟩ := by
    simp [Cursor.new, Newline.next, hnl, bind, Except.bind]
  refine ⟨_, hnew, ?_, rfl, rfl, rfl⟩
  obtain ⟨_, ⟨n, h1, h2, ⟨h3, h4, rfl⟩ | ⟨_, rfl⟩⟩ | ⟨h1, rfl⟩⟩ := nextFrom_spec hnl
  · rcases h n h1 with h0 | h0
    · omega
    · exact absurd h4 h0
  · exact ⟨rfl, Nat.zero_le _, Nat.le_refl _, Nat.zero_le _, Nat.le_of_lt h1.2.1.lt, h1.2.2, Or.inr h1.2.1, Or.inl rfl⟩
  · exact ⟨rfl, Nat.zero_le _, Nat.le_refl _, Nat.zero_le _, Nat.le_refl _, h1, Or.inl rfl, Or.inl rfl⟩

theorem reset_frame (c : Cursor) : ∃ c', c.reset = .ok c' ∧ c'.crlf = c.crlf ∧ c'.buf = c.buf := by
  obtain ⟨nl, hnl⟩ := nextFrom_ok (b := c.buf) (p := 0) (by omega)
  exact ⟨{ c with eol := nl.offset, start := 0, stop := c.buf.length },
    by simp [Cursor.reset, Newline.next, hnl, bind, Except.bind], rfl, rfl⟩

/-- `set_bounds` to a valid block whose end is the end of the input or a line feed. -/
theorem setBounds_wf {c : Cursor} (hlf : c.crlf = false) {s e : Nat} (h1 : s ≤ e) (h2 : e ≤ c.buf.length)
    (h3 : e = c.buf.length ∨ (IsLF c.buf e ∧ e + 1 < c.buf.length ∧ ¬ IsLF c.buf (e + 1))) :
    ∃ c', c.setBounds ⟨s, e⟩ = .ok c' ∧ c'.WF ∧ c'.start = s ∧ c'.stop = e ∧ c'.buf = c.buf := by
  obtain ⟨r, hr, hnl⟩ := nextNewlineFrom_ok (c := { c with start := s, stop := e }) hlf (s := s) (by simp; omega)
  refine ⟨{ c with start := s, stop := e, eol := r.getD c.buf.length }, ?_, ?_, rfl, rfl, rfl⟩
  · simp [setBounds, bounded_ok h1 h2, hr, bind, Except.bind]
  · simp only at hnl
    rcases hnl with ⟨n, rfl, hn1, hn2, hn3, hn4⟩ | ⟨rfl, hno⟩
    · have hne : n ≤ e := by
        rcases h3 with h3 | h3
        · omega
        · by_contra hc
          exact hn4 e h1 (by omega) h3.1
      exact ⟨hlf, h1, h2, hn1, hne, hn4, Or.inr hn3, h3⟩
    · have : e = c.buf.length := by
        rcases h3 with h3 | h3
        · exact h3
        · exact absurd h3.1 (hno e h1 h3.1.lt)
      exact ⟨hlf, h1, h2, by simp; omega, by simp; omega, hno, Or.inl (by simp [this]), h3⟩

end Cursor
end Litcheck
