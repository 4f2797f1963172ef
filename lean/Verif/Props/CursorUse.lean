import Verif.Model.CursorUse
import Verif.Proofs.Cursor
import Verif.Spec.Lines
import Mathlib.Tactic.SplitIfs

/-!
# C103: what is left of a block and of a line, after any uses of a cursor
-/

namespace Litcheck.Cursors
open Litcheck.Spec

/-! ## Specification -/

/-- From `s`, the rest of a line is the text up to `l`: there is no line feed before `l`, and at `l` there is one, or the text up to `e` is at its end. -/
def RestOfLine (b : Buf) (s e l : Nat) : Prop := s ≤ l ∧ l ≤ b.length ∧ NoLF b s l ∧ (IsLF b l ∨ e ≤ l)

/-- The number of guards in use after some uses, if there are `n` before, and if none of these is saved or dropped. -/
def depth : Nat → List Use → Option Nat
  | n, [] => some n
  | n, .protect :: us => depth (n + 1) us
  | 0, .save :: _ => none
  | 0, .drop :: _ => none
  | n + 1, .save :: us => depth n us
  | n + 1, .drop :: us => depth n us
  | n, _ :: us => depth n us

/-! ## The bounds -/

/-- The bounds of a position are in the text. -/
def InText (b : Buf) (p : Pos) : Prop := p.start ≤ p.stop ∧ p.stop ≤ b.length

def CurIn (b : Buf) (m : Bool) (c : Cursor) : Prop := c.buf = b ∧ c.crlf = m ∧ InText b (position c)

def HistIn (b : Buf) (m : Bool) (h : History) : Prop :=
  CurIn b m h.cur ∧ (∀ g ∈ h.guarded, CurIn b m g) ∧ ∀ p ∈ h.saved, InText b p

theorem nextIn_ok (c : Cursor) {s e : Nat} (h1 : s ≤ e) (h2 : e ≤ c.buf.length) :
    ∃ r, c.nextNewlineInRange (.included s) (.excluded e) = .ok r := by
  simp [Cursor.nextNewlineInRange, bounded_ok h1 h2, bind, Except.bind]

theorem nextFrom_ok' (c : Cursor) {s : Nat} (h1 : s ≤ c.buf.length) : ∃ r, c.nextNewlineFrom s = .ok r := by
  simp [Cursor.nextNewlineFrom, Cursor.nextNewlineInRange, bounded_from_ok h1, bind, Except.bind]

theorem setStart_in {b : Buf} {m : Bool} {c : Cursor} (n : Nat) (hc : CurIn b m c) : ∃ c', c.setStart n = .ok c' ∧ CurIn b m c' := by
  obtain ⟨rfl, rfl, h1, h2⟩ := hc
  simp only [position] at h1 h2
  obtain ⟨r, hr⟩ := nextIn_ok { c with start := min n c.stop } (s := min n c.stop) (e := c.stop) (by omega) h2
  unfold Cursor.setStart
  simp only [hr, bind, Except.bind]
  have hin : InText c.buf ⟨min n c.stop, c.stop, 0⟩ := ⟨by simp only; omega, h2⟩
  split_ifs <;> exact ⟨_, rfl, rfl, rfl, hin⟩

theorem setBounds_in {b : Buf} {m : Bool} {c : Cursor} {r : Rng} (hc : CurIn b m c) (h1 : r.start ≤ r.stop) (h2 : r.stop ≤ b.length) :
    ∃ c', c.setBounds r = .ok c' ∧ CurIn b m c' ∧ c'.start = r.start ∧ c'.stop = r.stop := by
  obtain ⟨rfl, rfl, h3, h4⟩ := hc
  obtain ⟨x, hx⟩ := nextFrom_ok' { c with start := r.start, stop := r.stop } (s := r.start) (by simp only; omega)
  simp only [Cursor.setBounds, bounded_ok h1 h2, hx, bind, Except.bind]
  exact ⟨_, rfl, ⟨rfl, rfl, h1, h2⟩, rfl, rfl⟩

theorem setBounds_inv {c c' : Cursor} {r : Rng} (h : c.setBounds r = .ok c') : r.start ≤ r.stop ∧ r.stop ≤ c.buf.length := by
  by_cases hc : r.start ≤ r.stop ∧ r.stop ≤ c.buf.length
  · exact hc
  · have hb : Cursor.bounded c.buf (.included r.start) (.excluded r.stop) = .error .invalidRange := by
      rw [bounded_eq]
      exact if_neg hc
    unfold Cursor.setBounds at h
    rw [hb] at h
    cases h

theorem consume_in {b : Buf} {m : Bool} {c : Cursor} (hc : CurIn b m c) : ∃ c', consumeNewline false c = .ok c' ∧ CurIn b m c' := by
  obtain ⟨rfl, rfl, h1, h2⟩ := hc
  simp only [position] at h1 h2
  obtain ⟨nl, hnl⟩ := nextFrom_ok (b := c.buf) (p := c.start) (by omega)
  simp only [consumeNewline, Cursor.startOfNextLine, hnl, bind, Except.bind, Bool.false_and, Except.map]
  exact ⟨_, rfl, rfl, rfl, by simp only [position]; omega, h2⟩

theorem consume_inv {b : Buf} {m d : Bool} {c c' : Cursor} (hc : CurIn b m c) (h : consumeNewline d c = .ok c') : CurIn b m c' := by
  obtain ⟨x, hx, hin⟩ := consume_in hc
  unfold consumeNewline at h hx
  split_ifs at h
  simp only [Bool.false_and] at hx
  have : c' = x := by
    have := h.symm.trans hx
    injection this
  exact this ▸ hin

theorem apply_in {b : Buf} {m d : Bool} {h h' : History} {u : Use} (hi : HistIn b m h) (hu : u.apply d h = .ok h') : HistIn b m h' := by
  obtain ⟨hc, hg, hs⟩ := hi
  cases u with
  | position =>
    cases hu
    exact ⟨hc, hg, fun p hp => by rcases List.mem_cons.1 hp with rfl | hp; exacts [hc.2.2, hs p hp]⟩
  | moveTo k =>
    simp only [Use.apply] at hu
    cases hu
    split
    · rename_i p hp
      exact ⟨⟨hc.1, hc.2.1, hs p (List.mem_of_getElem? hp)⟩, hg, hs⟩
    · exact ⟨hc, hg, hs⟩
  | reset =>
    obtain ⟨rfl, rfl, h1, h2⟩ := hc
    obtain ⟨nl, hnl⟩ := nextFrom_ok (b := h.cur.buf) (p := 0) (by omega)
    simp only [Use.apply, Cursor.reset, Newline.next, hnl, bind, Except.bind, Except.map] at hu
    cases hu
    exact ⟨⟨rfl, rfl, Nat.zero_le _, Nat.le_refl _⟩, hg, hs⟩
  | setStart n =>
    obtain ⟨c', h1, h2⟩ := setStart_in n hc
    simp only [Use.apply, h1, Except.map] at hu
    cases hu
    exact ⟨h2, hg, hs⟩
  | moveToEnd =>
    cases hu
    exact ⟨⟨hc.1, hc.2.1, Nat.le_refl _, hc.2.2.2⟩, hg, hs⟩
  | setBounds r =>
    simp only [Use.apply] at hu
    cases hb : h.cur.setBounds r with
    | error e => rw [hb] at hu; cases hu
    | ok c =>
      obtain ⟨h1, h2⟩ := setBounds_inv hb
      obtain ⟨c', h3, h4, _⟩ := setBounds_in hc h1 (hc.1 ▸ h2)
      rw [h3] at hu
      cases hu
      exact ⟨h4, hg, hs⟩
  | consumeNewline =>
    simp only [Use.apply] at hu
    cases hb : consumeNewline d h.cur with
    | error e => rw [hb] at hu; cases hu
    | ok c =>
      rw [hb] at hu
      cases hu
      exact ⟨consume_inv hc hb, hg, hs⟩
  | protect =>
    cases hu
    exact ⟨hc, fun g hg' => by rcases List.mem_cons.1 hg' with rfl | hg'; exacts [hc, hg g hg'], hs⟩
  | save =>
    simp only [Use.apply] at hu
    cases hu
    split
    · rename_i g gs he
      have hg' := hg g (by rw [he]; exact List.mem_cons_self)
      exact ⟨⟨hg'.1, hg'.2.1, hc.2.2⟩, fun x hx => hg x (by rw [he]; exact List.mem_cons_of_mem _ hx), hs⟩
    · exact ⟨hc, hg, hs⟩
  | drop =>
    simp only [Use.apply] at hu
    cases hu
    split
    · rename_i g gs he
      exact ⟨hg g (by rw [he]; exact List.mem_cons_self), fun x hx => hg x (by rw [he]; exact List.mem_cons_of_mem _ hx), hs⟩
    · exact ⟨hc, hg, hs⟩

theorem useAll_in {b : Buf} {m d : Bool} {us : List Use} : ∀ {h h' : History}, HistIn b m h → useAll d h us = .ok h' → HistIn b m h' := by
  induction us with
  | nil => intro h h' hi hu; cases hu; exact hi
  | cons u us ih =>
    intro h h' hi hu
    unfold useAll at hu
    cases hx : u.apply d h with
    | error e => rw [hx] at hu; cases hu
    | ok k => rw [hx] at hu; exact ih (apply_in hi hx) hu

theorem new_in (b : Buf) : ∃ c, Cursor.new b = .ok c ∧ CurIn b c.crlf c := by
  obtain ⟨nl, hnl⟩ := nextFrom_ok (b := b) (p := 0) (by omega)
  exact ⟨⟨b, 0, b.length, nl.offset, nl.isCrlf⟩, by simp [Cursor.new, Newline.next, hnl, bind, Except.bind], rfl, rfl, Nat.zero_le _, Nat.le_refl _⟩

theorem uses_in {b : Buf} {d : Bool} {us : List Use} {h : History} (hu : uses d b us = .ok h) : ∃ m, HistIn b m h := by
  obtain ⟨c, hc, hin⟩ := new_in b
  rw [uses, hc] at hu
  exact ⟨_, useAll_in ⟨hin, by simp, by simp⟩ hu⟩

/-- **C103**: whatever a cursor is used for, its text stays the same, and what is left of the block is a part of the text. -/
theorem C103_within {b : Buf} {d : Bool} {us : List Use} {h : History} (hu : uses d b us = .ok h) :
    h.cur.buf = b ∧ h.cur.start ≤ h.cur.stop ∧ h.cur.stop ≤ b.length ∧ h.cur.searchBlock = .ok ⟨h.cur.start, h.cur.stop⟩ ∧
      h.cur.searchToEof = .ok ⟨h.cur.start, b.length⟩ := by
  obtain ⟨m, ⟨rfl, _, h1, h2⟩, _⟩ := uses_in hu
  simp only [position] at h1 h2
  exact ⟨rfl, h1, h2, bounded_ok h1 h2, bounded_from_ok (by omega)⟩

theorem apply_ok {b : Buf} {m : Bool} {h : History} {u : Use} (hi : HistIn b m h)
    (hr : ∀ r, u = .setBounds r → r.start ≤ r.stop ∧ r.stop ≤ b.length) : ∃ h', u.apply false h = .ok h' := by
  obtain ⟨hc, -, -⟩ := hi
  cases u with
  | reset =>
    obtain ⟨x, hx, -⟩ := Cursor.reset_frame h.cur
    exact ⟨_, by simp [Use.apply, hx, Except.map]; rfl⟩
  | setStart n =>
    obtain ⟨x, hx, -⟩ := setStart_in n hc
    exact ⟨_, by simp [Use.apply, hx, Except.map]; rfl⟩
  | setBounds r =>
    obtain ⟨x, hx, -⟩ := setBounds_in hc (hr r rfl).1 (hr r rfl).2
    exact ⟨_, by simp [Use.apply, hx, Except.map]; rfl⟩
  | consumeNewline =>
    obtain ⟨x, hx, -⟩ := consume_in hc
    exact ⟨_, by simp [Use.apply, hx, Except.map]; rfl⟩
  | _ => exact ⟨_, rfl⟩

theorem useAll_ok {b : Buf} {m : Bool} {us : List Use} (hr : ∀ r, .setBounds r ∈ us → r.start ≤ r.stop ∧ r.stop ≤ b.length) :
    ∀ {h : History}, HistIn b m h → ∃ h', useAll false h us = .ok h' := by
  induction us with
  | nil => exact fun _ => ⟨_, rfl⟩
  | cons u us ih =>
    intro h hi
    obtain ⟨k, hk⟩ := apply_ok (u := u) hi (fun r e => hr r (e ▸ List.mem_cons_self))
    obtain ⟨h', hh⟩ := ih (fun r hm => hr r (List.mem_cons_of_mem _ hm)) (apply_in hi hk)
    exact ⟨h', by rw [useAll, hk]; exact hh⟩

theorem useAll_bad {b : Buf} {m d : Bool} {us : List Use} {r : Rng} (hm : .setBounds r ∈ us) :
    ∀ {h h' : History}, HistIn b m h → useAll d h us = .ok h' → r.start ≤ r.stop ∧ r.stop ≤ b.length := by
  induction us with
  | nil => cases hm
  | cons u us ih =>
    intro h h' hi hu
    unfold useAll at hu
    cases hx : u.apply d h with
    | error e => rw [hx] at hu; cases hu
    | ok k =>
      rw [hx] at hu
      rcases List.mem_cons.1 hm with rfl | hm
      · simp only [Use.apply] at hx
        cases hb : h.cur.setBounds r with
        | error e => rw [hb] at hx; cases hx
        | ok c => exact hi.1.1 ▸ setBounds_inv hb
      · exact ih hm (apply_in hi hx) hu

/-- **C103**: the uses of a cursor panic exactly if bounds are set which are not bounds of a part of the text (without debug assertions). -/
theorem C103_panics {b : Buf} {us : List Use} :
    (∃ h, uses false b us = .ok h) ↔ ∀ r, .setBounds r ∈ us → r.start ≤ r.stop ∧ r.stop ≤ b.length := by
  obtain ⟨c, hc, hin⟩ := new_in b
  have hi : HistIn b c.crlf ⟨c, [], []⟩ := ⟨hin, by simp, by simp⟩
  unfold uses
  rw [hc]
  constructor
  · rintro ⟨h, hu⟩ r hm
    exact useAll_bad hm hi hu
  · exact fun hr => useAll_ok hr hi

/-- Uses which move the cursor within its block. -/
def Moves : Use → Prop
  | .setStart _ | .moveToEnd | .consumeNewline | .position => True
  | _ => False

theorem moves_stop {b : Buf} {m d : Bool} {us : List Use} (hm : ∀ u ∈ us, Moves u) :
    ∀ {h h' : History}, HistIn b m h → useAll d h us = .ok h' → h'.cur.stop = h.cur.stop := by
  induction us with
  | nil => intro h h' _ hu; cases hu; rfl
  | cons u us ih =>
    intro h h' hi hu
    unfold useAll at hu
    cases hx : u.apply d h with
    | error e => rw [hx] at hu; cases hu
    | ok k =>
      rw [hx] at hu
      refine (ih (fun v hv => hm v (List.mem_cons_of_mem _ hv)) (apply_in hi hx) hu).trans ?_
      have hmu := hm u List.mem_cons_self
      cases u with
      | position => cases hx; rfl
      | moveToEnd => cases hx; rfl
      | setStart n =>
        obtain ⟨rfl, rfl, h1, h2⟩ := hi.1
        simp only [position] at h1 h2
        obtain ⟨r, hr⟩ := nextIn_ok { h.cur with start := min n h.cur.stop } (s := min n h.cur.stop) (e := h.cur.stop) (by omega) h2
        simp only [Use.apply, Cursor.setStart, hr, bind, Except.bind] at hx
        split_ifs at hx <;> (cases hx; rfl)
      | consumeNewline =>
        simp only [Use.apply, consumeNewline] at hx
        split_ifs at hx
        · cases hx
        · cases hs : h.cur.startOfNextLine with
          | error e => rw [hs] at hx; cases hx
          | ok s => rw [hs] at hx; cases hx; rfl
      | moveTo k => cases hmu
      | reset => cases hmu
      | setBounds r => cases hmu
      | protect => cases hmu
      | save => cases hmu
      | drop => cases hmu

theorem useAll_append {d : Bool} {us vs : List Use} : ∀ {h : History}, useAll d h (us ++ vs) = (useAll d h us).bind fun k => useAll d k vs := by
  induction us with
  | nil => intro h; rfl
  | cons u us ih =>
    intro h
    simp only [List.cons_append, useAll]
    cases u.apply d h with
    | error e => rfl
    | ok k => exact ih

/-- **C103**: setting bounds makes the block what is between them; moving the cursor then never moves the end of the block. -/
theorem C103_bounds {b : Buf} {d : Bool} {before us : List Use} {r : Rng} (hm : ∀ u ∈ us, Moves u) {h : History}
    (hu : uses d b (before ++ .setBounds r :: us) = .ok h) : h.cur.stop = r.stop ∧ (us = [] → h.cur.start = r.start) := by
  obtain ⟨c, hc, hin⟩ := new_in b
  have h0 : HistIn b c.crlf ⟨c, [], []⟩ := ⟨hin, by simp, by simp⟩
  rw [uses, hc] at hu
  have hu : useAll d ⟨c, [], []⟩ (before ++ .setBounds r :: us) = .ok h := hu
  rw [useAll_append] at hu
  cases hx : useAll d ⟨c, [], []⟩ before with
  | error e => rw [hx] at hu; cases hu
  | ok k =>
    rw [hx] at hu
    have hu : useAll d k (.setBounds r :: us) = .ok h := hu
    have hi := useAll_in h0 hx
    unfold useAll at hu
    cases hy : (Use.setBounds r).apply d k with
    | error e => rw [hy] at hu; cases hu
    | ok j =>
      rw [hy] at hu
      have hj := apply_in hi hy
      simp only [Use.apply] at hy
      cases hb : k.cur.setBounds r with
      | error e => rw [hb] at hy; cases hy
      | ok c' =>
        obtain ⟨h1, h2⟩ := setBounds_inv hb
        obtain ⟨c'', h3, -, h4, h5⟩ := setBounds_in hi.1 h1 (hi.1.1 ▸ h2)
        rw [hb] at h3
        cases h3
        rw [hb] at hy
        cases hy
        refine ⟨(moves_stop hm hj hu).trans h5, ?_⟩
        rintro rfl
        cases hu
        exact h4

theorem useAll_last {b : Buf} {d : Bool} {us : List Use} {u : Use} {h' : History} (hu : uses d b (us ++ [u]) = .ok h') :
    ∃ h c, uses d b us = .ok h ∧ Cursor.new b = .ok c ∧ HistIn b c.crlf h ∧ u.apply d h = .ok h' := by
  obtain ⟨c, hc, hin⟩ := new_in b
  have h0 : HistIn b c.crlf ⟨c, [], []⟩ := ⟨hin, by simp, by simp⟩
  unfold uses at hu ⊢
  rw [hc] at hu ⊢
  have hu : useAll d ⟨c, [], []⟩ (us ++ [u]) = .ok h' := hu
  rw [useAll_append] at hu
  cases hx : useAll d ⟨c, [], []⟩ us with
  | error e => rw [hx] at hu; cases hu
  | ok k =>
    rw [hx] at hu
    have hu : useAll d k [u] = .ok h' := hu
    unfold useAll at hu
    cases hy : u.apply d k with
    | error e => rw [hy] at hu; cases hu
    | ok j =>
      rw [hy] at hu
      cases hu
      exact ⟨k, c, hx, rfl, useAll_in h0 hx, hy⟩

/-- **C103**: resetting makes the cursor what it was when it was new. -/
theorem C103_reset {b : Buf} {d : Bool} {us : List Use} {h : History} (hu : uses d b (us ++ [.reset]) = .ok h) : Cursor.new b = .ok h.cur := by
  obtain ⟨k, c, -, hc, hi, hx⟩ := useAll_last hu
  obtain ⟨nl, hnl⟩ := nextFrom_ok (b := b) (p := 0) (by omega)
  have hnew : Cursor.new b = .ok ⟨b, 0, b.length, nl.offset, nl.isCrlf⟩ := by
    simp [Cursor.new, Newline.next, hnl, bind, Except.bind]
  rw [hnew] at hc
  cases hc
  obtain ⟨h1, h2, -⟩ := hi.1
  simp only [Use.apply, Cursor.reset, Newline.next, h1, hnl, bind, Except.bind, Except.map] at hx
  cases hx
  rw [hnew, h2]

/-- **C103**: moving the start: to where it is asked for, or to the end of the block if that is before; the end stays. -/
theorem C103_start {b : Buf} {d : Bool} {us : List Use} {n : Nat} {h h' : History} (hu : uses d b us = .ok h)
    (hu' : uses d b (us ++ [.setStart n]) = .ok h') : h'.cur.start = min n h.cur.stop ∧ h'.cur.stop = h.cur.stop := by
  obtain ⟨k, c, hk, hc, hi, hx⟩ := useAll_last hu'
  rw [hu] at hk
  cases hk
  obtain ⟨h3, h4, h1, h2⟩ := hi.1
  simp only [position] at h1 h2
  obtain ⟨r, hr⟩ := nextIn_ok { h.cur with start := min n h.cur.stop } (s := min n h.cur.stop) (e := h.cur.stop) (by omega) (h3.symm ▸ h2)
  simp only [Use.apply, Cursor.setStart, hr, bind, Except.bind] at hx
  split_ifs at hx <;> (cases hx; exact ⟨rfl, rfl⟩)

/-- **C103**: moving to the end. -/
theorem C103_end {b : Buf} {d : Bool} {us : List Use} {h h' : History} (hu : uses d b us = .ok h)
    (hu' : uses d b (us ++ [.moveToEnd]) = .ok h') : h'.cur.start = h.cur.stop ∧ h'.cur.stop = h.cur.stop := by
  obtain ⟨k, c, hk, hc, hi, hx⟩ := useAll_last hu'
  rw [hu] at hk
  cases hk
  cases hx
  exact ⟨rfl, rfl⟩

/-- **C103**: a newline is consumed: the cursor moves behind the next line feed, or to the end of the text, but not out of the block. -/
theorem C103_newline {b : Buf} {d : Bool} {us : List Use} {h h' : History} (hu : uses d b us = .ok h)
    (hu' : uses d b (us ++ [.consumeNewline]) = .ok h') :
    h'.cur.stop = h.cur.stop ∧ ((∃ n, FirstLF b h.cur.start n ∧ h'.cur.start = min (n + 1) h.cur.stop) ∨
      (NoLF b h.cur.start b.length ∧ h'.cur.start = h.cur.stop)) := by
  obtain ⟨k, c, hk, hc, hi, hx⟩ := useAll_last hu'
  rw [hu] at hk
  cases hk
  obtain ⟨h3, h4, h1, h2⟩ := hi.1
  simp only [position] at h1 h2
  obtain ⟨nl, hnl⟩ := nextFrom_ok (b := h.cur.buf) (p := h.cur.start) (by rw [h3]; omega)
  simp only [Use.apply, consumeNewline, Cursor.startOfNextLine, hnl, bind, Except.bind] at hx
  split_ifs at hx
  · cases hx
  · cases hx
    refine ⟨rfl, ?_⟩
    rw [h3] at hnl
    obtain ⟨-, ⟨n, q1, q2, -⟩ | ⟨q1, rfl⟩⟩ := nextFrom_spec hnl
    · exact Or.inl ⟨n, q1, by simp only [q2]⟩
    · refine Or.inr ⟨q1, ?_⟩
      simp only [Newline.nextLineStart]
      omega

/-- How often positions are asked for. -/
def asked : List Use → Nat
  | [] => 0
  | .position :: us => asked us + 1
  | _ :: us => asked us

theorem saved_keep {d : Bool} {us : List Use} : ∀ {h h' : History}, useAll d h us = .ok h' → ∃ front, h'.saved = front ++ h.saved ∧ front.length = asked us := by
  induction us with
  | nil => intro h h' hu; cases hu; exact ⟨[], rfl, rfl⟩
  | cons u us ih =>
    intro h h' hu
    unfold useAll at hu
    cases hx : u.apply d h with
    | error e => rw [hx] at hu; cases hu
    | ok j =>
      rw [hx] at hu
      obtain ⟨front, h1, h2⟩ := ih hu
      by_cases hp : u = .position
      · subst hp
        cases hx
        exact ⟨front ++ [position h.cur], by rw [h1]; simp, by simp [h2, asked]⟩
      · have hj : j.saved = h.saved := by
          cases u with
          | position => exact absurd rfl hp
          | moveTo k => simp only [Use.apply] at hx; cases hx; split <;> rfl
          | reset => simp only [Use.apply] at hx; cases hy : h.cur.reset with
            | error e => rw [hy] at hx; cases hx
            | ok c => rw [hy] at hx; cases hx; rfl
          | setStart n => simp only [Use.apply] at hx; cases hy : h.cur.setStart n with
            | error e => rw [hy] at hx; cases hx
            | ok c => rw [hy] at hx; cases hx; rfl
          | moveToEnd => cases hx; rfl
          | setBounds r => simp only [Use.apply] at hx; cases hy : h.cur.setBounds r with
            | error e => rw [hy] at hx; cases hx
            | ok c => rw [hy] at hx; cases hx; rfl
          | consumeNewline => simp only [Use.apply] at hx; cases hy : consumeNewline d h.cur with
            | error e => rw [hy] at hx; cases hx
            | ok c => rw [hy] at hx; cases hx; rfl
          | protect => cases hx; rfl
          | save => simp only [Use.apply] at hx; cases hx; split <;> rfl
          | drop => simp only [Use.apply] at hx; cases hx; split <;> rfl
        refine ⟨front, by rw [h1, hj], h2.trans ?_⟩
        cases u <;> first | exact absurd rfl hp | rfl

/-- **C103**: moving to a position which was asked for makes the cursor what it was then, whatever happened in between. -/
theorem C103_position {b : Buf} {d : Bool} {us vs : List Use} {h h' : History} (hu : uses d b us = .ok h)
    (hu' : uses d b (us ++ .position :: vs ++ [.moveTo (asked vs)]) = .ok h') : h'.cur = h.cur := by
  obtain ⟨k, c, hk, hc, hi, hx⟩ := useAll_last hu'
  have hin : HistIn b c.crlf h := by
    unfold uses at hu
    rw [hc] at hu
    have hcur : CurIn b c.crlf c := by
      obtain ⟨x, hx, hin⟩ := new_in b
      rw [hc] at hx
      cases hx
      exact hin
    exact useAll_in (h := ⟨c, [], []⟩) ⟨hcur, by simp, by simp⟩ hu
  unfold uses at hu hk
  rw [hc] at hu hk
  have hu : useAll d ⟨c, [], []⟩ us = .ok h := hu
  have hk : useAll d ⟨c, [], []⟩ (us ++ .position :: vs) = .ok k := hk
  rw [useAll_append, hu] at hk
  obtain ⟨front, h1, h2⟩ := saved_keep (h := { h with saved := position h.cur :: h.saved }) hk
  have hget : k.saved[asked vs]? = some (position h.cur) := by
    rw [h1, ← h2]
    simp
  simp only [Use.apply, hget] at hx
  cases hx
  obtain ⟨a1, a2, -⟩ := hi.1
  obtain ⟨b1, b2, -⟩ := hin.1
  show moveTo k.cur (position h.cur) = h.cur
  unfold moveTo position
  rw [a1, a2]
  cases hkc : h.cur
  rw [hkc] at b1 b2
  simp only at b1 b2 ⊢
  rw [b1, b2]

/-! ## The line -/

def PosLine (b : Buf) (p : Pos) : Prop := RestOfLine b p.start p.stop p.eol

def CurLine (c : Cursor) : Prop := c.crlf = false ∧ PosLine c.buf (position c)

theorem line_of_next {b : Buf} {s e : Nat} {r : Option Nat} (h1 : s ≤ e) (h2 : e ≤ b.length) (h : Cursor.NextNL b s e r) :
    RestOfLine b s e (r.getD e) := by
  rcases h with ⟨n, rfl, h3, h4, h5, h6⟩ | ⟨rfl, h3⟩
  · exact ⟨h3, by simp only [Option.getD_some]; omega, h6, Or.inl h5⟩
  · exact ⟨h1, h2, h3, Or.inr (Nat.le_refl _)⟩

theorem setStart_line {b : Buf} {m : Bool} {c c' : Cursor} {n : Nat} (hc : CurIn b m c) (hl : CurLine c) (h : c.setStart n = .ok c') : CurLine c' := by
  obtain ⟨rfl, -, h1, h2⟩ := hc
  obtain ⟨hlf, h3, h4, h5, h6⟩ := hl
  simp only [position] at h1 h2 h3 h4 h5 h6
  obtain ⟨r, hr, hnl⟩ := Cursor.nextNewlineInRange_ok (c := { c with start := min n c.stop }) hlf
    (s := min n c.stop) (e := c.stop) (by omega) h2
  have hnew := line_of_next (by omega) h2 hnl
  unfold Cursor.setStart at h
  simp only [hr, bind, Except.bind] at h
  split_ifs at h with q1 q2 q3
  · cases h; exact ⟨hlf, hnew⟩
  · cases h
    refine ⟨hlf, ?_, h4, ?_, h6⟩
    · simp only [position]; omega
    · intro i hi1 hi2
      exact h5 i (by simp only [position] at hi1; omega) hi2
  · cases h; exact ⟨hlf, hnew⟩
  · cases h
    refine ⟨hlf, ?_, h4, ?_, h6⟩
    · simp only [position]; omega
    · intro i hi1 hi2
      exact h5 i (by simp only [position] at hi1; omega) hi2

theorem setBounds_line {c c' : Cursor} {r : Rng} (hlf : c.crlf = false) (h : c.setBounds r = .ok c') : CurLine c' := by
  obtain ⟨h1, h2⟩ := setBounds_inv h
  obtain ⟨x, hx, hnl⟩ := Cursor.nextNewlineFrom_ok (c := { c with start := r.start, stop := r.stop }) hlf (s := r.start) (by simp only; omega)
  simp only [Cursor.setBounds, bounded_ok h1 h2, hx, bind, Except.bind] at h
  cases h
  have := line_of_next (Nat.le_trans h1 h2) (Nat.le_refl _) hnl
  refine ⟨hlf, this.1, this.2.1, this.2.2.1, ?_⟩
  rcases this.2.2.2 with h | h
  · exact Or.inl h
  · exact Or.inr (Nat.le_trans h2 h)

theorem first_line {b : Buf} (hm : LFMode b) {nl : Newline} (h : Newline.nextFrom b 0 = .ok nl) : nl.isCrlf = false ∧ RestOfLine b 0 b.length nl.offset := by
  obtain ⟨-, ⟨n, h1, -, ⟨h3, h4, -⟩ | ⟨-, rfl⟩⟩ | ⟨h1, rfl⟩⟩ := nextFrom_spec h
  · rcases hm n h1 with h0 | h0
    · omega
    · exact absurd h4 h0
  · exact ⟨rfl, Nat.zero_le _, Nat.le_of_lt h1.2.1.lt, h1.2.2, Or.inl h1.2.1⟩
  · exact ⟨rfl, Nat.zero_le _, Nat.le_refl _, h1, Or.inr (Nat.le_refl _)⟩

def HistLine (b : Buf) (h : History) : Prop :=
  CurLine h.cur ∧ (∀ g ∈ h.guarded, CurLine g) ∧ ∀ p ∈ h.saved, PosLine b p

theorem apply_line {b : Buf} (hb : LFMode b) {m d : Bool} {h h' : History} {u : Use} (hn : u ≠ .consumeNewline) (hi : HistIn b m h) (hl : HistLine b h)
    (hu : u.apply d h = .ok h') : HistLine b h' := by
  obtain ⟨hc, hg, hs⟩ := hl
  have hbuf := hi.1.1
  cases u with
  | position =>
    cases hu
    exact ⟨hc, hg, fun p hp => by rcases List.mem_cons.1 hp with rfl | hp; exacts [hbuf ▸ hc.2, hs p hp]⟩
  | moveTo k =>
    simp only [Use.apply] at hu
    cases hu
    split
    · rename_i p hp
      exact ⟨⟨hc.1, hbuf.symm ▸ hs p (List.mem_of_getElem? hp)⟩, hg, hs⟩
    · exact ⟨hc, hg, hs⟩
  | reset =>
    obtain ⟨nl, hnl⟩ := nextFrom_ok (b := h.cur.buf) (p := 0) (by omega)
    have hf := first_line (hbuf ▸ hb) hnl
    simp only [Use.apply, Cursor.reset, Newline.next, hnl, bind, Except.bind, Except.map] at hu
    cases hu
    exact ⟨⟨hc.1, hf.2⟩, hg, hs⟩
  | setStart n =>
    obtain ⟨c', h1, -⟩ := setStart_in n hi.1
    simp only [Use.apply, h1, Except.map] at hu
    cases hu
    exact ⟨setStart_line hi.1 hc h1, hg, hs⟩
  | moveToEnd =>
    cases hu
    exact ⟨⟨hc.1, Nat.le_refl _, hbuf ▸ hi.1.2.2.2, fun i h1 h2 => absurd h1 (by simp only [Cursor.moveToEnd, position] at h2 ⊢; omega), Or.inr (Nat.le_refl _)⟩, hg, hs⟩
  | setBounds r =>
    simp only [Use.apply] at hu
    cases hx : h.cur.setBounds r with
    | error e => rw [hx] at hu; cases hu
    | ok c =>
      rw [hx] at hu
      cases hu
      exact ⟨setBounds_line hc.1 hx, hg, hs⟩
  | consumeNewline => exact absurd rfl hn
  | protect =>
    cases hu
    exact ⟨hc, fun g hg' => by rcases List.mem_cons.1 hg' with rfl | hg'; exacts [hc, hg g hg'], hs⟩
  | save =>
    simp only [Use.apply] at hu
    cases hu
    split
    · rename_i g gs he
      have hg' := hg g (by rw [he]; exact List.mem_cons_self)
      have hgi := hi.2.1 g (by rw [he]; exact List.mem_cons_self)
      refine ⟨⟨hg'.1, ?_⟩, fun x hx => hg x (by rw [he]; exact List.mem_cons_of_mem _ hx), hs⟩
      show PosLine g.buf (position h.cur)
      rw [hgi.1, ← hbuf]
      exact hc.2
    · exact ⟨hc, hg, hs⟩
  | drop =>
    simp only [Use.apply] at hu
    cases hu
    split
    · rename_i g gs he
      exact ⟨hg g (by rw [he]; exact List.mem_cons_self), fun x hx => hg x (by rw [he]; exact List.mem_cons_of_mem _ hx), hs⟩
    · exact ⟨hc, hg, hs⟩

theorem useAll_line {b : Buf} (hb : LFMode b) {m d : Bool} {us : List Use} (hn : .consumeNewline ∉ us) :
    ∀ {h h' : History}, HistIn b m h → HistLine b h → useAll d h us = .ok h' → HistLine b h' := by
  induction us with
  | nil => intro h h' _ hl hu; cases hu; exact hl
  | cons u us ih =>
    intro h h' hi hl hu
    unfold useAll at hu
    cases hx : u.apply d h with
    | error e => rw [hx] at hu; cases hu
    | ok k =>
      rw [hx] at hu
      exact ih (fun hm => hn (List.mem_cons_of_mem _ hm)) (apply_in hi hx)
        (apply_line hb (fun e => hn (e ▸ List.mem_cons_self)) hi hl hx) hu

/-- **C103**: in a text with line feeds, what is left of the line is the text up to the next line feed or to the end of the block,
whatever the cursor was used for before.
MISSING: `consume_newline` and texts with carriage returns; for them this is wrong (`C103_consume_refuted`, `C103_crlf_refuted`). -/
theorem C103_line_partial {b : Buf} (hb : LFMode b) {d : Bool} {us : List Use} (hn : .consumeNewline ∉ us) {h : History} (hu : uses d b us = .ok h) :
    ∃ l, h.cur.searchLine = .ok ⟨h.cur.start, l⟩ ∧ RestOfLine b h.cur.start h.cur.stop l := by
  obtain ⟨nl, hnl⟩ := nextFrom_ok (b := b) (p := 0) (by omega)
  have hf := first_line hb hnl
  have hnew : Cursor.new b = .ok ⟨b, 0, b.length, nl.offset, nl.isCrlf⟩ := by
    simp [Cursor.new, Newline.next, hnl, bind, Except.bind]
  rw [uses, hnew] at hu
  have h0 : HistIn b nl.isCrlf ⟨⟨b, 0, b.length, nl.offset, nl.isCrlf⟩, [], []⟩ :=
    ⟨⟨rfl, rfl, Nat.zero_le _, Nat.le_refl _⟩, by simp, by simp⟩
  have hi := useAll_in h0 hu
  have hl := useAll_line hb hn h0 ⟨⟨hf.1, hf.2⟩, by simp, by simp⟩ hu
  have hr : RestOfLine b h.cur.start h.cur.stop h.cur.eol := hi.1.1 ▸ hl.1.2
  exact ⟨h.cur.eol, bounded_ok hr.1 (hi.1.1.symm ▸ hr.2.1), hr⟩

/-- What is left of the line after a newline is consumed cannot be asked for: the end of the line is still the one before. -/
theorem C103_consume_refuted : ∃ h, uses true "a\nb".toUTF8.data.toList [.setStart 1, .consumeNewline] = .ok h ∧
    h.cur.start = 2 ∧ h.cur.searchLine = .error .invalidRange :=
  ⟨_, rfl, rfl, rfl⟩

/-- In a text with carriage returns, what is left of the second line cannot be asked for: its end is looked for at the wrong place. -/
theorem C103_crlf_refuted : ∃ h, uses true "a\r\nb\r\nc".toUTF8.data.toList [.setStart 3] = .ok h ∧
    h.cur.start = 3 ∧ h.cur.searchLine = .error .invalidRange :=
  ⟨_, rfl, rfl, rfl⟩

/-- The bounds which are set do not confine the cursor: it can be moved to before them. -/
theorem C103_bounds_refuted : ∃ h, uses true "a\nb".toUTF8.data.toList [.setBounds ⟨2, 3⟩, .setStart 0] = .ok h ∧ h.cur.start = 0 :=
  ⟨_, rfl, rfl⟩

/-! ## Guards -/

theorem guards {d : Bool} {G : List Cursor} {us : List Use} : ∀ {n k : Nat} {h h' : History} {front : List Cursor}, depth n us = some k →
    h.guarded = front ++ G → front.length = n → useAll d h us = .ok h' → ∃ front', h'.guarded = front' ++ G ∧ front'.length = k := by
  induction us with
  | nil =>
    intro n k h h' front hd hg hf hu
    cases hu
    cases hd
    exact ⟨front, hg, hf⟩
  | cons u us ih =>
    intro n k h h' front hd hg hf hu
    unfold useAll at hu
    cases hx : u.apply d h with
    | error e => rw [hx] at hu; cases hu
    | ok j =>
      rw [hx] at hu
      have hu : useAll d j us = .ok h' := hu
      cases u with
      | protect =>
        cases hx
        exact ih (front := h.cur :: front) (n := n + 1) hd (by simp [hg]) (by simp [hf]) hu
      | save =>
        cases n with
        | zero => cases hd
        | succ n =>
          cases front with
          | nil => cases hf
          | cons g front =>
            simp only [Use.apply, hg, List.cons_append] at hx
            cases hx
            exact ih (front := front) (n := n) hd rfl (by simpa using hf) hu
      | drop =>
        cases n with
        | zero => cases hd
        | succ n =>
          cases front with
          | nil => cases hf
          | cons g front =>
            simp only [Use.apply, hg, List.cons_append] at hx
            cases hx
            exact ih (front := front) (n := n) hd rfl (by simpa using hf) hu
      | position =>
        cases hx
        exact ih (front := front) (n := n) (k := k) (by cases n <;> exact hd) (by exact hg) hf hu
      | moveTo i =>
        simp only [Use.apply] at hx
        have hj : j.guarded = h.guarded := by cases hx; split <;> rfl
        exact ih (front := front) (n := n) (by cases n <;> exact hd) (hj.trans hg) hf hu
      | moveToEnd =>
        cases hx
        exact ih (front := front) (n := n) (k := k) (by cases n <;> exact hd) (by exact hg) hf hu
      | reset =>
        simp only [Use.apply] at hx
        cases hy : h.cur.reset with
        | error e => rw [hy] at hx; cases hx
        | ok c => rw [hy] at hx; cases hx; exact ih (front := front) (n := n) (k := k) (by cases n <;> exact hd) (by exact hg) hf hu
      | setStart i =>
        simp only [Use.apply] at hx
        cases hy : h.cur.setStart i with
        | error e => rw [hy] at hx; cases hx
        | ok c => rw [hy] at hx; cases hx; exact ih (front := front) (n := n) (k := k) (by cases n <;> exact hd) (by exact hg) hf hu
      | setBounds r =>
        simp only [Use.apply] at hx
        cases hy : h.cur.setBounds r with
        | error e => rw [hy] at hx; cases hx
        | ok c => rw [hy] at hx; cases hx; exact ih (front := front) (n := n) (k := k) (by cases n <;> exact hd) (by exact hg) hf hu
      | consumeNewline =>
        simp only [Use.apply] at hx
        cases hy : consumeNewline d h.cur with
        | error e => rw [hy] at hx; cases hx
        | ok c => rw [hy] at hx; cases hx; exact ih (front := front) (n := n) (k := k) (by cases n <;> exact hd) (by exact hg) hf hu

/-- **C103**: dropping a guard leaves the cursor as it was, whatever the guard was used for (other guards, and positions asked for, included);
saving it puts the cursor where the guard is. -/
theorem C103_guard {b : Buf} {d : Bool} {before us : List Use} {h k : History} (hd : depth 0 us = some 0) (hu : uses d b before = .ok h)
    (hk : uses d b (before ++ .protect :: us) = .ok k) :
    (∃ x, uses d b (before ++ .protect :: us ++ [.drop]) = .ok x ∧ x.cur = h.cur ∧ x.guarded = h.guarded) ∧
    ∃ x, uses d b (before ++ .protect :: us ++ [.save]) = .ok x ∧ x.cur = k.cur ∧ x.guarded = h.guarded := by
  obtain ⟨c, hc, hin⟩ := new_in b
  have h0 : HistIn b c.crlf ⟨c, [], []⟩ := ⟨hin, by simp, by simp⟩
  unfold uses at hu hk ⊢
  rw [hc] at hu hk ⊢
  have hu : useAll d ⟨c, [], []⟩ before = .ok h := hu
  have hk : useAll d ⟨c, [], []⟩ (before ++ .protect :: us) = .ok k := hk
  have hi := useAll_in h0 hu
  have hj := useAll_in h0 hk
  have hk' := hk
  rw [useAll_append, hu] at hk'
  obtain ⟨front, hg, hf⟩ := guards (d := d) (G := h.cur :: h.guarded) (front := []) hd rfl rfl hk'
  obtain rfl : front = [] := List.length_eq_zero_iff.1 hf
  have hg : k.guarded = h.cur :: h.guarded := hg
  constructor
  · refine ⟨{ k with cur := h.cur, guarded := h.guarded }, ?_, rfl, rfl⟩
    show useAll d _ _ = _
    rw [useAll_append, hk]
    simp only [Except.bind, useAll, Use.apply, hg]
  · refine ⟨{ k with guarded := h.guarded }, ?_, rfl, rfl⟩
    show useAll d _ _ = _
    rw [useAll_append, hk]
    have : save h.cur k.cur = k.cur := by
      unfold save
      rw [hi.1.1, hi.1.2.1]
      obtain ⟨h1, h2, -⟩ := hj.1
      cases hkc : k.cur
      rw [hkc] at h1 h2
      simp only at h1 h2
      rw [h1, h2]
    simp only [Except.bind, useAll, Use.apply, hg, this]

/-- The hypotheses can be met: a guard is moved, a guard of it is dropped, and then it is saved. -/
example : ∃ h k x, uses true "ab\ncd\nef".toUTF8.data.toList [.setBounds ⟨3, 8⟩] = .ok h ∧
    uses true "ab\ncd\nef".toUTF8.data.toList ([.setBounds ⟨3, 8⟩] ++ .protect :: [.setStart 4, .protect, .moveToEnd, .drop]) = .ok k ∧
    depth 0 [.setStart 4, .protect, .moveToEnd, .drop] = some 0 ∧
    uses true "ab\ncd\nef".toUTF8.data.toList ([.setBounds ⟨3, 8⟩] ++ .protect :: [.setStart 4, .protect, .moveToEnd, .drop] ++ [.save]) = .ok x ∧
    x.cur.start = 4 ∧ x.cur.stop = 8 ∧ x.cur.searchLine = .ok ⟨4, 5⟩ :=
  ⟨_, _, _, rfl, rfl, rfl, rfl, rfl, rfl, rfl⟩

/-- A position is returned to after the cursor was moved, another position was asked for, and other bounds were set. -/
example : ∃ h h', uses true "ab\ncd\nef".toUTF8.data.toList [.setStart 4] = .ok h ∧ h.cur.start = 4 ∧
    uses true "ab\ncd\nef".toUTF8.data.toList ([.setStart 4] ++ .position :: [.moveToEnd, .position, .setBounds ⟨0, 1⟩] ++
      [.moveTo (asked [.moveToEnd, .position, .setBounds ⟨0, 1⟩])]) = .ok h' ∧ h'.cur.start = 4 ∧ h'.cur.stop = 8 :=
  ⟨_, _, rfl, rfl, rfl, rfl, rfl⟩

example : LFMode "ab\ncd\nef".toUTF8.data.toList := by
  have h : (Cursor.new "ab\ncd\nef".toUTF8.data.toList) = .ok ⟨"ab\ncd\nef".toUTF8.data.toList, 0, 8, 2, false⟩ := rfl
  intro n hn
  have : n = 2 := FirstLF.unique hn ⟨by omega, rfl, by intro i h1 h2; unfold IsLF; have : i = 0 ∨ i = 1 := by omega
                                                       rcases this with rfl | rfl <;> decide⟩
  subst this
  exact Or.inr (by decide)

end Litcheck.Cursors
