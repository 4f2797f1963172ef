import Verif.Model.Input
import Verif.Proofs.Utf8
import Verif.Props.Span

/-!
# C102: the part of an input which is searched
-/

namespace Litcheck.Inputs
open Litcheck.Spans (IsPart)
open Litcheck.Regex (utf8 encode decode)

/-! ## Specification -/

/-- Reading bytes: what `n` uses of `pop_byte` give. -/
def readBytes : Nat → Input → P (List (Nat × UInt8))
  | 0, _ => .ok []
  | n + 1, i => (popByte i).bind fun x => (readBytes n x.2).map (x.1 :: ·)

/-- Reading characters: what `n` uses of `pop` give. -/
def readChars : Nat → Input → P (List (Nat × Nat))
  | 0, _ => .ok []
  | n + 1, i => (pop i).bind fun x => (readChars n x.2).map (x.1 :: ·)

/-- The characters of a text, with the places where they begin, the text beginning at `p`. -/
def places (p : Nat) : Str → List (Nat × Nat)
  | [] => []
  | c :: s => (p, c.toNat) :: places (p + (utf8 [c]).length) s

/-! ## C102 -/

theorem part_slice {b : Buf} {s e : Nat} (h1 : s ≤ e) (h2 : e ≤ b.length) : IsPart b (sliceOf b s e) s e := by
  refine ⟨b.take s, b.drop e, ?_, by rw [List.length_take]; omega, by unfold sliceOf; rw [List.length_drop, List.length_take]; omega⟩
  unfold sliceOf
  have h : b.take s = (b.take e).take s := by rw [List.take_take]; congr 1; omega
  rw [h, List.take_append_drop, List.take_append_drop]

/-- **C102**: what is searched is the part of the input from the start to the end; if the end is before the start, asking for it panics. -/
theorem C102_slice {i : Input} {t : Buf} : asSlice i = .ok t ↔ IsPart i.buffer t i.start i.stop := by
  constructor
  · intro h
    unfold asSlice at h
    split at h
    · rename_i h1
      cases h
      exact part_slice h1.1 h1.2
    · cases h
  · intro h
    obtain ⟨p, q, h1, h2, h3⟩ := id h
    have hl : i.buffer.length = p.length + t.length + q.length := by rw [h1]; simp; omega
    unfold asSlice
    rw [if_pos ⟨by omega, by omega⟩]
    rw [Spans.isPart_unique (part_slice (by omega) (by omega)) h]

/-- A new input is all of its text. -/
theorem C102_new (source : Nat) (b : Buf) (crlf : Bool) : asSlice (new source b crlf) = .ok b :=
  C102_slice.2 ⟨[], [], by simp [new], rfl, by simp [new]⟩

/-- **C102**: whatever an input is used for, in whatever order, its text stays the same, and what is searched ends within it. -/
theorem C102_within {us : List Use} : ∀ {i j : Input}, i.stop ≤ i.buffer.length → useAll i us = .ok j →
    j.buffer = i.buffer ∧ j.source = i.source ∧ j.crlf = i.crlf ∧ j.stop ≤ j.buffer.length := by
  induction us with
  | nil =>
    intro i j hi h
    cases h
    exact ⟨rfl, rfl, rfl, hi⟩
  | cons u us ih =>
    intro i j hi h
    unfold useAll at h
    cases hu : u.apply i with
    | error p => rw [hu] at h; cases h
    | ok k =>
      rw [hu] at h
      have hk : k.buffer = i.buffer ∧ k.source = i.source ∧ k.crlf = i.crlf ∧ k.stop ≤ k.buffer.length := by
        cases u with
        | anchored yes => cases hu; exact ⟨rfl, rfl, rfl, hi⟩
        | bounded lo hi' =>
          simp only [Use.apply, bounded, Cursor.bounded, rangeFromBounds, bind, Except.bind] at hu
          by_cases hc : startOf lo 0 > endOf hi' i.buffer.length ∨ startOf lo 0 < 0 ∨ endOf hi' i.buffer.length > i.buffer.length
          · rw [if_pos hc] at hu; cases hu
          · rw [if_neg hc] at hu
            cases hu
            exact ⟨rfl, rfl, rfl, by dsimp only; omega⟩
        | setStart n => cases hu; exact ⟨rfl, rfl, rfl, hi⟩
        | setBounds r => cases hu; exact ⟨rfl, rfl, rfl, Nat.min_le_right _ _⟩
        | popByte =>
          simp only [Use.apply, popByte] at hu
          split at hu
          · cases hu; exact ⟨rfl, rfl, rfl, hi⟩
          · split at hu
            · cases hu; exact ⟨rfl, rfl, rfl, hi⟩
            · cases hu
        | pop =>
          simp only [Use.apply, pop, bind, Except.bind] at hu
          cases hs : asSlice i with
          | error p => rw [hs] at hu; cases hu
          | ok b =>
            rw [hs] at hu
            dsimp only at hu
            split at hu
            · cases hu; exact ⟨rfl, rfl, rfl, hi⟩
            · cases hu; exact ⟨rfl, rfl, rfl, hi⟩
      obtain ⟨a1, a2, a3, a4⟩ := hk
      obtain ⟨c1, c2, c3, c4⟩ := ih a4 h
      exact ⟨c1.trans a1, c2.trans a2, c3.trans a3, c4⟩

/-- Bounds which are set are those asked for, but not beyond the end of the text. -/
theorem C102_bounds (i : Input) (r : Rng) (n : Nat) :
    (setBounds i r).start = min r.start i.buffer.length ∧ (setBounds i r).stop = min r.stop i.buffer.length ∧
      (setStart i n).start = min n i.buffer.length ∧ (setStart i n).stop = i.stop := ⟨rfl, rfl, rfl, rfl⟩

/-- C102 is false of the start: it may be set beyond the end, and then asking for what is searched panics. -/
theorem C102_start_refuted : ∃ j, useAll (new 0 (bytes "hello") false) [.bounded (.included 1) (.excluded 2), .setStart 4] = .ok j ∧
    asSlice j = .error .indexOutOfBounds := ⟨⟨0, bytes "hello", 4, 2, false, false⟩, rfl, rfl⟩

/-- **C102**: reading byte by byte gives the bytes of what is searched, each with its place, one after the other, and then no more. -/
theorem C102_bytes {i : Input} {t : Buf} (h : IsPart i.buffer t i.start i.stop) (n : Nat) :
    readBytes (t.length + n) i = .ok ((t.zipIdx i.start).map (fun x => (x.2, x.1)) ++ List.replicate n (i.stop, 0)) := by
  induction t generalizing i with
  | nil =>
    obtain ⟨p, q, h1, h2, h3⟩ := h
    simp only [List.length_nil, Nat.add_zero] at h3
    simp only [List.length_nil, Nat.zero_add, List.zipIdx_nil, List.map_nil, List.nil_append]
    induction n with
    | zero => rfl
    | succ n ih =>
      have : popByte i = .ok ((i.stop, 0), i) := by
        unfold popByte
        rw [if_pos (by unfold isEmpty Rng.isEmpty; simp; omega)]
      unfold readBytes
      rw [this]
      show (readBytes n i).map _ = _
      rw [ih, List.replicate_succ]
      rfl
  | cons x t ih =>
    obtain ⟨p, q, h1, h2, h3⟩ := h
    rw [List.length_cons] at h3
    have hx : i.buffer[i.start]? = some x := by rw [h1, ← h2]; simp
    have hp : popByte i = .ok ((i.start, x), { i with start := i.start + 1 }) := by
      unfold popByte
      rw [if_neg (by unfold isEmpty Rng.isEmpty; simp; omega), hx]
      simp only
      rw [Nat.min_eq_left (by omega)]
    rw [List.length_cons, show t.length + 1 + n = (t.length + n) + 1 by omega]
    unfold readBytes
    rw [hp]
    show (readBytes (t.length + n) { i with start := i.start + 1 }).map _ = _
    rw [ih (i := { i with start := i.start + 1 }) ⟨p ++ [x], q, by rw [h1]; simp, by simp; omega, by dsimp only; omega⟩]
    rfl

/-- **C102**: reading character by character gives the characters of what is searched, if that is text in UTF-8, and then no more. -/
theorem C102_chars_partial {i : Input} {s : Str} (h : IsPart i.buffer (utf8 s) i.start i.stop) (n : Nat) :
    readChars (s.length + n) i = .ok (places i.start s ++ List.replicate n (i.stop, 0)) := by
  induction s generalizing i with
  | nil =>
    obtain ⟨p, q, h1, h2, h3⟩ := id h
    simp only [utf8, List.flatMap_nil, List.length_nil, Nat.add_zero] at h3
    simp only [List.length_nil, Nat.zero_add, places, List.nil_append]
    induction n with
    | zero => rfl
    | succ n ih =>
      have : pop i = .ok ((i.start, 0), i) := by
        unfold pop
        rw [C102_slice.2 h]
        rfl
      unfold readChars
      rw [this]
      show (readChars n i).map _ = _
      rw [ih, List.replicate_succ, h3]
      rfl
  | cons c s ih =>
    have hu : utf8 (c :: s) = encode c.toNat ++ utf8 s := rfl
    obtain ⟨p, q, h1, h2, h3⟩ := id h
    rw [hu] at h1 h3
    have h4 : utf8 [c] = encode c.toNat := by simp [utf8]
    have hp : pop i = .ok ((i.start, c.toNat), { i with start := i.start + (utf8 [c]).length }) := by
      unfold pop
      rw [C102_slice.2 h, hu]
      show (match decode (encode c.toNat ++ utf8 s) with | some (c, n) => _ | none => _) = _
      rw [Regex.decode_encode (Regex.char_scalar c), h4]
    rw [List.length_cons, show s.length + 1 + n = (s.length + n) + 1 by omega]
    unfold readChars
    rw [hp]
    show (readChars (s.length + n) { i with start := i.start + (utf8 [c]).length }).map _ = _
    rw [List.length_append] at h3
    rw [ih (i := { i with start := i.start + (utf8 [c]).length })
      ⟨p ++ encode c.toNat, q, by rw [h1]; simp, by rw [List.length_append, h4, h2], by rw [h4]; dsimp only; omega⟩]
    rfl

/-- Peeking gives what reading gives next. -/
theorem C102_peek (i : Input) : peekByte i = (popByte i).map (fun x => x.1) ∧ peek i = (pop i).map (fun x => x.1.2) := by
  constructor
  · unfold peekByte popByte
    split
    · rfl
    · split <;> rfl
  · unfold peek pop
    cases asSlice i with
    | error p => rfl
    | ok b =>
      show (match decode b with | some (c, _) => _ | none => _) = Except.map _ (match decode b with | some (c, n) => _ | none => _)
      cases decode b with
      | none => rfl
      | some x => rfl

/-- C102 is false of parts which begin within a character: reading goes on to give a NUL there, however often. -/
theorem C102_chars_refuted : ∃ i, useAll (new 0 (utf8 ['é', 'a']) false) [.setStart 1] = .ok i ∧ asSlice i = .ok [0xa9, 97] ∧
    ∀ n, readChars n i = .ok (List.replicate n (1, 0)) := by
  refine ⟨⟨0, utf8 ['é', 'a'], 1, 3, false, false⟩, rfl, rfl, ?_⟩
  intro n
  induction n with
  | zero => rfl
  | succ n ih =>
    have : pop ⟨0, utf8 ['é', 'a'], 1, 3, false, false⟩ = .ok ((1, 0), ⟨0, utf8 ['é', 'a'], 1, 3, false, false⟩) := rfl
    unfold readChars
    rw [this]
    show (readChars n _).map _ = _
    rw [ih, List.replicate_succ]
    rfl

/-! ## Examples -/

example : IsPart (bytes "hello") (bytes "ell") 1 4 := ⟨bytes "h", bytes "o", by decide, by decide, by decide⟩
example : useAll (new 0 (bytes "hello") false) [.bounded (.included 1) (.excluded 4), .anchored true] = .ok ⟨0, bytes "hello", 1, 4, true, false⟩ := rfl
example : readBytes 4 ⟨0, bytes "hello", 1, 4, true, false⟩ = .ok [(1, 101), (2, 108), (3, 108), (4, 0)] := rfl
example : readChars 3 ⟨0, utf8 ['x', 'é', 'a'], 1, 4, true, false⟩ = .ok [(1, 233), (3, 97), (4, 0)] := rfl

end Litcheck.Inputs
