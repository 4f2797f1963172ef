import Verif.Model.TestList
import Verif.Spec.TestList

/-!
# C45: the list of tests is a faithful deque

* `C45_deque`: every history of pushes, pops at both ends, appends and clears behaves as on a
  plain sequence, with an exact length;
* `C45_cursor`: so does every history of moves, removals, insertions and splits through a
  cursor obtained at the front;
* `C45_iter`, `C45_drain`: iteration and draining visit every test once, in order;
* `C45_split_partial`: splitting loses, repeats and reorders nothing and keeps lengths exact, but cuts one test too late,
  `C45_split_refuted`; hence two tests are never separated, and a parallel run over three tests may panic;
* `C45_back_iter_refuted`, `C45_back_mut_refuted`, `C45_splice_refuted`: iterating backwards, the cursor obtained at the
  back, and splicing through a cursor are wrong.
-/

namespace Litcheck
namespace TestList
variable {α : Type}
open ListSpec

/-- The counter is exact. -/
def Exact (t : TestList α) : Prop := t.len = t.tests.length

/-- A list built by pushing. -/
def ofList (ys : List α) : TestList α := ys.foldl pushBack empty

/-- One operation of the modelled list. -/
def perform : Op α → TestList α → P (Option α × TestList α)
  | .push x, t => pure (none, t.pushBack x)
  | .popFront, t => t.popFront
  | .popBack, t => t.popBack
  | .append ys, t => pure (none, t.append (ofList ys))
  | .clear, t => pure (none, t.clear)

/-- A history of operations of the modelled list. -/
def performAll : List (Op α) → TestList α → P (List (Option α) × TestList α)
  | [], t => pure ([], t)
  | o :: os, t => do
    let (x, t) ← perform o t
    let (xs, t) ← performAll os t
    pure (x :: xs, t)

theorem subUsize_ok {a b : Nat} (h : b ≤ a) : subUsize a b = .ok (a - b) := by
  simp [subUsize, h, pure, Except.pure]

theorem foldl_push (ys : List α) (t : TestList α) :
    ys.foldl pushBack t = ⟨t.len + ys.length, t.tests ++ ys⟩ := by
  induction ys generalizing t with
  | nil => simp
  | cons y ys ih => simp [ih, pushBack]; omega

theorem ofList_eq (ys : List α) : ofList ys = ⟨ys.length, ys⟩ := by
  simp [ofList, foldl_push, empty]

theorem append_eq (t u : TestList α) : t.append u = ⟨t.len + u.len, t.tests ++ u.tests⟩ := by
  obtain ⟨n, l⟩ := t
  simp only [append, LL.prev]
  by_cases h : l.length = 0
  · have : l = [] := List.length_eq_zero_iff.1 h
    simp [this, LL.spliceAfter]
  · rw [if_neg h]
    simp only [LL.spliceAfter, TestList.mk.injEq, true_and]
    rw [Nat.sub_add_cancel (by omega)]
    simp

theorem popFront_eq {t : TestList α} (h : t.Exact) :
    t.popFront = .ok (t.tests.head?, ⟨t.tests.tail.length, t.tests.tail⟩) := by
  obtain ⟨n, l⟩ := t
  cases l with
  | nil => simp only [Exact, List.length_nil] at h; simp [popFront, h, pure, Except.pure]
  | cons x xs =>
    simp only [Exact, List.length_cons] at h
    simp [popFront, h, subUsize_ok, bind, Except.bind, pure, Except.pure]

theorem popBack_eq {t : TestList α} (h : t.Exact) :
    t.popBack = .ok (t.tests.getLast?, ⟨t.tests.dropLast.length, t.tests.dropLast⟩) := by
  obtain ⟨n, l⟩ := t
  simp only [Exact] at h
  cases hl : l.getLast? with
  | none =>
    have : l = [] := by simpa using hl
    subst this
    simp at h
    simp [popBack, h, pure, Except.pure]
  | some x =>
    have : 0 < l.length := by
      cases l with
      | nil => simp at hl
      | cons _ _ => simp
    simp [popBack, hl, h, subUsize_ok (show 1 ≤ l.length from this), bind, Except.bind, pure, Except.pure]

theorem perform_eq (o : Op α) {t : TestList α} (h : t.Exact) :
    perform o t = .ok ((step o t.tests).1, ⟨(step o t.tests).2.length, (step o t.tests).2⟩) := by
  cases o with
  | push x => simp only [Exact] at h; simp [perform, step, pushBack, h, pure, Except.pure]
  | popFront => simp [perform, step, popFront_eq h]
  | popBack => simp [perform, step, popBack_eq h]
  | append ys => simp only [Exact] at h; simp [perform, step, append_eq, ofList_eq, h, pure, Except.pure]
  | clear => simp [perform, step, clear, pure, Except.pure]

/-- **C45.** Every history of operations on a new list: nothing panics, every operation returns what it
returns on a plain sequence, the contents are those of the plain sequence and the length is exact. -/
theorem C45_deque (ops : List (Op α)) :
    performAll ops empty =
      .ok ((ListSpec.run ops []).1, ⟨(ListSpec.run ops []).2.length, (ListSpec.run ops []).2⟩) := by
  have main : ∀ (ops : List (Op α)) (t : TestList α), t.Exact →
      performAll ops t = .ok ((ListSpec.run ops t.tests).1,
        ⟨(ListSpec.run ops t.tests).2.length, (ListSpec.run ops t.tests).2⟩) := by
    intro ops
    induction ops with
    | nil => intro t h; simp only [Exact] at h; simp [performAll, ListSpec.run, pure, Except.pure, ← h]
    | cons o os ih =>
      intro t h
      have e := ih ⟨(step o t.tests).2.length, (step o t.tests).2⟩ rfl
      simp only [performAll, ListSpec.run, perform_eq o h, bind, Except.bind, pure, Except.pure, e]
  exact main ops empty rfl

/-- The hypothesis-free theorem on a history with every operation. -/
example : performAll [.push 1, .append [2, 3, 4], .popBack, .push 5, .popFront] (empty : TestList Nat) =
    .ok ([none, none, some 4, none, some 1], ⟨3, [2, 3, 5]⟩) := rfl

/-! ### Iterating and draining -/

/-- Calling `next` on an iterator `n` times. -/
def nexts : Nat → TIter α → List (Option α)
  | 0, _ => []
  | n + 1, it => it.next.1 :: nexts n it.next.2

/-- **C45.** The iterator yields the tests in order, each once, and then nothing, however often it is asked;
and its announced length is exact. -/
theorem C45_iter (t : TestList α) (h : t.Exact) (n : Nat) :
    nexts n t.iter = (List.range n).map (fun i => t.tests[i]?) ∧ t.iter.len = t.tests.length := by
  refine ⟨?_, by simpa [TIter.len, iter, Exact] using h⟩
  have main : ∀ (n k : Nat) (c : Option Nat), k ≤ t.tests.length →
      (c = if k < t.tests.length then some k else none) →
      nexts n (⟨k, t.tests.length, t.tests, c⟩ : TIter α) =
        (List.range n).map (fun i => t.tests[k + i]?) := by
    intro n
    induction n with
    | zero => intro k c _ _; simp [nexts]
    | succ n ih =>
      intro k c hk hc
      rw [List.range_succ_eq_map]
      simp only [nexts, TIter.next, List.map_cons, List.map_map]
      by_cases hlt : k < t.tests.length
      · rw [if_pos hlt] at hc
        subst hc
        rw [if_pos hlt]
        simp only [Option.bind_some, Nat.add_zero, List.cons.injEq, true_and]
        rw [ih (k + 1) _ (by omega) (by simp [LL.next])]
        apply List.map_congr_left
        intro i _
        simp only [Function.comp_apply, Nat.succ_eq_add_one]
        congr 1
        omega
      · rw [if_neg hlt] at hc ⊢
        subst hc
        have hk' : k = t.tests.length := by omega
        simp only [Nat.add_zero]
        rw [ih k none hk (by rw [if_neg hlt])]
        rw [List.getElem?_eq_none (by omega)]
        simp only [List.cons.injEq, true_and]
        apply List.map_congr_left
        intro i _
        simp only [Function.comp_apply]
        rw [List.getElem?_eq_none (by omega), List.getElem?_eq_none (by omega)]
  have h' : t.iter = ⟨0, t.tests.length, t.tests, LL.next t.tests.length none⟩ := by
    simp only [iter]
    rw [show t.len = t.tests.length from h]
  rw [h', main n 0 _ (by omega)]
  · simp
  · simp only [LL.next]
    by_cases h0 : t.tests.length = 0
    · simp [h0]
    · rw [if_neg h0, if_pos (by omega)]

example : nexts 4 (ofList [7, 8, 9] : TestList Nat).iter = [some 7, some 8, some 9, none] := by decide +kernel

/-- C45 fails for the iterator read from the back: the first test comes first, and then nothing. -/
theorem C45_back_iter_refuted :
    ∃ t : TestList Nat, t.Exact ∧ t.tests = [1, 2, 3] ∧
      t.iter.nextBack.1 = some 1 ∧ t.iter.nextBack.2.nextBack.1 = none :=
  ⟨ofList [1, 2, 3], rfl, rfl, rfl, rfl⟩

/-- C45, part: reading the iterator from either end makes its length one less, so that it ends after as many reads as there are tests. -/
theorem C45_iter_length_partial (it : TIter α) (h : 0 < it.len) :
    it.next.2.len = it.len - 1 ∧ it.nextBack.2.len = it.len - 1 ∧ it.next.2.tests = it.tests ∧ it.nextBack.2.tests = it.tests := by
  unfold TIter.len at h
  have h' : it.start < it.stop := by omega
  unfold TIter.next TIter.nextBack TIter.len
  rw [if_pos h', if_pos h']
  refine ⟨?_, ?_, rfl, rfl⟩ <;> dsimp only <;> omega

/-- With three tests, from the back: the first, nothing, the last. -/
example : let it := (ofList [1, 2, 3] : TestList Nat).iter
    0 < it.len ∧ it.nextBack.1 = some 1 ∧ it.nextBack.2.nextBack.1 = none ∧ it.nextBack.2.nextBack.2.nextBack.1 = some 3 := by decide +kernel

theorem drain_eq : ∀ (n : Nat) (t : TestList α), t.Exact → t.tests.length < n →
    drain n t = .ok t.tests := by
  intro n
  induction n with
  | zero => intro t _ h; omega
  | succ n ih =>
    intro t ht hlt
    obtain ⟨k, l⟩ := t
    cases l with
    | nil => simp [drain, popFront_eq ht, bind, Except.bind, pure, Except.pure]
    | cons x xs =>
      simp only [List.length_cons] at hlt
      simp [drain, popFront_eq ht, bind, Except.bind, pure, Except.pure, ih ⟨xs.length, xs⟩ rfl (by simpa using (by omega))]

/-- **C45.** Draining a list yields every test once, in order. -/
theorem C45_drain (t : TestList α) (h : t.Exact) : drain (t.tests.length + 1) t = .ok t.tests :=
  drain_eq _ t h (by omega)

/-! ### The cursor -/

/-- The cursor, as (sequence, position): position `n` is the null object. -/
def Tracks (c : TCursor α) (s : List α × Nat) : Prop :=
  c.tests = s.1 ∧ c.len = s.1.length ∧ c.pos = s.2 ∧ s.2 ≤ s.1.length ∧
    c.cur = if s.2 < s.1.length then some s.2 else none

/-- What a split returns, as a sequence with an exact length. -/
def retOf : Ret α → Option (Option α) × Option (TestList α)
  | .nothing => (none, none)
  | .elem x => (some x, none)
  | .piece l => (none, some ⟨l.length, l⟩)

/-- One cursor operation of the model. -/
def cperform : COp α → TCursor α → P ((Option (Option α) × Option (TestList α)) × TCursor α)
  | .next, c => c.moveNext.map (fun c => ((none, none), c))
  | .prev, c => c.movePrev.map (fun c => ((none, none), c))
  | .remove, c => c.remove.map (fun r => ((some r.1, none), r.2))
  | .insertAfter x, c => pure ((none, none), c.insertAfter x)
  | .insertBefore x, c => pure ((none, none), c.insertBefore x)
  | .splitAfter, c => c.splitAfter.map (fun r => ((none, some r.1), r.2))

def cperformAll : List (COp α) → TCursor α →
    P (List (Option (Option α) × Option (TestList α)) × TCursor α)
  | [], c => pure ([], c)
  | o :: os, c => do
    let (x, c) ← cperform o c
    let (xs, c) ← cperformAll os c
    pure (x :: xs, c)

theorem tracks_front {t : TestList α} (h : t.Exact) : Tracks t.frontMut (t.tests, 0) := by
  refine ⟨rfl, h, rfl, by simp, ?_⟩
  simp only [frontMut, LL.next]
  by_cases h0 : t.tests.length = 0
  · simp [h0]
  · rw [if_neg h0, if_pos (by omega)]

theorem cperform_eq (o : COp α) {c : TCursor α} {s : List α × Nat} (h : Tracks c s) :
    ∃ c', cperform o c = .ok (retOf (cstep o s).1, c') ∧ Tracks c' (cstep o s).2 := by
  obtain ⟨l, i⟩ := s
  obtain ⟨n, p, ts, cu⟩ := c
  obtain ⟨h1, h2, h3, h4, h5⟩ := h
  dsimp only at h1 h2 h3 h4 h5
  subst h1 h2 h3
  cases o with
  | next =>
    simp only [cperform, TCursor.moveNext, cstep, retOf]
    by_cases hp : p = ts.length
    · rw [if_neg (by omega)] at h5
      subst h5
      simp only [hp, if_true, Option.isNone_none, pure, Except.pure, Except.map]
      refine ⟨_, rfl, rfl, rfl, rfl, by simp, ?_⟩
      simp only [LL.next]
      by_cases h0 : ts.length = 0
      · simp [h0]
      · rw [if_neg h0, if_pos (by omega)]
    · rw [if_pos (by omega)] at h5
      subst h5
      simp only [if_neg hp, pure, Except.pure, Except.map]
      exact ⟨_, rfl, rfl, rfl, rfl, by dsimp only; omega, rfl⟩
  | prev =>
    simp only [cperform, TCursor.movePrev, cstep, retOf]
    by_cases hp : p = ts.length
    · rw [if_neg (by omega)] at h5
      subst h5
      simp only [hp, if_true, Option.isNone_none, pure, Except.pure, Except.map]
      refine ⟨_, rfl, rfl, rfl, ?_, ?_, ?_⟩
      · dsimp only; split <;> omega
      · dsimp only; split <;> omega
      · simp only [LL.prev]
        by_cases h0 : ts.length = 0
        · simp [h0]
        · rw [if_neg h0, if_neg h0, if_pos (by omega)]
    · rw [if_pos (by omega)] at h5
      subst h5
      simp only [if_neg hp]
      by_cases h0 : p = 0
      · subst h0
        simp only [if_true, pure, Except.pure, Except.map]
        exact ⟨_, rfl, rfl, rfl, rfl, by simp, by simp [LL.prev]⟩
      · obtain ⟨q, rfl⟩ : ∃ q, p = q + 1 := ⟨p - 1, by omega⟩
        simp only [if_neg h0, pure, Except.pure, Except.map]
        refine ⟨_, rfl, rfl, rfl, by simp, by simp; omega, ?_⟩
        simp only [LL.prev, Nat.add_sub_cancel]
        rw [if_pos (by omega)]
  | remove =>
    simp only [cperform, TCursor.remove, cstep, retOf]
    by_cases hp : p < ts.length
    · rw [if_pos hp] at h5
      subst h5
      simp only [LL.remove, List.getElem?_eq_getElem hp, subUsize_ok (show 1 ≤ ts.length by omega), bind,
        Except.bind, pure, Except.pure, Except.map]
      refine ⟨_, rfl, rfl, ?_, rfl, ?_, ?_⟩
      · simp [List.length_eraseIdx, hp]
      · simp only [List.length_eraseIdx, if_pos hp]; omega
      · simp only [List.length_eraseIdx, if_pos hp]
        by_cases hq : p + 1 < ts.length
        · rw [if_pos hq, if_pos (by omega)]
        · rw [if_neg hq, if_neg (by omega)]
    · rw [if_neg hp] at h5
      subst h5
      simp only [LL.remove, List.getElem?_eq_none (show ts.length ≤ p by omega), pure, Except.pure, Except.map]
      have he : ts.eraseIdx p = ts := List.eraseIdx_of_length_le (by omega)
      rw [he]
      exact ⟨_, rfl, rfl, rfl, rfl, h4, by rw [if_neg hp]⟩
  | insertAfter x =>
    simp only [cperform, TCursor.insertAfter, cstep, retOf, pure, Except.pure]
    by_cases hp : p = ts.length
    · rw [if_neg (by omega)] at h5
      subst h5
      simp only [hp, if_true]
      exact ⟨_, rfl, rfl, rfl, rfl, by simp, by simp⟩
    · rw [if_pos (by omega)] at h5
      subst h5
      simp only [if_neg hp]
      refine ⟨_, rfl, by simp [LL.spliceAfter], ?_, rfl, ?_, ?_⟩
      · simp; omega
      · simp; omega
      · rw [if_pos (by simp; omega)]
  | insertBefore x =>
    simp only [cperform, TCursor.insertBefore, cstep, retOf, pure, Except.pure]
    by_cases hp : p < ts.length
    · rw [if_pos hp] at h5
      subst h5
      refine ⟨_, rfl, by simp [LL.spliceBefore], ?_, rfl, ?_, ?_⟩
      · simp; omega
      · simp; omega
      · rw [if_pos (by simp; omega)]; simp [LL.spliceBefore]
    · rw [if_neg hp] at h5
      subst h5
      have : p = ts.length := by omega
      subst this
      refine ⟨_, rfl, by simp [LL.spliceBefore], ?_, rfl, ?_, ?_⟩
      · simp
      · simp
      · simp [LL.spliceBefore]
  | splitAfter =>
    simp only [cperform, TCursor.splitAfter, cstep, retOf]
    by_cases h0 : ts.length = 0
    · have : ts = [] := List.length_eq_zero_iff.1 h0
      subst this
      simp only [List.length_nil] at h4
      have : p = 0 := by omega
      subst this
      simp only [List.length_nil, if_true, pure, Except.pure, Except.map, retOf]
      refine ⟨_, rfl, rfl, rfl, rfl, by simp, ?_⟩
      simpa using h5
    · simp only [if_neg h0]
      by_cases hp : p = ts.length
      · rw [if_neg (by omega)] at h5
        subst h5
        simp only [hp, if_true, pure, Except.pure, Except.map, retOf, LL.splitAfter]
        exact ⟨_, rfl, rfl, rfl, rfl, by simp, by simp⟩
      · rw [if_pos (by omega)] at h5
        subst h5
        simp only [if_neg hp, subUsize_ok (show p + 1 ≤ ts.length by omega), bind, Except.bind, pure,
          Except.pure, Except.map, retOf, LL.splitAfter, List.length_drop]
        refine ⟨_, rfl, rfl, ?_, rfl, ?_, ?_⟩
        · simp; omega
        · simp; omega
        · rw [if_pos (by simp; omega)]

/-- **C45.** Every history of moves, removals, insertions and splits through a cursor obtained at the front of
a list: nothing panics, every removal and every split returns what it returns on the plain
sequence (the piece split off with an exact length), the cursor reads the element at its position, and the
list left behind is that of the plain sequence, with an exact length. -/
theorem C45_cursor (t : TestList α) (h : t.Exact) (ops : List (COp α)) :
    ∃ c, cperformAll ops t.frontMut = .ok ((crun ops (t.tests, 0)).1.map retOf, c) ∧
      c.list = ⟨(crun ops (t.tests, 0)).2.1.length, (crun ops (t.tests, 0)).2.1⟩ ∧
      c.get = (crun ops (t.tests, 0)).2.1[(crun ops (t.tests, 0)).2.2]? := by
  have main : ∀ (ops : List (COp α)) (c : TCursor α) (s : List α × Nat), Tracks c s →
      ∃ c', cperformAll ops c = .ok ((crun ops s).1.map retOf, c') ∧ Tracks c' (crun ops s).2 := by
    intro ops
    induction ops with
    | nil => intro c s hc; exact ⟨c, rfl, hc⟩
    | cons o os ih =>
      intro c s hc
      obtain ⟨c1, e1, t1⟩ := cperform_eq o hc
      obtain ⟨c2, e2, t2⟩ := ih c1 _ t1
      refine ⟨c2, ?_, t2⟩
      simp [cperformAll, crun, e1, e2, bind, Except.bind, pure, Except.pure]
  obtain ⟨c, e, t1⟩ := main ops _ _ (tracks_front h)
  refine ⟨c, e, ?_, ?_⟩
  · obtain ⟨h1, h2, _⟩ := t1
    simp only [TCursor.list, h1, h2]
  · obtain ⟨h1, h2, h3, h4, h5⟩ := t1
    simp only [TCursor.get, h5, h1]
    by_cases hlt : (crun ops (t.tests, 0)).2.2 < (crun ops (t.tests, 0)).2.1.length
    · rw [if_pos hlt]; rfl
    · rw [if_neg hlt, List.getElem?_eq_none (by omega)]; rfl

/-- Moving, removing, inserting and splitting on a concrete list. -/
example : (cperformAll [.next, .remove, .insertBefore 9, .prev, .splitAfter] (ofList [1, 2, 3] : TestList Nat).frontMut).map
      (fun r => (r.1, r.2.list)) =
    .ok ([(none, none), (some (some 2), none), (none, none), (none, none), (none, some ⟨1, [3]⟩)], ⟨2, [1, 9]⟩) := rfl

/-- C45 fails for the cursor obtained at the back: it believes it is at the front, so a split leaves three tests in a list which says it holds
one, and an empty list which says it holds two. -/
theorem C45_back_mut_refuted :
    ∃ t : TestList Nat, t.Exact ∧ t.tests = [1, 2, 3] ∧
      (t.backMut.splitAfter.map (fun r => (r.1, r.2.list))) = .ok (⟨2, []⟩, ⟨1, [1, 2, 3]⟩) :=
  ⟨ofList [1, 2, 3], rfl, rfl, rfl⟩

/-- C45 fails after splicing through a cursor: after two tests are spliced in front of the second of two, splitting behind the
cursor leaves four tests in a list which says it holds three. -/
theorem C45_splice_refuted :
    ∃ t : TestList Nat, t.Exact ∧ t.tests = [1, 2] ∧
      (do let c ← t.frontMut.moveNext
          let c := c.spliceBefore (ofList [8, 9])
          let (_, c) ← c.splitAfter
          pure c.list) = (.ok ⟨3, [1, 8, 9, 2]⟩ : P (TestList Nat)) :=
  ⟨ofList [1, 2], rfl, rfl, rfl⟩

/-! ### Splitting -/

theorem advance_eq (l : List α) (n k : Nat) (h : n + k < l.length) :
    advance n (⟨l.length, k, l, some k⟩ : TCursor α) = .ok ⟨l.length, k + n, l, some (k + n)⟩ := by
  induction n generalizing k with
  | zero => simp [advance, pure, Except.pure]
  | succ n ih =>
    have hk : k ≠ l.length := by omega
    simp only [advance, TCursor.moveNext, if_neg hk, pure, Except.pure, bind, Except.bind, LL.next,
      if_pos (show k + 1 < l.length by omega)]
    rw [ih (k + 1) (by omega)]
    simp only [Except.ok.injEq, TCursor.mk.injEq, true_and, and_true]
    constructor
    · omega
    · congr 1; omega

theorem splitAt_eq (t : TestList α) (h : t.Exact) (i : Nat) (hi : i < t.tests.length) :
    t.splitAt i = .ok (⟨i + 1, t.tests.take (i + 1)⟩, ⟨t.tests.length - (i + 1), t.tests.drop (i + 1)⟩) := by
  obtain ⟨n, l⟩ := t
  dsimp only [Exact] at h hi
  subst h
  have hne : l.isEmpty = false := by cases l with | nil => simp at hi | cons _ _ => rfl
  have h0 : l.length ≠ 0 := by omega
  simp only [splitAt, isEmpty, hne, Bool.false_eq_true, if_false, if_pos hi, frontMut, LL.next, if_neg h0]
  rw [advance_eq l i 0 (by omega)]
  simp only [Nat.zero_add, bind, Except.bind, TCursor.isNull, Option.isNone_some, Bool.false_eq_true, if_false,
    TCursor.splitAfter, if_neg h0, if_neg (show i ≠ l.length by omega), subUsize_ok (show i + 1 ≤ l.length by omega),
    pure, Except.pure, LL.splitAfter, TCursor.list]

/-- **C45, what holds of splitting.** Splitting a list loses, repeats and reorders nothing, keeps both lengths
exact, and puts the first `i` tests in the first half.  Missing: it should put no more than those
there, see `C45_split_refuted`. -/
theorem C45_split_partial (t : TestList α) (h : t.Exact) (i : Nat) (hi : i < t.tests.length) :
    ∃ a b, t.splitAt i = .ok (a, b) ∧ a.Exact ∧ b.Exact ∧ a.tests ++ b.tests = t.tests ∧
      t.tests.take i <+: a.tests ∧ a.tests.length = i + 1 := by
  refine ⟨_, _, splitAt_eq t h i hi, ?_, ?_, ?_, ?_, ?_⟩
  · simp [Exact]; omega
  · simp [Exact]
  · simp
  · exact List.take_prefix_take_left (l := t.tests) (show i ≤ i + 1 by omega)
  · simp; omega

/-- C45 fails for splitting: the test at the split point stays in the first half, always. -/
theorem C45_split_refuted (t : TestList α) (h : t.Exact) (i : Nat) (hi : i < t.tests.length) :
    ∃ a b, t.splitAt i = .ok (a, b) ∧ a.tests ≠ t.tests.take i := by
  refine ⟨_, _, splitAt_eq t h i hi, ?_⟩
  intro e
  have := congrArg List.length e
  simp at this
  omega

/-- C45 fails for splitting in two: two tests are never separated. -/
theorem C45_split_two_refuted (x y : α) :
    (ofList [x, y]).split = .ok (⟨2, [x, y]⟩, some ⟨0, []⟩) := by
  rw [ofList_eq]
  simp only [split, List.length_cons, List.length_nil, show ¬ (0 + 1 + 1 < 2) by omega, if_false]
  rw [splitAt_eq ⟨0 + 1 + 1, [x, y]⟩ rfl _ (by simp)]
  rfl

/-- **C45.** A parallel run over pieces obtained by `split` visits every test exactly once, in order, whatever the
scheduler decides to split. -/
theorem C45_parallel_unindexed (s : Splits) (t : TestList α) (h : t.Exact) :
    bridgeUnindexed s t = .ok t.tests := by
  induction s generalizing t with
  | leaf => simpa [bridgeUnindexed] using C45_drain t h
  | node l r ihl ihr =>
    simp only [bridgeUnindexed, split]
    by_cases hl : t.len < 2
    · simp only [if_pos hl, pure, Except.pure, bind, Except.bind]
      exact C45_drain t h
    · have h' : t.len = t.tests.length := h
      obtain ⟨a, b, e, ha, hb, hab, _⟩ := C45_split_partial t h (t.len / 2) (by omega)
      simp [if_neg hl, e, bind, Except.bind, pure, Except.pure, ihl a ha, ihr b hb, hab]

example : bridgeUnindexed (.node .leaf (.node .leaf .leaf)) (ofList [1, 2, 3, 4, 5] : TestList Nat) =
    .ok [1, 2, 3, 4, 5] := C45_parallel_unindexed _ _ rfl

/-- **C45, what holds of `into_par_iter`.** If a parallel run does not panic, it visits every test exactly once, in
order, whatever the scheduler decides to split.  Missing: it may panic,
`C45_parallel_refuted`. -/
theorem C45_parallel_partial (s : Splits) (t : TestList α) (h : t.Exact) (n : Nat) (out : List α)
    (hrun : bridge s n t = .ok out) : out = t.tests := by
  induction s generalizing t n out with
  | leaf =>
    simp only [bridge, C45_drain t h, Except.ok.injEq] at hrun
    exact hrun.symm
  | node l r ihl ihr =>
    simp only [bridge] at hrun
    by_cases hn : n / 2 ≥ 1
    · rw [if_pos hn] at hrun
      cases hs : t.splitAt (n / 2) with
      | error p => rw [hs] at hrun; simp [bind, Except.bind] at hrun
      | ok ab =>
        obtain ⟨a, b⟩ := ab
        have hab : a.Exact ∧ b.Exact ∧ a.tests ++ b.tests = t.tests := by
          by_cases he : t.tests = []
          · have : t.splitAt (n / 2) = .ok (t, empty) := by
              simp [splitAt, isEmpty, he, pure, Except.pure]
            rw [this] at hs
            simp only [Except.ok.injEq, Prod.mk.injEq] at hs
            obtain ⟨rfl, rfl⟩ := hs
            exact ⟨h, rfl, by simp [empty]⟩
          · have hlt : n / 2 < t.tests.length := by
              apply Nat.lt_of_not_le
              intro hge
              have h' : t.len = t.tests.length := h
              have he' : t.tests.isEmpty = false := by simpa using he
              simp only [splitAt, isEmpty, he', Bool.false_eq_true, if_false, if_neg (show ¬ n / 2 < t.len by omega)] at hs
              exact absurd hs (by simp [throw, throwThe, MonadExceptOf.throw])
            obtain ⟨a', b', e, ha, hb, hc, _⟩ := C45_split_partial t h (n / 2) hlt
            rw [hs] at e
            simp only [Except.ok.injEq, Prod.mk.injEq] at e
            obtain ⟨rfl, rfl⟩ := e
            exact ⟨ha, hb, hc⟩
        rw [hs] at hrun
        simp only [bind, Except.bind] at hrun
        cases h1 : bridge l (n / 2) a with
        | error p => rw [h1] at hrun; simp at hrun
        | ok xs =>
          rw [h1] at hrun
          dsimp only at hrun
          cases h2 : bridge r (n - n / 2) b with
          | error p => rw [h2] at hrun; simp at hrun
          | ok ys =>
            rw [h2] at hrun
            simp only [pure, Except.pure, Except.ok.injEq] at hrun
            rw [← hrun, ihl a hab.1 _ xs h1, ihr b hab.2.1 _ ys h2, hab.2.2]
    · rw [if_neg hn, C45_drain t h] at hrun
      simp only [Except.ok.injEq] at hrun
      exact hrun.symm

example : bridge (.node .leaf .leaf) 4 (ofList [1, 2, 3, 4] : TestList Nat) = .ok [1, 2, 3, 4] := rfl

/-- C45 fails for `into_par_iter`: over three tests, a scheduler which splits twice panics. -/
theorem C45_parallel_refuted (x y z : α) :
    bridge (.node .leaf (.node .leaf .leaf)) 3 (ofList [x, y, z]) = .error .assertFailed := by
  rw [ofList_eq]
  rfl

end TestList
end Litcheck
