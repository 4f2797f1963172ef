import Verif.Proofs.Tac
import Verif.Model.Check

/-!
# Errors are only ever added
-/

namespace Litcheck
variable {E : Type}

theorem bind_ok {α β : Type} {x : P α} {f : α → P β} {y : β} :
    (x >>= f) = .ok y ↔ ∃ a, x = .ok a ∧ f a = .ok y := by
  cases x <;> simp [bind, Except.bind]

theorem ok_inj {α : Type} {a b : α} : (Except.ok a : P α) = .ok b ↔ a = b := by simp

/-- The errors recorded in `s` are a prefix of those recorded in `s'`. -/
def ErrLe (s s' : St E) : Prop := s.res.errors <+: s'.res.errors

theorem ErrLe.refl (s : St E) : ErrLe s s := List.prefix_refl _
theorem ErrLe.trans {s1 s2 s3 : St E} (h1 : ErrLe s1 s2) (h2 : ErrLe s2 s3) : ErrLe s1 s3 :=
  List.IsPrefix.trans h1 h2

theorem ErrLe.fail (s : St E) (f : Failure) : ErrLe s (s.fail f) := by
  simp [ErrLe, St.fail, TestResult.addFailed]

theorem fail_errors (s : St E) (f : Failure) : (s.fail f).res.errors = s.res.errors ++ [f] := rfl

theorem pass_errors (s : St E) (n : Nat) : (s.pass n).res.errors = s.res.errors := rfl

theorem pass_ctx (s : St E) (n : Nat) : (s.pass n).ctx = s.ctx := rfl

/-- If nothing was added from `s1` to `s3`, nothing was added in between. -/
theorem ErrLe.squeeze {s1 s2 s3 : St E} (h1 : ErrLe s1 s2) (h2 : ErrLe s2 s3)
    (h : s3.res.errors = s1.res.errors) : s2.res.errors = s1.res.errors ∧ s3.res.errors = s2.res.errors := by
  have l1 := h1.length_le
  have l2 := h2.length_le
  rw [h] at l2
  have : s1.res.errors = s2.res.errors := List.IsPrefix.eq_of_length h1 (by omega)
  exact ⟨this.symm, by rw [h, this]⟩

theorem fail_ne {s s' : St E} {f : Failure} (h : ErrLe (s.fail f) s') : s'.res.errors ≠ s.res.errors := by
  intro he
  have := h.length_le
  rw [fail_errors, he] at this
  simp at this
  omega

theorem checkNot_err {p : Pat E} {r : Rng} {s s' : St E} {nr : NotResult}
    (h : checkNot p r s = .ok (nr, s')) : s'.res = s.res := by
  unfold checkNot at h
  split at h
  · simp at h; rw [← h.2]
  · dsimp only at h
    split at h
    · simp at h; rw [← h.2]
    · simp at h
    · simp at h; rw [← h.2]

theorem excl_err {p : Pat E} {r : Rng} {s s' : St E} {ex : List Matches}
    (h : excl p r s = .ok (ex, s')) : s'.res.errors = s.res.errors := by
  unfold excl at h
  obtain ⟨⟨nr, s1⟩, h1, h2⟩ := bind_ok.1 h
  have he := checkNot_err h1
  cases nr <;> simp at h2 <;> rw [← h2.2] <;> simp [St.pass, TestResult.addPassed, he]

theorem orderedLoop_err {rules : List (Rule E)} {acc acc' : List Matches} {s s' : St E} {d : Bool}
    (h : orderedLoop rules acc s = .ok (d, acc', s')) : ErrLe s s' := by
  induction rules generalizing acc s with
  | nil => simp [orderedLoop] at h; rw [h.2.2]; exact ErrLe.refl _
  | cons r rs ih =>
    unfold orderedLoop at h
    obtain ⟨⟨m, ctx⟩, h1, h2⟩ := bind_ok.1 h
    dsimp only at h2
    split at h2
    · split at h2
      · have e := ih h2
        exact e
      · split at h2
        · simp at h2; rw [← h2.2.2]; exact ErrLe.fail { s with ctx := ctx } _
        · simp at h2; rw [← h2.2.2]; exact ErrLe.fail { s with ctx := ctx } _
    · have e := ih h2
      exact (ErrLe.fail { s with ctx := ctx } _).trans e

theorem repeatedLoop_err {rule : Rule E} {n : Nat} {acc acc' : List Matches} {s s' : St E} {d : Bool}
    (h : repeatedLoop rule n acc s = .ok (d, acc', s')) : ErrLe s s' := by
  induction n generalizing acc s with
  | zero => simp [repeatedLoop] at h; rw [h.2.2]; exact ErrLe.refl _
  | succ n ih =>
    unfold repeatedLoop at h
    obtain ⟨⟨m, ctx⟩, h1, h2⟩ := bind_ok.1 h
    dsimp only at h2
    split at h2
    · split at h2
      · split at h2
        · simp at h2; rw [← h2.2.2]; exact ErrLe.fail { s with ctx := ctx } _
        · have e := ih h2
          exact e
      · have e := ih h2
        exact e
    · simp at h2; rw [← h2.2.2]; exact ErrLe.fail { s with ctx := ctx } _

theorem checkNever_err {p : Pat E} {s s' : St E} {gr : GR} (h : checkNever p s = .ok (gr, s')) : ErrLe s s' := by
  unfold checkNever at h
  obtain ⟨r, _, h⟩ := bind_ok.1 h
  obtain ⟨⟨nr, s1⟩, h1, h2⟩ := bind_ok.1 h
  have he := checkNot_err h1
  cases nr <;> simp at h2 <;> rw [← h2.2] <;> simp [ErrLe, St.pass, TestResult.addPassed, he]

theorem checkOrdered_err {rules : List (Rule E)} {s s' : St E} {gr : GR}
    (h : checkOrdered rules s = .ok (gr, s')) : ErrLe s s' := by
  unfold checkOrdered at h
  obtain ⟨⟨d, acc, s1⟩, h1, h2⟩ := bind_ok.1 h
  have he := orderedLoop_err h1
  dsimp only at h2
  split at h2
  · obtain ⟨x, _, h3⟩ := bind_ok.1 h2
    split at h3 <;> (simp at h3; rw [← h3.2]; exact he)
  · simp at h2; rw [← h2.2]; exact he

theorem checkRepeated_err {rule : Rule E} {n : Nat} {s s' : St E} {gr : GR}
    (h : checkRepeated rule n s = .ok (gr, s')) : ErrLe s s' := by
  unfold checkRepeated at h
  obtain ⟨⟨d, acc, s1⟩, h1, h2⟩ := bind_ok.1 h
  have he := repeatedLoop_err h1
  dsimp only at h2
  split at h2 <;> (simp at h2; rw [← h2.2]; exact he)

theorem checkUnordered_err {d : Dag E} {s s' : St E} {gr : GR}
    (h : checkUnordered d s = .ok (gr, s')) : ErrLe s s' := by
  unfold checkUnordered at h
  obtain ⟨⟨m, ctx⟩, h1, h2⟩ := bind_ok.1 h
  dsimp only at h2
  split at h2
  · obtain ⟨x, _, h3⟩ := bind_ok.1 h2
    split at h3 <;> (simp at h3; rw [← h3.2]; exact ErrLe.refl s)
  · simp at h2; rw [← h2.2]; exact ErrLe.fail { s with ctx := ctx } _

theorem combineBounded_err {left : Option Matches} {right : GR} {s s' : St E} {gr : GR}
    (h : combineBounded left right s = .ok (gr, s')) : ErrLe s s' := by
  unfold combineBounded at h
  split at h
  · split at h
    · simp at h
    · obtain ⟨x, _, h⟩ := bind_ok.1 h
      split at h
      · simp at h
      · split at h
        · obtain ⟨y, _, h⟩ := bind_ok.1 h
          simp at h; rw [← h.2]; exact ErrLe.refl s
        · simp at h; rw [← h.2]; exact ErrLe.fail s _
  · split at h
    · obtain ⟨y, _, h⟩ := bind_ok.1 h
      split at h <;> (simp at h; rw [← h.2]; exact ErrLe.refl s)
    · simp at h; rw [← h.2]; exact ErrLe.fail s _
  · split at h
    · obtain ⟨y, _, h⟩ := bind_ok.1 h
      split at h <;> (simp at h; rw [← h.2]; exact ErrLe.fail s _)
    · simp at h; rw [← h.2]; exact (ErrLe.fail s _).trans (ErrLe.fail _ _)

theorem expectNoErr_inv {x : GR × St E} {ok : Bool} {ms : List Matches} {s : St E}
    (h : expectNoErr x = .ok (ok, ms, s)) :
    x = (if ok then GR.matched ms else GR.unmatched ms, s) := by
  obtain ⟨gr, st⟩ := x
  cases gr <;> simp [expectNoErr] at h <;> (obtain ⟨rfl, rfl, rfl⟩ := h; rfl)

theorem aroundAfterLeft_err {root : Pat E} {le : Nat} {ms rms : List Matches} {ok : Bool} {s s' : St E} {gr : GR}
    (h : aroundAfterLeft root le ms (ok, rms, s) = .ok (gr, s')) : ErrLe s s' := by
  cases ok with
  | true =>
    simp only [aroundAfterLeft] at h
    obtain ⟨_, _, h⟩ := bind_ok.1 h
    obtain ⟨_, _, h⟩ := bind_ok.1 h
    obtain ⟨_, _, h⟩ := bind_ok.1 h
    obtain ⟨⟨ex, s1⟩, he, h⟩ := bind_ok.1 h
    simp at h; rw [← h.2]; simp [ErrLe, excl_err he]
  | false => simp [aroundAfterLeft] at h; rw [← h.2]; exact List.prefix_refl _

theorem aroundNoLeft_err {root : Pat E} {le : Nat} {ms rms : List Matches} {ok : Bool} {s s' : St E} {gr : GR}
    (h : aroundNoLeft root le ms (ok, rms, s) = .ok (gr, s')) : ErrLe s s' := by
  cases ok with
  | true =>
    simp only [aroundNoLeft] at h
    obtain ⟨_, _, h⟩ := bind_ok.1 h
    obtain ⟨_, _, h⟩ := bind_ok.1 h
    obtain ⟨_, _, h⟩ := bind_ok.1 h
    obtain ⟨⟨ex, s1⟩, he, h⟩ := bind_ok.1 h
    simp at h; rw [← h.2]; simp [ErrLe, excl_err he]
  | false => simp [aroundNoLeft] at h; rw [← h.2]; exact List.prefix_refl _

theorem afterBefore_err {root : Pat E} {le : Nat} {rms : List Matches} {ok : Bool} {s s' : St E} {gr : GR}
    (h : afterBefore root le (ok, rms, s) = .ok (gr, s')) : ErrLe s s' := by
  cases ok with
  | true =>
    simp only [afterBefore] at h
    obtain ⟨_, _, h⟩ := bind_ok.1 h
    obtain ⟨_, _, h⟩ := bind_ok.1 h
    obtain ⟨⟨ex, s1⟩, he, h⟩ := bind_ok.1 h
    simp at h; rw [← h.2]; simp [ErrLe, excl_err he]
  | false =>
    simp only [afterBefore] at h
    obtain ⟨_, _, h⟩ := bind_ok.1 h
    obtain ⟨⟨ex, s1⟩, he, h⟩ := bind_ok.1 h
    simp at h; rw [← h.2]; simp [ErrLe, excl_err he]

theorem afterAfter_err {root : Pat E} {le : Nat} {rms : List Matches} {ok : Bool} {s s' : St E} {gr : GR}
    (h : afterAfter root le (ok, rms, s) = .ok (gr, s')) : ErrLe s s' := by
  cases ok with
  | true =>
    simp only [afterAfter] at h
    obtain ⟨_, _, h⟩ := bind_ok.1 h
    obtain ⟨_, _, h⟩ := bind_ok.1 h
    obtain ⟨_, _, h⟩ := bind_ok.1 h
    obtain ⟨⟨ex, s1⟩, he, h⟩ := bind_ok.1 h
    simp at h; rw [← h.2]; simp [ErrLe, excl_err he]
  | false => simp [afterAfter] at h; rw [← h.2]; exact List.prefix_refl _

mutual
theorem checkGroup_err : ∀ (g : Group E) {s s' : St E} {gr : GR}, checkGroup g s = .ok (gr, s') → ErrLe s s'
  | .never p, _, _, _, h => by rw [checkGroup] at h; exact checkNever_err h
  | .ordered rules, _, _, _, h => by rw [checkGroup] at h; exact checkOrdered_err h
  | .repeated rule n, _, _, _, h => by rw [checkGroup] at h; exact checkRepeated_err h
  | .unordered d, _, _, _, h => by rw [checkGroup] at h; exact checkUnordered_err h
  | .bounded d g, s, _, _, h => by
    rw [checkGroup] at h
    obtain ⟨⟨left, ctx⟩, _, h⟩ := bind_ok.1 h
    obtain ⟨⟨right, s1⟩, h1, h⟩ := bind_ok.1 h
    have e1 := checkGroup_err g h1
    have e2 := combineBounded_err h
    exact ErrLe.trans (s1 := s) e1 e2
  | .tree t, _, _, _, h => by rw [checkGroup] at h; exact checkTree_err t h
theorem checkTree_err : ∀ (t : Tree E) {s s' : St E} {gr : GR}, checkTree t s = .ok (gr, s') → ErrLe s s'
  | .matchAll g, _, _, _, h => by rw [checkTree] at h; exact checkGroup_err g h
  | .matchAround root left right, s, _, _, h => by
    rw [checkTree] at h
    obtain ⟨lr, hl, h⟩ := bind_ok.1 h
    obtain ⟨⟨ok, lms, s1⟩, hx, h⟩ := bind_ok.1 h
    dsimp only at h
    have hx' := expectNoErr_inv hx
    rw [hx'] at hl
    have e1 : ErrLe s s1 := checkTree_err left hl
    cases ok with
    | true =>
      simp only [if_true] at h
      obtain ⟨_, _, h⟩ := bind_ok.1 h
      obtain ⟨_, _, h⟩ := bind_ok.1 h
      obtain ⟨rr, hr, h⟩ := bind_ok.1 h
      obtain ⟨⟨ok2, rms, s2⟩, hx2, h⟩ := bind_ok.1 h
      have hx2' := expectNoErr_inv hx2
      rw [hx2'] at hr
      have e2 : ErrLe s1 s2 := checkTree_err right hr
      exact e1.trans (e2.trans (aroundAfterLeft_err h))
    | false =>
      simp only [Bool.false_eq_true, if_false] at h
      obtain ⟨rr, hr, h⟩ := bind_ok.1 h
      obtain ⟨⟨ok2, rms, s2⟩, hx2, h⟩ := bind_ok.1 h
      have hx2' := expectNoErr_inv hx2
      rw [hx2'] at hr
      have e2 : ErrLe s1 s2 := checkTree_err right hr
      exact e1.trans (e2.trans (aroundNoLeft_err h))
  | .matchBefore root left, s, _, _, h => by
    rw [checkTree] at h
    obtain ⟨lr, hl, h⟩ := bind_ok.1 h
    obtain ⟨⟨ok, lms, s1⟩, hx, h⟩ := bind_ok.1 h
    have hx' := expectNoErr_inv hx
    rw [hx'] at hl
    have e1 : ErrLe s s1 := checkTree_err left hl
    exact e1.trans (afterBefore_err h)
  | .matchAfter root right, s, _, _, h => by
    rw [checkTree] at h
    obtain ⟨lr, hl, h⟩ := bind_ok.1 h
    obtain ⟨⟨ok, lms, s1⟩, hx, h⟩ := bind_ok.1 h
    have hx' := expectNoErr_inv hx
    rw [hx'] at hl
    have e1 : ErrLe s s1 := checkTree_err right hl
    exact e1.trans (afterAfter_err h)
end

end Litcheck
