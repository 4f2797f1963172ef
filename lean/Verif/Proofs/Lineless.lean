import Verif.Proofs.Cursor
import Verif.Model.Filecheck

/-!
# Programs which do not look at lines

`CHECK`, `CHECK-COUNT`, `CHECK-DAG` and `CHECK-NOT` do not read the line endings of the input.  The checker behaves on an input with
CRLF endings as it would with a cursor which looks for LF endings.
-/

namespace Litcheck
open Spec
variable {E : Type}

/-- `CHECK`. -/
def Rule.IsPlain (r : Rule E) : Prop := ∃ p, r = .plain p

mutual
/-- No `CHECK-NEXT`, `CHECK-SAME` and `CHECK-EMPTY`. -/
def Group.Lineless : Group E → Prop
  | .never _ => True
  | .unordered _ => True
  | .bounded _ g => g.Lineless
  | .ordered rs => ∀ r ∈ rs, r.IsPlain
  | .repeated r _ => r.IsPlain
  | .tree t => t.Lineless
def Tree.Lineless : Tree E → Prop
  | .matchAll g => g.Lineless
  | .matchAround _ l r => l.Lineless ∧ r.Lineless
  | .matchBefore _ l => l.Lineless
  | .matchAfter _ r => r.Lineless
end

/-- A program without labels, `CHECK-NEXT`, `CHECK-SAME` and `CHECK-EMPTY`. -/
def Lineless (prog : List (Section E)) : Prop := ∀ s ∈ prog, ∃ g : Group E, s = .group g ∧ g.Lineless

/-- The same place, but not necessarily the same knowledge about lines. -/
structure Cursor.Like (c d : Cursor) : Prop where
  buf : d.buf = c.buf
  start : d.start = c.start
  stop : d.stop = c.stop
  hi : c.stop ≤ c.buf.length

/-- Both succeed with related results, or fail in the same way. -/
def RelP {α β : Type} (R : α → β → Prop) : P α → P β → Prop
  | .ok a, .ok b => R a b
  | .error e, .error e' => e = e'
  | _, _ => False

theorem RelP.bind {α β γ δ : Type} {R : α → β → Prop} {S : γ → δ → Prop} {x : P α} {y : P β} {f : α → P γ} {g : β → P δ}
    (h : RelP R x y) (hf : ∀ a b, R a b → RelP S (f a) (g b)) : RelP S (x >>= f) (y >>= g) := by
  cases x with
  | error e =>
    cases y with
    | error e' => exact h
    | ok b => exact h.elim
  | ok a =>
    cases y with
    | error e' => exact h.elim
    | ok b => exact hf a b h

theorem RelP.self {α : Type} {R : α → α → Prop} (x : P α) (h : ∀ a, R a a) : RelP R x x := by
  cases x with
  | error e => exact rfl
  | ok a => exact h a

theorem RelP.eq {α : Type} {x y : P α} (h : RelP Eq x y) : x = y := by
  cases x <;> cases y <;> simp_all [RelP]

/-- Like contexts. -/
structure Ctx.Like (c d : Ctx E) : Prop where
  cur : c.cur.Like d.cur
  env : d.env = c.env

/-- Like states. -/
structure St.Like (s t : St E) : Prop where
  ctx : s.ctx.Like t.ctx
  res : t.res = s.res

/-- The same result and like states. -/
def Both {α : Type} {σ : Type} (R : σ → σ → Prop) (x y : α × σ) : Prop := y.1 = x.1 ∧ R x.2 y.2

theorem Cursor.Like.search {c d : Cursor} (h : c.Like d) (s e : Nat) : d.searchRange s e = c.searchRange s e := by
  simp only [Cursor.searchRange, h.buf]

theorem Cursor.Like.block {c d : Cursor} (h : c.Like d) : d.searchBlock = c.searchBlock := by
  simp only [Cursor.searchBlock, h.search, h.start, h.stop]

theorem next_in_block {c : Cursor} {s : Nat} (h1 : s ≤ c.stop) (h2 : c.stop ≤ c.buf.length) :
    ∃ r, c.nextNewlineInRange (.included s) (.excluded c.stop) = .ok r := by
  simp only [Cursor.nextNewlineInRange, bounded_ok h1 h2, bind, Except.bind]
  exact ⟨_, rfl⟩

/-- `set_start` cannot fail inside a block. -/
theorem setStart_frame {c : Cursor} (h : c.stop ≤ c.buf.length) (s : Nat) :
    ∃ c', c.setStart s = .ok c' ∧ c'.buf = c.buf ∧ c'.start = min s c.stop ∧ c'.stop = c.stop := by
  unfold Cursor.setStart
  obtain ⟨r, hr⟩ := next_in_block (c := { c with start := min s c.stop }) (s := min s c.stop) (Nat.min_le_right _ _) h
  dsimp only at hr ⊢
  split
  · split
    · rw [hr]; exact ⟨_, rfl, rfl, rfl, rfl⟩
    · exact ⟨_, rfl, rfl, rfl, rfl⟩
  · split
    · rw [hr]; exact ⟨_, rfl, rfl, rfl, rfl⟩
    · exact ⟨_, rfl, rfl, rfl, rfl⟩

theorem Cursor.Like.setStart {c d : Cursor} (h : c.Like d) (s : Nat) : RelP Cursor.Like (c.setStart s) (d.setStart s) := by
  obtain ⟨c', e1, e2, e3, e4⟩ := setStart_frame h.hi s
  obtain ⟨d', f1, f2, f3, f4⟩ := setStart_frame (c := d) (by rw [h.stop, h.buf]; exact h.hi) s
  rw [e1, f1]
  exact ⟨by rw [e2, f2, h.buf], by rw [e3, f3, h.stop], by rw [e4, f4, h.stop], by rw [e4, e2]; exact h.hi⟩

theorem Cursor.Like.reset {c d : Cursor} (h : c.Like d) : RelP Cursor.Like c.reset d.reset := by
  unfold Cursor.reset
  rw [h.buf]
  refine RelP.bind (R := fun a b => True) (RelP.self _ fun _ => trivial) ?_
  intro a b _
  exact ⟨rfl, rfl, rfl, Nat.le_refl _⟩

theorem Cursor.Like.setBounds {c d : Cursor} (h : c.Like d) (r : Rng) : RelP Cursor.Like (c.setBounds r) (d.setBounds r) := by
  unfold Cursor.setBounds
  rw [h.buf]
  cases hb : Cursor.bounded c.buf (.included r.start) (.excluded r.stop) with
  | error e => exact rfl
  | ok r' =>
    obtain ⟨rfl, h1, h2⟩ := bounded_inv hb
    refine RelP.bind (R := fun a b => a = b ∧ a.stop ≤ c.buf.length) (x := .ok (⟨r.start, r.stop⟩ : Rng)) ⟨rfl, h2⟩ ?_
    rintro a _ ⟨rfl, h3⟩
    dsimp only
    refine RelP.bind (R := fun _ _ => True) ?_ ?_
    · simp only [Cursor.nextNewlineFrom, Cursor.nextNewlineInRange]
      exact RelP.bind (R := fun _ _ => True) (RelP.self _ fun _ => trivial) fun _ _ _ => trivial
    · intro _ _ _
      exact ⟨rfl, rfl, rfl, h3⟩

theorem finish_like {c d : Ctx E} (h : c.Like d) (res : Option MatchResult × E) :
    RelP (Both Ctx.Like) (Rule.finish c res) (Rule.finish d res) := by
  unfold Rule.finish
  split
  · exact ⟨rfl, h⟩
  · split
    · refine RelP.bind (h.cur.setStart _) ?_
      intro a b hab
      exact ⟨rfl, hab, rfl⟩
    · exact ⟨rfl, h.cur, rfl⟩

theorem rule_like {r : Rule E} (hr : r.IsPlain) {c d : Ctx E} (h : c.Like d) : RelP (Both Ctx.Like) (r.apply c) (r.apply d) := by
  obtain ⟨p, rfl⟩ := hr
  simp only [Rule.apply, Rule.applyPlain]
  rw [h.cur.block, h.cur.buf, h.env]
  refine RelP.bind (R := Eq) (RelP.self _ fun _ => rfl) ?_
  rintro a _ rfl
  exact finish_like h _

theorem dag_like (x : Dag E) {c d : Ctx E} (h : c.Like d) : RelP (Both Ctx.Like) (x.apply c) (x.apply d) := by
  unfold Dag.apply
  rw [h.cur.block, h.cur.buf, h.env]
  refine RelP.bind (R := Eq) (RelP.self _ fun _ => rfl) ?_
  rintro a _ rfl
  split
  · exact ⟨rfl, h⟩
  · rename_i ms pos env' _
    have key : ∀ u v : Cursor, u.Like v → RelP (Both Ctx.Like)
        (if ms.isOk = true then Except.ok (some ms, (⟨u, env'⟩ : Ctx E)) else Except.ok (some ms, c))
        (if ms.isOk = true then Except.ok (some ms, (⟨v, env'⟩ : Ctx E)) else Except.ok (some ms, d)) := by
      intro u v huv
      split
      · exact ⟨rfl, huv, rfl⟩
      · exact ⟨rfl, h⟩
    cases pos with
    | none => exact key _ _ h.cur
    | some p => exact RelP.bind (h.cur.setStart p) key

theorem not_like (p : Pat E) (r : Rng) {s t : St E} (h : s.Like t) : RelP (Both St.Like) (checkNot p r s) (checkNot p r t) := by
  unfold checkNot
  rw [h.ctx.cur.buf, h.ctx.env]
  split
  · exact ⟨rfl, ⟨h.ctx.cur, rfl⟩, h.res⟩
  · split
    · exact ⟨rfl, ⟨h.ctx.cur, rfl⟩, h.res⟩
    · exact rfl
    · exact ⟨rfl, ⟨h.ctx.cur, rfl⟩, h.res⟩

theorem St.Like.pass {s t : St E} (h : s.Like t) (n : Nat) : (s.pass n).Like (t.pass n) := ⟨h.ctx, by simp only [St.pass, h.res]⟩
theorem St.Like.fail {s t : St E} (h : s.Like t) (f : Failure) : (s.fail f).Like (t.fail f) := ⟨h.ctx, by simp only [St.fail, h.res]⟩

theorem excl_like (p : Pat E) (r : Rng) {s t : St E} (h : s.Like t) : RelP (Both St.Like) (excl p r s) (excl p r t) := by
  unfold excl
  refine RelP.bind (not_like p r h) ?_
  rintro ⟨a, s'⟩ ⟨b, t'⟩ ⟨e, h'⟩
  dsimp only at e h'
  subst e
  dsimp only
  split
  · exact ⟨rfl, h'.pass _⟩
  · exact ⟨rfl, h'⟩
  · exact ⟨rfl, h'⟩

/-- `RelP (Both St.Like)` for triples. -/
def Both3 {α β : Type} (x y : α × β × St E) : Prop := y.1 = x.1 ∧ y.2.1 = x.2.1 ∧ x.2.2.Like y.2.2

theorem ordered_like : ∀ (rs : List (Rule E)), (∀ r ∈ rs, r.IsPlain) → ∀ (acc : List Matches) {s t : St E}, s.Like t →
    RelP Both3 (orderedLoop rs acc s) (orderedLoop rs acc t)
  | [], _, acc, s, t, h => ⟨rfl, rfl, h⟩
  | r :: rs, hr, acc, s, t, h => by
    unfold orderedLoop
    refine RelP.bind (rule_like (hr r (by simp)) h.ctx) ?_
    rintro ⟨m, c⟩ ⟨m', c'⟩ ⟨e, h'⟩
    dsimp only at e h'
    subst e
    have h2 : St.Like (E := E) { s with ctx := c } { t with ctx := c' } := ⟨h', h.res⟩
    dsimp only
    split
    · split
      · exact ordered_like rs (fun x hx => hr x (by simp [hx])) _ h2
      · split
        · exact ⟨rfl, rfl, h2.fail _⟩
        · exact ⟨rfl, rfl, h2.fail _⟩
    · exact ordered_like rs (fun x hx => hr x (by simp [hx])) _ (h2.fail _)

theorem repeated_like {r : Rule E} (hr : r.IsPlain) : ∀ (n : Nat) (acc : List Matches) {s t : St E}, s.Like t →
    RelP Both3 (repeatedLoop r n acc s) (repeatedLoop r n acc t)
  | 0, acc, s, t, h => ⟨rfl, rfl, h⟩
  | n + 1, acc, s, t, h => by
    unfold repeatedLoop
    refine RelP.bind (rule_like hr h.ctx) ?_
    rintro ⟨m, c⟩ ⟨m', c'⟩ ⟨e, h'⟩
    dsimp only at e h'
    subst e
    have h2 : St.Like (E := E) { s with ctx := c } { t with ctx := c' } := ⟨h', h.res⟩
    dsimp only
    split
    · split
      · split
        · exact ⟨rfl, rfl, h2.fail _⟩
        · exact repeated_like hr n _ h2
      · exact repeated_like hr n _ h2
    · exact ⟨rfl, rfl, h2.fail _⟩

theorem expect_like {x y : GR × St E} (h : Both St.Like x y) : RelP Both3 (expectNoErr x) (expectNoErr y) := by
  obtain ⟨a, s⟩ := x
  obtain ⟨b, t⟩ := y
  obtain ⟨e, h⟩ := h
  dsimp only at e h
  subst e
  cases b with
  | matched ms => exact ⟨rfl, rfl, h⟩
  | unmatched ms => exact ⟨rfl, rfl, h⟩
  | err f => exact rfl

theorem combine_like (left : Option Matches) (right : GR) {s t : St E} (h : s.Like t) :
    RelP (Both St.Like) (combineBounded left right s) (combineBounded left right t) := by
  unfold combineBounded
  split
  · split
    · exact rfl
    · refine RelP.bind (R := Eq) (RelP.self _ fun _ => rfl) ?_
      rintro a _ rfl
      split
      · exact rfl
      · split
        · refine RelP.bind (R := Eq) (RelP.self _ fun _ => rfl) ?_
          rintro a _ rfl
          exact ⟨rfl, h⟩
        · exact ⟨rfl, h.fail _⟩
  · split
    · refine RelP.bind (R := Eq) (RelP.self _ fun _ => rfl) ?_
      rintro a _ rfl
      split
      · exact ⟨rfl, h⟩
      · exact ⟨rfl, h⟩
    · exact ⟨rfl, h.fail _⟩
  · split
    · refine RelP.bind (R := Eq) (RelP.self _ fun _ => rfl) ?_
      rintro a _ rfl
      split
      · exact ⟨rfl, h.fail _⟩
      · exact ⟨rfl, h.fail _⟩
    · exact ⟨rfl, (h.fail _).fail _⟩

theorem around_like (root : Pat E) (e : Nat) (m : List Matches) {x y : Bool × List Matches × St E} (h : Both3 x y) :
    RelP (Both St.Like) (aroundAfterLeft root e m x) (aroundAfterLeft root e m y) := by
  obtain ⟨a, ms, s⟩ := x
  obtain ⟨b, ms', t⟩ := y
  obtain ⟨e1, e2, h⟩ := h
  dsimp only at e1 e2 h
  subst e1; subst e2
  cases b with
  | false => exact ⟨rfl, h.pass _⟩
  | true =>
    unfold aroundAfterLeft
    dsimp only
    refine RelP.bind (R := Eq) (RelP.self _ fun _ => rfl) ?_
    rintro a _ rfl
    refine RelP.bind (R := Eq) (RelP.self _ fun _ => rfl) ?_
    rintro a _ rfl
    rw [h.ctx.cur.search]
    refine RelP.bind (R := Eq) (RelP.self _ fun _ => rfl) ?_
    rintro a _ rfl
    refine RelP.bind (excl_like root _ h) ?_
    rintro ⟨u, s'⟩ ⟨v, t'⟩ ⟨e, h'⟩
    dsimp only at e h'
    subst e
    exact ⟨rfl, h'⟩

theorem aroundNo_like (root : Pat E) (e : Nat) (m : List Matches) {x y : Bool × List Matches × St E} (h : Both3 x y) :
    RelP (Both St.Like) (aroundNoLeft root e m x) (aroundNoLeft root e m y) := by
  obtain ⟨a, ms, s⟩ := x
  obtain ⟨b, ms', t⟩ := y
  obtain ⟨e1, e2, h⟩ := h
  dsimp only at e1 e2 h
  subst e1; subst e2
  cases b with
  | false => exact ⟨rfl, h.pass _⟩
  | true =>
    unfold aroundNoLeft
    dsimp only
    refine RelP.bind (R := Eq) (RelP.self _ fun _ => rfl) ?_
    rintro a _ rfl
    refine RelP.bind (R := Eq) (RelP.self _ fun _ => rfl) ?_
    rintro a _ rfl
    rw [h.ctx.cur.search]
    refine RelP.bind (R := Eq) (RelP.self _ fun _ => rfl) ?_
    rintro a _ rfl
    refine RelP.bind (excl_like root _ h) ?_
    rintro ⟨u, s'⟩ ⟨v, t'⟩ ⟨e, h'⟩
    dsimp only at e h'
    subst e
    exact ⟨rfl, h'⟩

theorem after_like (root : Pat E) (e : Nat) {x y : Bool × List Matches × St E} (h : Both3 x y) :
    RelP (Both St.Like) (afterAfter root e x) (afterAfter root e y) := by
  obtain ⟨a, ms, s⟩ := x
  obtain ⟨b, ms', t⟩ := y
  obtain ⟨e1, e2, h⟩ := h
  dsimp only at e1 e2 h
  subst e1; subst e2
  cases b with
  | false => exact ⟨rfl, h.pass _⟩
  | true =>
    unfold afterAfter
    dsimp only
    refine RelP.bind (R := Eq) (RelP.self _ fun _ => rfl) ?_
    rintro a _ rfl
    refine RelP.bind (R := Eq) (RelP.self _ fun _ => rfl) ?_
    rintro a _ rfl
    rw [h.ctx.cur.search]
    refine RelP.bind (R := Eq) (RelP.self _ fun _ => rfl) ?_
    rintro a _ rfl
    refine RelP.bind (excl_like root _ h) ?_
    rintro ⟨u, s'⟩ ⟨v, t'⟩ ⟨e, h'⟩
    dsimp only at e h'
    subst e
    exact ⟨rfl, h'⟩

theorem before_like (root : Pat E) (e : Nat) {x y : Bool × List Matches × St E} (h : Both3 x y) :
    RelP (Both St.Like) (afterBefore root e x) (afterBefore root e y) := by
  obtain ⟨a, ms, s⟩ := x
  obtain ⟨b, ms', t⟩ := y
  obtain ⟨e1, e2, h⟩ := h
  dsimp only at e1 e2 h
  subst e1; subst e2
  unfold afterBefore
  cases b with
  | false =>
    dsimp only
    rw [h.ctx.cur.search, h.ctx.cur.stop]
    refine RelP.bind (R := Eq) (RelP.self _ fun _ => rfl) ?_
    rintro a _ rfl
    refine RelP.bind (excl_like root _ h) ?_
    rintro ⟨u, s'⟩ ⟨v, t'⟩ ⟨e, h'⟩
    dsimp only at e h'
    subst e
    exact ⟨rfl, h'⟩
  | true =>
    dsimp only
    refine RelP.bind (R := Eq) (RelP.self _ fun _ => rfl) ?_
    rintro a _ rfl
    rw [h.ctx.cur.block]
    refine RelP.bind (R := Eq) (RelP.self _ fun _ => rfl) ?_
    rintro a _ rfl
    refine RelP.bind (excl_like root _ h) ?_
    rintro ⟨u, s'⟩ ⟨v, t'⟩ ⟨e, h'⟩
    dsimp only at e h'
    subst e
    exact ⟨rfl, h'⟩

mutual
theorem group_like : ∀ (g : Group E), g.Lineless → ∀ {s t : St E}, s.Like t → RelP (Both St.Like) (checkGroup g s) (checkGroup g t)
  | .never p, _, s, t, h => by
    unfold checkGroup checkNever
    rw [h.ctx.cur.block]
    refine RelP.bind (R := Eq) (RelP.self _ fun _ => rfl) ?_
    rintro a _ rfl
    refine RelP.bind (not_like p _ h) ?_
    rintro ⟨u, s'⟩ ⟨v, t'⟩ ⟨e, h'⟩
    dsimp only at e h'
    subst e
    dsimp only
    split
    · exact ⟨rfl, h'.pass _⟩
    · exact ⟨rfl, h'⟩
    · exact ⟨rfl, h'⟩
  | .ordered rs, hg, s, t, h => by
    unfold checkGroup checkOrdered
    rw [Group.Lineless] at hg
    refine RelP.bind (ordered_like rs hg [] h) ?_
    rintro ⟨u, ms, s'⟩ ⟨v, ms', t'⟩ ⟨e1, e2, h'⟩
    dsimp only at e1 e2 h'
    subst e1; subst e2
    dsimp only
    split
    · refine RelP.bind (R := Eq) (RelP.self _ fun _ => rfl) ?_
      rintro a _ rfl
      split
      · exact ⟨rfl, h'⟩
      · exact ⟨rfl, h'⟩
    · exact ⟨rfl, h'⟩
  | .repeated r n, hg, s, t, h => by
    unfold checkGroup checkRepeated
    rw [Group.Lineless] at hg
    refine RelP.bind (repeated_like hg n [] h) ?_
    rintro ⟨u, ms, s'⟩ ⟨v, ms', t'⟩ ⟨e1, e2, h'⟩
    dsimp only at e1 e2 h'
    subst e1; subst e2
    dsimp only
    split
    · exact ⟨rfl, h'⟩
    · exact ⟨rfl, h'⟩
  | .unordered d, _, s, t, h => by
    unfold checkGroup checkUnordered
    refine RelP.bind (dag_like d h.ctx) ?_
    rintro ⟨m, c⟩ ⟨m', c'⟩ ⟨e, h'⟩
    dsimp only at e h'
    subst e
    have h2 : St.Like (E := E) { s with ctx := c } { t with ctx := c' } := ⟨h', h.res⟩
    dsimp only
    split
    · refine RelP.bind (R := Eq) (RelP.self _ fun _ => rfl) ?_
      rintro a _ rfl
      split
      · exact ⟨rfl, h2⟩
      · exact ⟨rfl, h2⟩
    · exact ⟨rfl, h2.fail _⟩
  | .bounded d g, hg, s, t, h => by
    unfold checkGroup
    rw [Group.Lineless] at hg
    refine RelP.bind (dag_like d h.ctx) ?_
    rintro ⟨m, c⟩ ⟨m', c'⟩ ⟨e, h'⟩
    dsimp only at e h'
    subst e
    have h2 : St.Like (E := E) { s with ctx := c } { t with ctx := c' } := ⟨h', h.res⟩
    refine RelP.bind (group_like g hg h2) ?_
    rintro ⟨u, s'⟩ ⟨v, t'⟩ ⟨e, h'⟩
    dsimp only at e h'
    subst e
    exact combine_like _ _ h'
  | .tree t, hg, s, u, h => by
    unfold checkGroup
    rw [Group.Lineless] at hg
    exact tree_like t hg h
theorem tree_like : ∀ (t : Tree E), t.Lineless → ∀ {s u : St E}, s.Like u → RelP (Both St.Like) (checkTree t s) (checkTree t u)
  | .matchAll g, hg, s, t, h => by
    unfold checkTree
    rw [Tree.Lineless] at hg
    exact group_like g hg h
  | .matchAround root l r, hg, s, t, h => by
    unfold checkTree
    rw [Tree.Lineless] at hg
    refine RelP.bind (tree_like l hg.1 h) ?_
    intro x y hxy
    refine RelP.bind (expect_like hxy) ?_
    rintro ⟨u, ms, s'⟩ ⟨v, ms', t'⟩ ⟨e1, e2, h'⟩
    dsimp only at e1 e2 h'
    subst e1; subst e2
    dsimp only
    split
    · refine RelP.bind (R := Eq) (RelP.self _ fun _ => rfl) ?_
      rintro a _ rfl
      refine RelP.bind (R := Eq) (RelP.self _ fun _ => rfl) ?_
      rintro a _ rfl
      refine RelP.bind (tree_like r hg.2 h') ?_
      intro x y hxy
      refine RelP.bind (expect_like hxy) ?_
      intro x y hxy
      exact around_like root _ _ hxy
    · refine RelP.bind (tree_like r hg.2 h') ?_
      intro x y hxy
      refine RelP.bind (expect_like hxy) ?_
      intro x y hxy
      rw [h'.ctx.cur.start]
      exact aroundNo_like root _ _ hxy
  | .matchBefore root l, hg, s, t, h => by
    unfold checkTree
    rw [Tree.Lineless] at hg
    refine RelP.bind (tree_like l hg h) ?_
    intro x y hxy
    refine RelP.bind (expect_like hxy) ?_
    intro x y hxy
    rw [h.ctx.cur.start]
    exact before_like root _ hxy
  | .matchAfter root r, hg, s, t, h => by
    unfold checkTree
    rw [Tree.Lineless] at hg
    refine RelP.bind (tree_like r hg h) ?_
    intro x y hxy
    refine RelP.bind (expect_like hxy) ?_
    intro x y hxy
    rw [h.ctx.cur.start]
    exact after_like root _ hxy
end

theorem one_like {g : Group E} (hg : g.Lineless) {s t : St E} (h : s.Like t) : RelP St.Like (checkOne g s) (checkOne g t) := by
  unfold checkOne
  refine RelP.bind (group_like g hg h) ?_
  rintro ⟨u, s'⟩ ⟨v, t'⟩ ⟨e, h'⟩
  dsimp only at e h'
  subst e
  cases v with
  | matched ms => exact ⟨h'.ctx, by simp only [h'.res]⟩
  | unmatched ms => exact ⟨h'.ctx, by simp only [h'.res]⟩
  | err f => exact h'.fail _

theorem groupSections_like : ∀ (ss : List (Section E)), Lineless ss → ∀ {s t : St E}, s.Like t →
    RelP St.Like (checkGroupSections ss s) (checkGroupSections ss t)
  | [], _, s, t, h => h
  | .group g :: ss, hl, s, t, h => by
    unfold checkGroupSections
    obtain ⟨g', e, hg⟩ := hl (.group g) (by simp)
    cases e
    exact RelP.bind (one_like hg h) fun a b hab => groupSections_like ss (fun x hx => hl x (by simp [hx])) hab
  | .block p b :: ss, hl, s, t, h => by
    obtain ⟨g', e, hg⟩ := hl (.block p b) (by simp)
    cases e

theorem sections_like {prog : List (Section E)} (hl : Lineless prog) (r : Rng) {s t : St E} (h : s.Like t) :
    RelP St.Like (checkSections prog r s) (checkSections prog r t) := by
  unfold checkSections
  split
  · exact h
  · refine RelP.bind (R := Eq) (RelP.self _ fun _ => rfl) ?_
    rintro a _ rfl
    split
    · refine groupSections_like _ ?_ h
      intro x hx
      exact hl x (List.mem_of_mem_take (List.mem_of_mem_drop hx))
    · split
      · rename_i p b he
        obtain ⟨g', e, hg⟩ := hl _ (List.mem_of_getElem? he)
        cases e
      · rename_i g he
        refine groupSections_like _ ?_ h
        intro x hx
        rw [List.mem_singleton] at hx
        subst hx
        exact hl _ (List.mem_of_getElem? he)
      · exact rfl

theorem block_like {v : Bool} {clear : E → E} {prog : List (Section E)} (hl : Lineless prog) (b : BlockInfo) {s t : St E} (h : s.Like t) :
    RelP St.Like (checkBlock v clear prog b s) (checkBlock v clear prog b t) := by
  have key : ∀ {s t : St E}, s.Like t → RelP St.Like
      (if b.start.isNone then .ok s else do
        let r ← b.range
        let cur ← s.ctx.cur.setBounds r
        checkSections prog b.sections { s with ctx := ⟨cur, if v then clear s.ctx.env else s.ctx.env⟩ })
      (if b.start.isNone then .ok t else do
        let r ← b.range
        let cur ← t.ctx.cur.setBounds r
        checkSections prog b.sections { t with ctx := ⟨cur, if v then clear t.ctx.env else t.ctx.env⟩ }) := by
    intro s t h
    split
    · exact h
    · refine RelP.bind (R := Eq) (RelP.self _ fun _ => rfl) ?_
      rintro a _ rfl
      refine RelP.bind (h.ctx.cur.setBounds a) ?_
      intro c d hcd
      refine sections_like hl _ ⟨⟨hcd, ?_⟩, h.res⟩
      simp only [h.ctx.env]
  unfold checkBlock
  split
  · exact key ⟨h.ctx, by simp only [h.res]⟩
  · exact key h

theorem blocks_like {v : Bool} {clear : E → E} {prog : List (Section E)} (hl : Lineless prog) : ∀ (bs : List BlockInfo) {s t : St E}, s.Like t →
    RelP St.Like (checkBlocks v clear prog bs s) (checkBlocks v clear prog bs t)
  | [], s, t, h => h
  | b :: bs, s, t, h => by
    unfold checkBlocks
    exact RelP.bind (block_like hl b h) fun _ _ h' => blocks_like hl bs h'

theorem discoverLoop_lineless {eof : Nat} {env : E} {c : Cursor} {errs : List Failure} {acc : List BlockInfo} :
    ∀ (ss : List (Section E)) (_ : Lineless ss) (i : Nat), discoverLoop eof env ss i c acc errs = .ok (acc, errs)
  | [], _, _ => rfl
  | .group g :: ss, hl, i => by
    rw [discoverLoop]
    exact discoverLoop_lineless ss (fun x hx => hl x (by simp [hx])) _
  | .block p b :: ss, hl, i => by
    obtain ⟨g', e, hg⟩ := hl (.block p b) (by simp)
    cases e

theorem discover_like {prog : List (Section E)} (hl : Lineless prog) {c d : Ctx E} (h : c.Like d) :
    RelP (Both Ctx.Like) (discoverBlocks prog c) (discoverBlocks prog d) := by
  unfold discoverBlocks
  rw [h.cur.buf]
  simp only [discoverLoop_lineless prog hl]
  refine RelP.bind (R := Eq) (RelP.self _ fun _ => rfl) ?_
  rintro a _ rfl
  refine RelP.bind h.cur.reset ?_
  intro u v huv
  split
  · exact ⟨rfl, huv, h.env⟩
  · exact ⟨rfl, huv, h.env⟩

/-- `check_input`, from a given cursor. -/
def checkInputFrom (cur : Cursor) (o : CheckOpts) (clear : E → E) (prog : List (Section E)) (env : E) : P TestResult := do
  let c : Ctx E := ⟨cur, env⟩
  if !o.allowEmpty && cur.buf.isEmpty then .ok (TestResult.fromErrors [⟨.emptyInput, false⟩])
  else do
    let (d, c) ← discoverBlocks prog c
    match d with
    | .error errs => .ok (TestResult.fromErrors errs)
    | .ok blocks => do
      let s ← checkBlocks o.enableVarScope clear prog blocks ⟨c, TestResult.new⟩
      .ok s.res

theorem checkInput_from {o : CheckOpts} {clear : E → E} {prog : List (Section E)} {env : E} {b : Buf} {cur : Cursor}
    (h : Cursor.new b = .ok cur) (hb : cur.buf = b) : checkInput o clear prog env b = checkInputFrom cur o clear prog env := by
  unfold checkInput checkInputFrom
  rw [h, hb]
  rfl

theorem from_like {o : CheckOpts} {clear : E → E} {prog : List (Section E)} (hl : Lineless prog) {env : E} {c d : Cursor} (h : c.Like d) :
    checkInputFrom c o clear prog env = checkInputFrom d o clear prog env := by
  refine RelP.eq ?_
  unfold checkInputFrom
  rw [h.buf]
  dsimp only
  split
  · exact rfl
  · refine RelP.bind (discover_like hl (c := ⟨c, env⟩) (d := ⟨d, env⟩) ⟨h, rfl⟩) ?_
    rintro ⟨u, s'⟩ ⟨v, t'⟩ ⟨e, h'⟩
    dsimp only at e h'
    subst e
    cases v with
    | error errs => exact rfl
    | ok bs =>
      refine RelP.bind (blocks_like hl bs (s := ⟨s', TestResult.new⟩) (t := ⟨t', TestResult.new⟩) ⟨h', rfl⟩) ?_
      intro a b hab
      exact hab.res.symm

/-- A cursor at the start of an input which looks for LF line endings. -/
theorem lf_cursor (b : Buf) : ∃ c : Cursor, c.WF ∧ c.buf = b ∧ c.start = 0 ∧ c.stop = b.length := by
  obtain ⟨nl, hnl⟩ := nextFrom_ok (b := b) (p := 0) (by omega)
  obtain ⟨_, ⟨n, h1, _⟩ | ⟨h1, rfl⟩⟩ := nextFrom_spec hnl
  · exact ⟨⟨b, 0, b.length, n, false⟩,
      ⟨rfl, Nat.zero_le _, Nat.le_refl _, Nat.zero_le _, Nat.le_of_lt h1.2.1.lt, h1.2.2, Or.inr h1.2.1, Or.inl rfl⟩, rfl, rfl, rfl⟩
  · exact ⟨⟨b, 0, b.length, b.length, false⟩,
      ⟨rfl, Nat.zero_le _, Nat.le_refl _, Nat.zero_le _, Nat.le_refl _, h1, Or.inl rfl, Or.inl rfl⟩, rfl, rfl, rfl⟩

/-- If the input has LF line endings, or the program does not look at lines, checking is as from a good cursor. -/
theorem checkInput_readable (o : CheckOpts) (clear : E → E) {prog : List (Section E)} (env : E) {b : Buf} (h : LFMode b ∨ Lineless prog) :
    ∃ c : Cursor, checkInput o clear prog env b = checkInputFrom c o clear prog env ∧ c.WF ∧ c.buf = b ∧ c.start = 0 ∧ c.stop = b.length := by
  rcases h with h | h
  · obtain ⟨c, h1, h2, h3, h4, h5⟩ := Cursor.new_wf h
    exact ⟨c, checkInput_from h1 h3, h2, h3, h4, h5⟩
  · obtain ⟨c, h2, h3, h4, h5⟩ := lf_cursor b
    obtain ⟨nl, hnl⟩ := nextFrom_ok (b := b) (p := 0) (by omega)
    have hnew : Cursor.new b = .ok ⟨b, 0, b.length, nl.offset, nl.isCrlf⟩ := by
      simp [Cursor.new, Newline.next, hnl, bind, Except.bind]
    refine ⟨c, ?_, h2, h3, h4, h5⟩
    rw [checkInput_from hnew rfl]
    exact from_like h ⟨h3, h4, h5, Nat.le_refl _⟩

end Litcheck
