import Verif.Proofs.Simulate

/-!
# Two runs side by side: the checker
-/

namespace Litcheck.Simulate
open Spec
variable {E : Type} {b b' : Buf} {R : E → E → Prop}

/-- Related triples. -/
def Trip (R : E → E → Prop) (b b' : Buf) {α β : Type} (x y : α × β × St E) : Prop := y.1 = x.1 ∧ y.2.1 = x.2.1 ∧ StSim R b b' x.2.2 y.2.2

mutual
/-- Related groups. -/
def GroupSim (R : E → E → Prop) (b b' : Buf) : Group E → Group E → Prop
  | .never p, .never p' => PatSim R b b' p p'
  | .unordered d, .unordered d' => DagSim R b b' d d'
  | .bounded d g, .bounded d' g' => DagSim R b b' d d' ∧ GroupSim R b b' g g'
  | .ordered rs, .ordered rs' => List.Forall₂ (RuleSim R b b') rs rs'
  | .repeated r n, .repeated r' n' => RuleSim R b b' r r' ∧ n' = n
  | .tree t, .tree t' => TreeSim R b b' t t'
  | _, _ => False
/-- Related trees. -/
def TreeSim (R : E → E → Prop) (b b' : Buf) : Tree E → Tree E → Prop
  | .matchAll g, .matchAll g' => GroupSim R b b' g g'
  | .matchAround p l r, .matchAround p' l' r' => PatSim R b b' p p' ∧ TreeSim R b b' l l' ∧ TreeSim R b b' r r'
  | .matchBefore p l, .matchBefore p' l' => PatSim R b b' p p' ∧ TreeSim R b b' l l'
  | .matchAfter p r, .matchAfter p' r' => PatSim R b b' p p' ∧ TreeSim R b b' r r'
  | _, _ => False
end

/-- Related sections. -/
def SectionSim (R : E → E → Prop) (b b' : Buf) : Section E → Section E → Prop
  | .block p body, .block p' body' => PatSim R b b' p p' ∧ List.Forall₂ (GroupSim R b b') body body'
  | .group g, .group g' => GroupSim R b b' g g'
  | _, _ => False

section
variable (hb : SameLines b b')
include hb

theorem ordered_sim : ∀ {rs rs' : List (Rule E)}, List.Forall₂ (RuleSim R b b') rs rs' → ∀ (acc : List Matches) {s t : St E}, StSim R b b' s t →
    RelP (Trip R b b') (orderedLoop rs acc s) (orderedLoop rs' acc t)
  | [], _, .nil, acc, s, t, h => ⟨rfl, rfl, h⟩
  | r :: rs, _, .cons (b := r') (l₂ := rs') hr hrs, acc, s, t, h => by
    unfold orderedLoop
    refine RelP.bind (rule_sim hb hr h.ctx) ?_
    rintro ⟨m, c⟩ ⟨m', c'⟩ ⟨e, h'⟩
    dsimp only at e h'
    subst e
    have h2 : StSim R b b' { s with ctx := c } { t with ctx := c' } := ⟨h', h.res⟩
    dsimp only
    split
    · split
      · exact ordered_sim hrs _ h2
      · cases hrs with
        | nil =>
          split
          · exact ⟨rfl, rfl, h2.fail _⟩
          · exact ⟨rfl, rfl, h2.fail _⟩
        | cons _ _ => split <;> split <;> first | contradiction | exact ⟨rfl, rfl, h2.fail _⟩
    · exact ordered_sim hrs _ (h2.fail _)

theorem repeated_sim {r r' : Rule E} (hr : RuleSim R b b' r r') : ∀ (n : Nat) (acc : List Matches) {s t : St E}, StSim R b b' s t →
    RelP (Trip R b b') (repeatedLoop r n acc s) (repeatedLoop r' n acc t)
  | 0, acc, s, t, h => ⟨rfl, rfl, h⟩
  | n + 1, acc, s, t, h => by
    unfold repeatedLoop
    refine RelP.bind (rule_sim hb hr h.ctx) ?_
    rintro ⟨m, c⟩ ⟨m', c'⟩ ⟨e, h'⟩
    dsimp only at e h'
    subst e
    have h2 : StSim R b b' { s with ctx := c } { t with ctx := c' } := ⟨h', h.res⟩
    dsimp only
    split
    · split
      · split
        · exact ⟨rfl, rfl, h2.fail _⟩
        · exact repeated_sim hr n _ h2
      · exact repeated_sim hr n _ h2
    · exact ⟨rfl, rfl, h2.fail _⟩

omit hb in
theorem stop_eq {s t : St E} (h : StSim R b b' s t) : t.ctx.cur.stop = s.ctx.cur.stop := by rw [h.ctx.cur.right]
omit hb in
theorem start_eq {s t : St E} (h : StSim R b b' s t) : t.ctx.cur.start = s.ctx.cur.start := by rw [h.ctx.cur.right]

omit hb in
theorem expect_sim {x y : GR × St E} (h : Both (StSim R b b') x y) : RelP (Trip R b b') (expectNoErr x) (expectNoErr y) := by
  obtain ⟨a, s⟩ := x
  obtain ⟨b0, t⟩ := y
  obtain ⟨e, h⟩ := h
  dsimp only at e h
  subst e
  cases b0 with
  | matched ms => exact ⟨rfl, rfl, h⟩
  | unmatched ms => exact ⟨rfl, rfl, h⟩
  | err f => exact rfl

omit hb in
theorem combine_sim (left : Option Matches) (right : GR) {s t : St E} (h : StSim R b b' s t) :
    RelP (Both (StSim R b b')) (combineBounded left right s) (combineBounded left right t) := by
  unfold combineBounded
  split
  · split
    · exact rfl
    · refine RelP.bind (R := Eq) (RelP.self _ fun _ => rfl) ?_
      rintro a _ rfl
      split
      · exact rfl
      · split
        · refine RelP.bind (R := Eq) (RelP.self _ fun _ => rfl) ?_
          rintro a _ rfl
          exact ⟨rfl, h⟩
        · exact ⟨rfl, h.fail _⟩
  · split
    · refine RelP.bind (R := Eq) (RelP.self _ fun _ => rfl) ?_
      rintro a _ rfl
      split
      · exact ⟨rfl, h⟩
      · exact ⟨rfl, h⟩
    · exact ⟨rfl, h.fail _⟩
  · split
    · refine RelP.bind (R := Eq) (RelP.self _ fun _ => rfl) ?_
      rintro a _ rfl
      split
      · exact ⟨rfl, h.fail _⟩
      · exact ⟨rfl, h.fail _⟩
    · exact ⟨rfl, (h.fail _).fail _⟩

theorem around_sim {root root' : Pat E} (hp : PatSim R b b' root root') (e : Nat) (m : List Matches) {x y : Bool × List Matches × St E} (h : (Trip R b b') x y) :
    RelP (Both (StSim R b b')) (aroundAfterLeft root e m x) (aroundAfterLeft root' e m y) := by
  obtain ⟨a, ms, s⟩ := x
  obtain ⟨b0, ms', t⟩ := y
  obtain ⟨e1, e2, h⟩ := h
  dsimp only at e1 e2 h
  subst e1; subst e2
  cases b0 with
  | false =>
    refine ⟨rfl, ?_⟩
    show StSim R b b' (s.pass root.len) (t.pass root'.len)
    rw [hp.len]
    exact h.pass _
  | true =>
    unfold aroundAfterLeft
    dsimp only
    refine RelP.bind (R := Eq) (RelP.self _ fun _ => rfl) ?_
    rintro a _ rfl
    refine RelP.bind (R := Eq) (RelP.self _ fun _ => rfl) ?_
    rintro a _ rfl
    rw [h.ctx.cur.search hb]
    refine RelP.bind (R := Eq) (RelP.self _ fun _ => rfl) ?_
    rintro a _ rfl
    refine RelP.bind (excl_sim hp _ h) ?_
    rintro ⟨u, s'⟩ ⟨v, t'⟩ ⟨e, h'⟩
    dsimp only at e h'
    subst e
    exact ⟨rfl, h'⟩

theorem aroundNo_sim {root root' : Pat E} (hp : PatSim R b b' root root') (e : Nat) (m : List Matches) {x y : Bool × List Matches × St E} (h : (Trip R b b') x y) :
    RelP (Both (StSim R b b')) (aroundNoLeft root e m x) (aroundNoLeft root' e m y) := by
  obtain ⟨a, ms, s⟩ := x
  obtain ⟨b0, ms', t⟩ := y
  obtain ⟨e1, e2, h⟩ := h
  dsimp only at e1 e2 h
  subst e1; subst e2
  cases b0 with
  | false =>
    refine ⟨rfl, ?_⟩
    show StSim R b b' (s.pass root.len) (t.pass root'.len)
    rw [hp.len]
    exact h.pass _
  | true =>
    unfold aroundNoLeft
    dsimp only
    refine RelP.bind (R := Eq) (RelP.self _ fun _ => rfl) ?_
    rintro a _ rfl
    refine RelP.bind (R := Eq) (RelP.self _ fun _ => rfl) ?_
    rintro a _ rfl
    rw [h.ctx.cur.search hb]
    refine RelP.bind (R := Eq) (RelP.self _ fun _ => rfl) ?_
    rintro a _ rfl
    refine RelP.bind (excl_sim hp _ h) ?_
    rintro ⟨u, s'⟩ ⟨v, t'⟩ ⟨e, h'⟩
    dsimp only at e h'
    subst e
    exact ⟨rfl, h'⟩

theorem after_sim {root root' : Pat E} (hp : PatSim R b b' root root') (e : Nat) {x y : Bool × List Matches × St E} (h : (Trip R b b') x y) :
    RelP (Both (StSim R b b')) (afterAfter root e x) (afterAfter root' e y) := by
  obtain ⟨a, ms, s⟩ := x
  obtain ⟨b0, ms', t⟩ := y
  obtain ⟨e1, e2, h⟩ := h
  dsimp only at e1 e2 h
  subst e1; subst e2
  cases b0 with
  | false =>
    refine ⟨rfl, ?_⟩
    show StSim R b b' (s.pass root.len) (t.pass root'.len)
    rw [hp.len]
    exact h.pass _
  | true =>
    unfold afterAfter
    dsimp only
    refine RelP.bind (R := Eq) (RelP.self _ fun _ => rfl) ?_
    rintro a _ rfl
    refine RelP.bind (R := Eq) (RelP.self _ fun _ => rfl) ?_
    rintro a _ rfl
    rw [h.ctx.cur.search hb]
    refine RelP.bind (R := Eq) (RelP.self _ fun _ => rfl) ?_
    rintro a _ rfl
    refine RelP.bind (excl_sim hp _ h) ?_
    rintro ⟨u, s'⟩ ⟨v, t'⟩ ⟨e, h'⟩
    dsimp only at e h'
    subst e
    exact ⟨rfl, h'⟩

theorem before_sim {root root' : Pat E} (hp : PatSim R b b' root root') (e : Nat) {x y : Bool × List Matches × St E} (h : (Trip R b b') x y) :
    RelP (Both (StSim R b b')) (afterBefore root e x) (afterBefore root' e y) := by
  obtain ⟨a, ms, s⟩ := x
  obtain ⟨b0, ms', t⟩ := y
  obtain ⟨e1, e2, h⟩ := h
  dsimp only at e1 e2 h
  subst e1; subst e2
  unfold afterBefore
  cases b0 with
  | false =>
    dsimp only
    rw [h.ctx.cur.search hb, stop_eq h]
    refine RelP.bind (R := Eq) (RelP.self _ fun _ => rfl) ?_
    rintro a _ rfl
    refine RelP.bind (excl_sim hp _ h) ?_
    rintro ⟨u, s'⟩ ⟨v, t'⟩ ⟨e, h'⟩
    dsimp only at e h'
    subst e
    exact ⟨rfl, h'⟩
  | true =>
    dsimp only
    refine RelP.bind (R := Eq) (RelP.self _ fun _ => rfl) ?_
    rintro a _ rfl
    rw [h.ctx.cur.block hb]
    refine RelP.bind (R := Eq) (RelP.self _ fun _ => rfl) ?_
    rintro a _ rfl
    refine RelP.bind (excl_sim hp _ h) ?_
    rintro ⟨u, s'⟩ ⟨v, t'⟩ ⟨e, h'⟩
    dsimp only at e h'
    subst e
    exact ⟨rfl, h'⟩

mutual
theorem group_sim : ∀ (g g' : Group E), GroupSim R b b' g g' → ∀ {s t : St E}, StSim R b b' s t →
    RelP (Both (StSim R b b')) (checkGroup g s) (checkGroup g' t)
  | .never p, g', hg, s, t, h => by
    cases g' <;> simp only [GroupSim] at hg
    unfold checkGroup checkNever
    rw [h.ctx.cur.block hb]
    refine RelP.bind (R := Eq) (RelP.self _ fun _ => rfl) ?_
    rintro a _ rfl
    refine RelP.bind (not_sim hg _ h) ?_
    rintro ⟨u, s'⟩ ⟨v, t'⟩ ⟨e, h'⟩
    dsimp only at e h'
    subst e
    dsimp only
    split
    · exact ⟨rfl, h'.pass _⟩
    · exact ⟨rfl, h'⟩
    · exact ⟨rfl, h'⟩
  | .ordered rs, g', hg, s, t, h => by
    cases g' <;> simp only [GroupSim] at hg
    unfold checkGroup checkOrdered
    refine RelP.bind (ordered_sim hb hg [] h) ?_
    rintro ⟨u, ms, s'⟩ ⟨v, ms', t'⟩ ⟨e1, e2, h'⟩
    dsimp only at e1 e2 h'
    subst e1; subst e2
    dsimp only
    split
    · refine RelP.bind (R := Eq) (RelP.self _ fun _ => rfl) ?_
      rintro a _ rfl
      split
      · exact ⟨rfl, h'⟩
      · exact ⟨rfl, h'⟩
    · exact ⟨rfl, h'⟩
  | .repeated r n, g', hg, s, t, h => by
    cases g' <;> simp only [GroupSim] at hg
    obtain ⟨hr, e⟩ := hg
    rw [e]
    unfold checkGroup checkRepeated
    refine RelP.bind (repeated_sim hb hr n [] h) ?_
    rintro ⟨u, ms, s'⟩ ⟨v, ms', t'⟩ ⟨e1, e2, h'⟩
    dsimp only at e1 e2 h'
    subst e1; subst e2
    dsimp only
    split
    · exact ⟨rfl, h'⟩
    · exact ⟨rfl, h'⟩
  | .unordered d, g', hg, s, t, h => by
    cases g' <;> simp only [GroupSim] at hg
    unfold checkGroup checkUnordered
    refine RelP.bind (dag_sim hb hg h.ctx) ?_
    rintro ⟨m, c⟩ ⟨m', c'⟩ ⟨e, h'⟩
    dsimp only at e h'
    subst e
    have h2 : StSim R b b' { s with ctx := c } { t with ctx := c' } := ⟨h', h.res⟩
    dsimp only
    split
    · refine RelP.bind (R := Eq) (RelP.self _ fun _ => rfl) ?_
      rintro a _ rfl
      split
      · exact ⟨rfl, h2⟩
      · exact ⟨rfl, h2⟩
    · exact ⟨rfl, h2.fail _⟩
  | .bounded d g, g', hg, s, t, h => by
    cases g' <;> simp only [GroupSim] at hg
    unfold checkGroup
    refine RelP.bind (dag_sim hb hg.1 h.ctx) ?_
    rintro ⟨m, c⟩ ⟨m', c'⟩ ⟨e, h'⟩
    dsimp only at e h'
    subst e
    have h2 : StSim R b b' { s with ctx := c } { t with ctx := c' } := ⟨h', h.res⟩
    refine RelP.bind (group_sim g _ hg.2 h2) ?_
    rintro ⟨u, s'⟩ ⟨v, t'⟩ ⟨e, h'⟩
    dsimp only at e h'
    subst e
    exact combine_sim _ _ h'
  | .tree t, g', hg, s, u, h => by
    cases g' <;> simp only [GroupSim] at hg
    unfold checkGroup
    exact tree_sim t _ hg h
theorem tree_sim : ∀ (t t' : Tree E), TreeSim R b b' t t' → ∀ {s u : St E}, StSim R b b' s u →
    RelP (Both (StSim R b b')) (checkTree t s) (checkTree t' u)
  | .matchAll g, t', hg, s, t, h => by
    cases t' <;> simp only [TreeSim] at hg
    unfold checkTree
    exact group_sim g _ hg h
  | .matchAround root l r, t', hg, s, t, h => by
    cases t' <;> simp only [TreeSim] at hg
    unfold checkTree
    refine RelP.bind (tree_sim l _ hg.2.1 h) ?_
    intro x y hxy
    refine RelP.bind (expect_sim hxy) ?_
    rintro ⟨u, ms, s'⟩ ⟨v, ms', t'⟩ ⟨e1, e2, h'⟩
    dsimp only at e1 e2 h'
    subst e1; subst e2
    dsimp only
    split
    · refine RelP.bind (R := Eq) (RelP.self _ fun _ => rfl) ?_
      rintro a _ rfl
      refine RelP.bind (R := Eq) (RelP.self _ fun _ => rfl) ?_
      rintro a _ rfl
      refine RelP.bind (tree_sim r _ hg.2.2 h') ?_
      intro x y hxy
      refine RelP.bind (expect_sim hxy) ?_
      intro x y hxy
      exact around_sim hb hg.1 _ _ hxy
    · refine RelP.bind (tree_sim r _ hg.2.2 h') ?_
      intro x y hxy
      refine RelP.bind (expect_sim hxy) ?_
      intro x y hxy
      rw [start_eq h']
      exact aroundNo_sim hb hg.1 _ _ hxy
  | .matchBefore root l, t', hg, s, t, h => by
    cases t' <;> simp only [TreeSim] at hg
    unfold checkTree
    refine RelP.bind (tree_sim l _ hg.2 h) ?_
    intro x y hxy
    refine RelP.bind (expect_sim hxy) ?_
    intro x y hxy
    rw [start_eq h]
    exact before_sim hb hg.1 _ hxy
  | .matchAfter root r, t', hg, s, t, h => by
    cases t' <;> simp only [TreeSim] at hg
    unfold checkTree
    refine RelP.bind (tree_sim r _ hg.2 h) ?_
    intro x y hxy
    refine RelP.bind (expect_sim hxy) ?_
    intro x y hxy
    rw [start_eq h]
    exact after_sim hb hg.1 _ hxy
end

theorem one_sim {g g' : Group E} (hg : GroupSim R b b' g g') {s t : St E} (h : StSim R b b' s t) :
    RelP (StSim R b b') (checkOne g s) (checkOne g' t) := by
  unfold checkOne
  refine RelP.bind (group_sim hb g g' hg h) ?_
  rintro ⟨u, s'⟩ ⟨v, t'⟩ ⟨e, h'⟩
  dsimp only at e h'
  subst e
  cases v with
  | matched ms => exact ⟨h'.ctx, by simp only [h'.res]⟩
  | unmatched ms => exact ⟨h'.ctx, by simp only [h'.res]⟩
  | err f => exact h'.fail _

theorem groups_sim : ∀ {gs gs' : List (Group E)}, List.Forall₂ (GroupSim R b b') gs gs' → ∀ {s t : St E}, StSim R b b' s t →
    RelP (StSim R b b') (checkGroups gs s) (checkGroups gs' t)
  | _, _, .nil, s, t, h => h
  | _, _, .cons hg hgs, s, t, h => by
    unfold checkGroups
    exact RelP.bind (one_sim hb hg h) fun _ _ h' => groups_sim hgs h'

theorem groupSections_sim : ∀ {ss ss' : List (Section E)}, List.Forall₂ (SectionSim R b b') ss ss' → ∀ {s t : St E}, StSim R b b' s t →
    RelP (StSim R b b') (checkGroupSections ss s) (checkGroupSections ss' t)
  | _, _, .nil, s, t, h => h
  | .group g :: _, .group g' :: _, .cons hg hgs, s, t, h => by
    unfold checkGroupSections
    exact RelP.bind (one_sim hb (by simpa only [SectionSim] using hg) h) fun _ _ h' => groupSections_sim hgs h'
  | .block p body :: _, .block p' body' :: _, .cons hg hgs, s, t, h => rfl
  | .group g :: _, .block p' body' :: _, .cons hg hgs, s, t, h => by simp only [SectionSim] at hg
  | .block p body :: _, .group g :: _, .cons hg hgs, s, t, h => by simp only [SectionSim] at hg

omit hb in
theorem get_sim {prog prog' : List (Section E)} (hs : List.Forall₂ (SectionSim R b b') prog prog') : ∀ (i : Nat),
    (prog[i]? = none ∧ prog'[i]? = none) ∨ ∃ x x', prog[i]? = some x ∧ prog'[i]? = some x' ∧ SectionSim R b b' x x' := by
  induction hs with
  | nil => intro i; exact .inl ⟨rfl, rfl⟩
  | cons hx _ ih =>
    intro i
    cases i with
    | zero => exact .inr ⟨_, _, rfl, rfl, hx⟩
    | succ i => simpa using ih i

theorem sections_sim {prog prog' : List (Section E)} (hs : List.Forall₂ (SectionSim R b b') prog prog') (r : Rng) {s t : St E} (h : StSim R b b' s t) :
    RelP (StSim R b b') (checkSections prog r s) (checkSections prog' r t) := by
  unfold checkSections
  split
  · exact h
  · refine RelP.bind (R := Eq) (RelP.self _ fun _ => rfl) ?_
    rintro a _ rfl
    split
    · exact groupSections_sim hb (List.forall₂_drop _ (List.forall₂_take _ hs)) h
    · rcases get_sim hs r.start with ⟨h1, h2⟩ | ⟨x, x', h1, h2, h3⟩
      · rw [h1, h2]; exact rfl
      · rw [h1, h2]
        cases x <;> cases x' <;> simp only [SectionSim] at h3
        · exact groups_sim hb h3.2 h
        · exact groupSections_sim hb (.cons (by simpa only [SectionSim] using h3) .nil) h

variable {clear : E → E} (hclear : ∀ e e', R e e' → R (clear e) (clear e'))
include hclear

theorem block_sim {v : Bool} {prog prog' : List (Section E)} (hs : List.Forall₂ (SectionSim R b b') prog prog') (i : BlockInfo) {s t : St E}
    (h : StSim R b b' s t) : RelP (StSim R b b') (checkBlock v clear prog i s) (checkBlock v clear prog' i t) := by
  have key : ∀ {s t : St E}, StSim R b b' s t → RelP (StSim R b b')
      (if i.start.isNone then .ok s else do
        let r ← i.range
        let cur ← s.ctx.cur.setBounds r
        checkSections prog i.sections { s with ctx := ⟨cur, if v then clear s.ctx.env else s.ctx.env⟩ })
      (if i.start.isNone then .ok t else do
        let r ← i.range
        let cur ← t.ctx.cur.setBounds r
        checkSections prog' i.sections { t with ctx := ⟨cur, if v then clear t.ctx.env else t.ctx.env⟩ }) := by
    intro s t h
    split
    · exact h
    · refine RelP.bind (R := Eq) (RelP.self _ fun _ => rfl) ?_
      rintro a _ rfl
      refine RelP.bind (h.ctx.cur.setBounds hb a) ?_
      intro c d hcd
      refine sections_sim hb hs _ ⟨⟨hcd, ?_⟩, h.res⟩
      cases v
      · exact h.ctx.env
      · exact hclear _ _ h.ctx.env
  unfold checkBlock
  split
  · exact key ⟨h.ctx, by simp only [h.res]⟩
  · exact key h

theorem blocks_sim {v : Bool} {prog prog' : List (Section E)} (hs : List.Forall₂ (SectionSim R b b') prog prog') : ∀ (is : List BlockInfo) {s t : St E},
    StSim R b b' s t → RelP (StSim R b b') (checkBlocks v clear prog is s) (checkBlocks v clear prog' is t)
  | [], s, t, h => h
  | i :: is, s, t, h => by
    unfold checkBlocks
    exact RelP.bind (block_sim hb hclear hs i h) fun _ _ h' => blocks_sim hs is h'

omit hclear

theorem discoverLoop_sim {eof : Nat} {e e' : E} (he : R e e') : ∀ {ss ss' : List (Section E)}, List.Forall₂ (SectionSim R b b') ss ss' →
    ∀ (i : Nat) {c d : Cursor} (acc : List BlockInfo) (errs : List Failure), CurSim b b' c d →
    RelP Eq (discoverLoop eof e ss i c acc errs) (discoverLoop eof e' ss' i d acc errs)
  | _, _, .nil, _, _, _, _, _, _ => rfl
  | .group g :: _, .group g' :: _, .cons hg hgs, i, c, d, acc, errs, h => by
    unfold discoverLoop
    exact discoverLoop_sim he hgs _ _ _ h
  | .block p body :: _, .block p' body' :: _, .cons hg hgs, i, c, d, acc, errs, h => by
    simp only [SectionSim] at hg
    unfold discoverLoop
    rw [h.toEof hb]
    refine RelP.bind (R := Eq) (RelP.self _ fun _ => rfl) ?_
    rintro r _ rfl
    have e0 : d.buf = b' := by rw [h.right]
    rw [e0, h.left, (hg.1.run r e e' he).1]
    split
    · split
      · rw [h.nextFrom hb]
        refine RelP.bind (R := Eq) (RelP.self _ fun _ => rfl) ?_
        rintro nl _ rfl
        rw [h.prevFrom hb]
        refine RelP.bind (R := Eq) (RelP.self _ fun _ => rfl) ?_
        rintro pl _ rfl
        refine RelP.bind (h.setStart hb _) ?_
        intro u v huv
        have e1 : v.start = u.start := by rw [huv.right]
        rw [e1]
        exact discoverLoop_sim he hgs _ _ _ huv
      · exact discoverLoop_sim he hgs _ _ _ h
    · exact discoverLoop_sim he hgs _ _ _ h
  | .group g :: _, .block p' body' :: _, .cons hg hgs, i, c, d, acc, errs, h => by simp only [SectionSim] at hg
  | .block p body :: _, .group g :: _, .cons hg hgs, i, c, d, acc, errs, h => by simp only [SectionSim] at hg

omit hb in
theorem takeWhile_sim : ∀ {ss ss' : List (Section E)}, List.Forall₂ (SectionSim R b b') ss ss' →
    (ss'.takeWhile fun s => !s.isBlock).length = (ss.takeWhile fun s => !s.isBlock).length
  | _, _, .nil => rfl
  | .group g :: _, .group g' :: _, .cons hg hgs => by
    have e : (Section.group g').isBlock = false := rfl
    have e' : (Section.group g).isBlock = false := rfl
    simp [e, e', takeWhile_sim hgs]
  | .block p body :: _, .block p' body' :: _, .cons hg hgs => by simp [Section.isBlock]
  | .group g :: _, .block p' body' :: _, .cons hg hgs => by simp only [SectionSim] at hg
  | .block p body :: _, .group g :: _, .cons hg hgs => by simp only [SectionSim] at hg

theorem discover_sim {prog prog' : List (Section E)} (hs : List.Forall₂ (SectionSim R b b') prog prog') {c d : Ctx E} (h : CtxSim R b b' c d) :
    RelP (Both (CtxSim R b b')) (discoverBlocks prog c) (discoverBlocks prog' d) := by
  unfold discoverBlocks
  have e0 : d.cur.buf.length = c.cur.buf.length := by rw [h.cur.right, h.cur.left, hb.length]
  rw [e0]
  refine RelP.bind (R := Eq) ?_ ?_
  · have hw := takeWhile_sim hs
    rcases prog with _ | ⟨x, xs⟩ <;> rcases prog' with _ | ⟨y, ys⟩ <;> cases id hs
    · exact rfl
    · rename_i hx _
      cases x <;> cases y <;> simp only [SectionSim] at hx
      · exact discoverLoop_sim hb h.env hs 0 _ _ h.cur
      · dsimp only
        rw [hw]
        exact discoverLoop_sim hb h.env hs 0 _ _ h.cur
  rintro a _ rfl
  refine RelP.bind (h.cur.reset hb) ?_
  intro u v huv
  split
  · exact ⟨rfl, huv, h.env⟩
  · exact ⟨rfl, huv, h.env⟩

include hclear

theorem input_sim {o : CheckOpts} {prog prog' : List (Section E)} (hs : List.Forall₂ (SectionSim R b b') prog prog') {e e' : E} (he : R e e') :
    checkInput o clear prog' e' b' = checkInput o clear prog e b := by
  symm
  refine RelP.eq ?_
  unfold checkInput
  unfold Cursor.new
  rw [hb.next, hb.length]
  have h0 : b'.isEmpty = b.isEmpty := by cases hb <;> rfl
  rw [h0]
  refine RelP.bind (R := CurSim b b') ?_ ?_
  · refine RelP.bind (R := Eq) (RelP.self _ fun _ => rfl) ?_
    rintro nl _ rfl
    exact ⟨rfl, rfl⟩
  · intro c d hcd
    dsimp only
    split
    · exact rfl
    · refine RelP.bind (discover_sim hb hs (c := ⟨c, e⟩) (d := ⟨d, e'⟩) ⟨hcd, he⟩) ?_
      rintro ⟨u, s'⟩ ⟨v, t'⟩ ⟨e, h'⟩
      dsimp only at e h'
      subst e
      cases v with
      | error errs => exact rfl
      | ok bs =>
        refine RelP.bind (blocks_sim hb hclear hs bs (s := ⟨s', TestResult.new⟩) (t := ⟨t', TestResult.new⟩) ⟨h', rfl⟩) ?_
        intro a b hab
        exact hab.res.symm

end

end Litcheck.Simulate
