import Verif.Proofs.Lineless
import Mathlib.Data.List.Forall2

/-!
# Two runs side by side

Two runs of the checker on inputs with the same line endings, with patterns which report the same, give the same verdict.
-/

namespace Litcheck.Simulate
open Spec
variable {E : Type}

/-- Both are LF or neither; both are CR or neither. -/
def SameByte (x y : UInt8) : Prop := (x = LF ↔ y = LF) ∧ (x = CR ↔ y = CR)

/-- Inputs of the same length with the same line endings. -/
def SameLines (b b' : Buf) : Prop := List.Forall₂ SameByte b b'

theorem SameLines.length {b b' : Buf} (h : SameLines b b') : b'.length = b.length := (List.Forall₂.length_eq h).symm

theorem SameLines.drop {b b' : Buf} (h : SameLines b b') (n : Nat) : SameLines (b.drop n) (b'.drop n) := List.forall₂_drop n h

theorem SameLines.take {b b' : Buf} (h : SameLines b b') (n : Nat) : SameLines (b.take n) (b'.take n) := List.forall₂_take n h

theorem SameLines.slice {b b' : Buf} (h : SameLines b b') (i j : Nat) : SameLines (sliceOf b i j) (sliceOf b' i j) := by
  unfold sliceOf
  first | exact (h.take _).drop _ | exact (h.drop _).take _

theorem SameLines.get {b b' : Buf} (h : SameLines b b') : ∀ i : Nat,
    (b'[i]? = some LF ↔ b[i]? = some LF) ∧ (b'[i]? = some CR ↔ b[i]? = some CR) := by
  induction h with
  | nil => intro i; simp
  | cons hx _ ih =>
    intro i
    cases i with
    | zero => simp [hx.1, hx.2]
    | succ i => simpa using ih i

theorem SameLines.memchr_lf {b b' : Buf} (h : SameLines b b') : memchr LF b' = memchr LF b := by
  induction h with
  | nil => rfl
  | @cons x y _ _ hx _ ih =>
    unfold memchr
    rw [ih]
    by_cases hl : x = LF
    · simp [hl, hx.1.1 hl]
    · have : ¬ y = LF := fun e => hl (hx.1.2 e)
      simp [hl, this]

theorem SameLines.memrchr_lf {b b' : Buf} (h : SameLines b b') : memrchr LF b' = memrchr LF b := by
  induction h with
  | nil => rfl
  | @cons x y _ _ hx _ ih =>
    unfold memrchr
    rw [ih]
    by_cases hl : x = LF
    · simp [hl, hx.1.1 hl]
    · have : ¬ y = LF := fun e => hl (hx.1.2 e)
      simp [hl, this]

theorem SameLines.nextFrom {b b' : Buf} (h : SameLines b b') (i : Nat) : Newline.nextFrom b' i = Newline.nextFrom b i := by
  simp only [Newline.nextFrom, h.length, (h.drop i).memchr_lf, (h.get _).2]

theorem SameLines.next {b b' : Buf} (h : SameLines b b') : Newline.next b' = Newline.next b := h.nextFrom 0

theorem SameLines.nextLf {b b' : Buf} (h : SameLines b b') (r : Rng) : findNextLf b' r = findNextLf b r := by
  simp only [findNextLf, (h.slice _ _).memchr_lf]

theorem SameLines.prevLf {b b' : Buf} (h : SameLines b b') (r : Rng) : findPrevLf b' r = findPrevLf b r := by
  simp only [findPrevLf, (h.slice _ _).memrchr_lf]

theorem SameLines.nextCrlf {b b' : Buf} (h : SameLines b b') (r : Rng) : findNextCrlf b' r = findNextCrlf b r := by
  simp only [findNextCrlf, (h.slice _ _).memchr_lf, (h.get _).2]

theorem SameLines.prevCrlf {b b' : Buf} (h : SameLines b b') (r : Rng) : findPrevCrlf b' r = findPrevCrlf b r := by
  simp only [findPrevCrlf, (h.slice _ _).memrchr_lf, (h.get _).2]

theorem SameLines.bounded {b b' : Buf} (h : SameLines b b') (lo hi : Bound) : Cursor.bounded b' lo hi = Cursor.bounded b lo hi := by
  simp only [Cursor.bounded, h.length]

/-- The same cursor on the other input. -/
structure CurSim (b b' : Buf) (c d : Cursor) : Prop where
  left : c.buf = b
  right : d = { c with buf := b' }

variable {b b' : Buf} {R : E → E → Prop}

section
variable (hb : SameLines b b')
include hb

theorem CurSim.search {c d : Cursor} (h : CurSim b b' c d) (s e : Nat) : d.searchRange s e = c.searchRange s e := by
  simp only [Cursor.searchRange, h.right, h.left, hb.bounded]

theorem CurSim.block {c d : Cursor} (h : CurSim b b' c d) : d.searchBlock = c.searchBlock := by
  simp only [Cursor.searchBlock, h.search hb]
  rw [h.right]

theorem CurSim.line {c d : Cursor} (h : CurSim b b' c d) : d.searchLine = c.searchLine := by
  simp only [Cursor.searchLine, h.search hb]
  rw [h.right]

theorem CurSim.toEof {c d : Cursor} (h : CurSim b b' c d) : d.searchToEof = c.searchToEof := by
  simp only [Cursor.searchToEof, h.right, h.left, hb.bounded]

theorem CurSim.nextIn {c d : Cursor} (h : CurSim b b' c d) (lo hi : Bound) : d.nextNewlineInRange lo hi = c.nextNewlineInRange lo hi := by
  simp only [Cursor.nextNewlineInRange, h.right, h.left, hb.bounded, hb.nextLf, hb.nextCrlf]

theorem CurSim.nextFrom {c d : Cursor} (h : CurSim b b' c d) (o : Nat) : d.nextNewlineFrom o = c.nextNewlineFrom o := h.nextIn hb _ _

theorem CurSim.prevFrom {c d : Cursor} (h : CurSim b b' c d) (o : Nat) : d.prevNewlineFrom o = c.prevNewlineFrom o := by
  simp only [Cursor.prevNewlineFrom, Cursor.prevNewlineInRange, h.right, h.left, hb.bounded, hb.prevLf, hb.prevCrlf]

theorem CurSim.nextLine {c d : Cursor} (h : CurSim b b' c d) : d.startOfNextLine = c.startOfNextLine := by
  simp only [Cursor.startOfNextLine, h.right, h.left, hb.nextFrom]

theorem CurSim.atEol {c d : Cursor} (h : CurSim b b' c d) : d.atEndOfLine = c.atEndOfLine := by
  have e : ∀ (i : Nat), ((b'[i]? == some LF) = (b[i]? == some LF)) ∧ ((b'[i]? == some CR) = (b[i]? == some CR)) := by
    intro i
    have := hb.get i
    constructor
    · rw [Bool.eq_iff_iff]; simpa using this.1
    · rw [Bool.eq_iff_iff]; simpa using this.2
  simp only [Cursor.atEndOfLine, Cursor.isEndOfLine, h.right, h.left, hb.length, (e _).1, (e _).2, bne]

theorem CurSim.setStart {c d : Cursor} (h : CurSim b b' c d) (s : Nat) : RelP (CurSim b b') (c.setStart s) (d.setStart s) := by
  obtain ⟨hl, hr⟩ := h
  subst hr
  have h2 := CurSim.nextIn hb (c := { c with start := min s c.stop }) (d := { c with start := min s c.stop, buf := b' }) ⟨hl, rfl⟩
  unfold Cursor.setStart
  dsimp only at h2 ⊢
  simp only [h2]
  split
  · split
    · refine RelP.bind (R := Eq) (RelP.self _ fun _ => rfl) ?_
      rintro a _ rfl
      exact ⟨hl, rfl⟩
    · exact ⟨hl, rfl⟩
  · split
    · refine RelP.bind (R := Eq) (RelP.self _ fun _ => rfl) ?_
      rintro a _ rfl
      exact ⟨hl, rfl⟩
    · exact ⟨hl, rfl⟩

theorem CurSim.reset {c d : Cursor} (h : CurSim b b' c d) : RelP (CurSim b b') c.reset d.reset := by
  obtain ⟨hl, hr⟩ := h
  subst hr
  unfold Cursor.reset
  dsimp only
  rw [hb.next, hl]
  refine RelP.bind (R := Eq) (RelP.self _ fun _ => rfl) ?_
  rintro a _ rfl
  exact ⟨rfl, by dsimp only; rw [hb.length]⟩

theorem CurSim.setBounds {c d : Cursor} (h : CurSim b b' c d) (r : Rng) : RelP (CurSim b b') (c.setBounds r) (d.setBounds r) := by
  obtain ⟨hl, hr⟩ := h
  subst hr
  unfold Cursor.setBounds
  dsimp only
  rw [hb.bounded, hl, hb.length]
  refine RelP.bind (R := Eq) (RelP.self _ fun _ => rfl) ?_
  rintro a _ rfl
  have h1 : CurSim b b' ⟨b, a.start, a.stop, c.eol, c.crlf⟩ ⟨b', a.start, a.stop, c.eol, c.crlf⟩ := ⟨rfl, rfl⟩
  refine RelP.bind (R := Eq) (by rw [h1.nextFrom hb]; exact RelP.self _ fun _ => rfl) ?_
  rintro x _ rfl
  exact ⟨rfl, rfl⟩

end

/-! ## Patterns -/

/-- The patterns report the same, each on its input, and leave related variables. -/
structure PatSim (R : E → E → Prop) (b b' : Buf) (p p' : Pat E) : Prop where
  run : ∀ r e e', R e e' → (p'.run b' r e').1 = (p.run b r e).1 ∧ R (p.run b r e).2 (p'.run b' r e').2
  len : p'.len = p.len
  pspan : p'.pspan = p.pspan

/-- The sets report the same. -/
def DagSim (R : E → E → Prop) (b b' : Buf) (x x' : Dag E) : Prop := ∀ r e e', R e e' →
  (x.run b r e = none ∧ x'.run b' r e' = none) ∨
    ∃ ms pos f f', x.run b r e = some (ms, pos, f) ∧ x'.run b' r e' = some (ms, pos, f') ∧ R f f'

/-- Related contexts. -/
structure CtxSim (R : E → E → Prop) (b b' : Buf) (c d : Ctx E) : Prop where
  cur : CurSim b b' c.cur d.cur
  env : R c.env d.env

/-- Related states. -/
structure StSim (R : E → E → Prop) (b b' : Buf) (s t : St E) : Prop where
  ctx : CtxSim R b b' s.ctx t.ctx
  res : t.res = s.res

/-- Related rules. -/
def RuleSim (R : E → E → Prop) (b b' : Buf) : Rule E → Rule E → Prop
  | .plain p, .plain p' => PatSim R b b' p p'
  | .next p, .next p' => PatSim R b b' p p'
  | .same p, .same p' => PatSim R b b' p p'
  | .empty s, .empty s' => s' = s
  | _, _ => False

theorem PatSim.protected {p p' : Pat E} (h : PatSim R b b' p p') {r : Rng} {e e' : E} (he : R e e') :
    (p'.tryProtected b' r e').1 = (p.tryProtected b r e).1 ∧ R (p.tryProtected b r e).2 (p'.tryProtected b' r e').2 := by
  obtain ⟨h1, h2⟩ := h.run r e e' he
  unfold Pat.tryProtected
  revert h1 h2
  generalize p.run b r e = x
  generalize p'.run b' r e' = y
  rcases x with ⟨_ | m, f⟩ <;> rcases y with ⟨m', f'⟩ <;> intro h1 h2 <;> dsimp only at h1 h2 <;> subst h1
  · exact ⟨rfl, he⟩
  · dsimp only
    split
    · exact ⟨rfl, h2⟩
    · exact ⟨rfl, he⟩

section
variable (hb : SameLines b b')
include hb

theorem finish_sim {c d : Ctx E} (h : CtxSim R b b' c d) {x y : Option MatchResult × E} (h1 : y.1 = x.1) (h2 : R x.2 y.2) :
    RelP (Both (CtxSim R b b')) (Rule.finish c x) (Rule.finish d y) := by
  obtain ⟨m, e⟩ := x
  obtain ⟨m', e'⟩ := y
  dsimp only at h1 h2
  subst h1
  unfold Rule.finish
  cases m' with
  | none => exact ⟨rfl, h⟩
  | some m =>
    dsimp only
    split
    · refine RelP.bind (h.cur.setStart hb _) ?_
      intro a b hab
      exact ⟨rfl, hab, h2⟩
    · exact ⟨rfl, h.cur, h2⟩

theorem plain_sim {p p' : Pat E} (hp : PatSim R b b' p p') {c d : Ctx E} (h : CtxSim R b b' c d) :
    RelP (Both (CtxSim R b b')) (Rule.applyPlain p c) (Rule.applyPlain p' d) := by
  unfold Rule.applyPlain
  rw [h.cur.block hb]
  refine RelP.bind (R := Eq) (RelP.self _ fun _ => rfl) ?_
  rintro a _ rfl
  have e : d.cur.buf = b' := by rw [h.cur.right]
  rw [e, h.cur.left]
  exact finish_sim hb h (hp.protected h.env).1 (hp.protected h.env).2

theorem next_sim {p p' : Pat E} (hp : PatSim R b b' p p') {c d : Ctx E} (h : CtxSim R b b' c d) :
    RelP (Both (CtxSim R b b')) (Rule.applyNext p c) (Rule.applyNext p' d) := by
  unfold Rule.applyNext
  rw [h.cur.nextLine hb]
  refine RelP.bind (R := Eq) (RelP.self _ fun _ => rfl) ?_
  rintro st _ rfl
  rw [h.cur.nextFrom hb]
  refine RelP.bind (R := Eq) (RelP.self _ fun _ => rfl) ?_
  rintro nl _ rfl
  have e : d.cur.buf = b' := by rw [h.cur.right]
  have e2 : d.cur.stop = c.cur.stop := by rw [h.cur.right]
  simp only [e2, h.cur.search hb]
  split
  · refine RelP.bind (R := Eq) (RelP.self _ fun _ => rfl) ?_
    rintro a _ rfl
    exact ⟨rfl, h⟩
  · refine RelP.bind (R := Eq) (RelP.self _ fun _ => rfl) ?_
    rintro a _ rfl
    rw [e, h.cur.left]
    exact finish_sim hb h (hp.protected h.env).1 (hp.protected h.env).2

theorem same_sim {p p' : Pat E} (hp : PatSim R b b' p p') {c d : Ctx E} (h : CtxSim R b b' c d) :
    RelP (Both (CtxSim R b b')) (Rule.applySame p c) (Rule.applySame p' d) := by
  unfold Rule.applySame
  rw [h.cur.line hb]
  refine RelP.bind (R := Eq) (RelP.self _ fun _ => rfl) ?_
  rintro a _ rfl
  have e : d.cur.buf = b' := by rw [h.cur.right]
  have e2 : d.cur.eol = c.cur.eol := by rw [h.cur.right]
  rw [e, h.cur.left, e2]
  have hx := hp.protected (r := a) h.env
  revert hx
  generalize p.tryProtected b a c.env = x
  generalize p'.tryProtected b' a d.env = y
  rcases x with ⟨_ | m, f⟩ <;> rcases y with ⟨m', f'⟩ <;> rintro ⟨h1, h2⟩ <;> dsimp only at h1 h2 <;> subst h1
  · exact ⟨rfl, h⟩
  · dsimp only
    split
    · split
      · refine RelP.bind (h.cur.setStart hb _) ?_
        intro a b hab
        exact ⟨rfl, hab, h2⟩
      · exact rfl
    · exact ⟨rfl, h.cur, h2⟩
    · rw [h.cur.block hb]
      refine RelP.bind (R := Eq) (RelP.self _ fun _ => rfl) ?_
      rintro rb _ rfl
      have hx := hp.protected (r := rb) h2
      revert hx
      generalize p.tryProtected b rb f = x
      generalize p'.tryProtected b' rb f' = y
      rcases x with ⟨_ | m2, g⟩ <;> rcases y with ⟨m2', g'⟩ <;> rintro ⟨h3, h4⟩ <;> dsimp only at h3 h4 <;> subst h3
      · exact ⟨rfl, h⟩
      · dsimp only
        split
        · exact ⟨rfl, h.cur, h4⟩
        · exact ⟨rfl, h.cur, h4⟩

theorem empty_sim (ps : Nat) {c d : Ctx E} (h : CtxSim R b b' c d) :
    RelP (Both (CtxSim R b b')) (Rule.applyEmpty ps c) (Rule.applyEmpty ps d) := by
  unfold Rule.applyEmpty
  rw [h.cur.nextLine hb]
  refine RelP.bind (R := Eq) (RelP.self _ fun _ => rfl) ?_
  rintro st _ rfl
  rw [h.cur.nextFrom hb]
  refine RelP.bind (R := Eq) (RelP.self _ fun _ => rfl) ?_
  rintro nl _ rfl
  have e : d.cur.buf.length = c.cur.buf.length := by rw [h.cur.right, h.cur.left, hb.length]
  have e2 : d.cur.start = c.cur.start := by rw [h.cur.right]
  simp only [e, e2, h.cur.search hb, h.cur.atEol hb]
  split
  · refine RelP.bind (h.cur.setStart hb _) ?_
    intro a b hab
    exact ⟨rfl, hab, h.env⟩
  · refine RelP.bind (R := Eq) (RelP.self _ fun _ => rfl) ?_
    rintro a _ rfl
    exact ⟨rfl, h⟩

theorem rule_sim {r r' : Rule E} (hr : RuleSim R b b' r r') {c d : Ctx E} (h : CtxSim R b b' c d) :
    RelP (Both (CtxSim R b b')) (r.apply c) (r'.apply d) := by
  cases r <;> cases r' <;> simp only [RuleSim] at hr
  · exact plain_sim hb hr h
  · exact next_sim hb hr h
  · exact same_sim hb hr h
  · subst hr; exact empty_sim hb _ h

theorem dag_sim {x x' : Dag E} (hx : DagSim R b b' x x') {c d : Ctx E} (h : CtxSim R b b' c d) :
    RelP (Both (CtxSim R b b')) (x.apply c) (x'.apply d) := by
  unfold Dag.apply
  rw [h.cur.block hb]
  refine RelP.bind (R := Eq) (RelP.self _ fun _ => rfl) ?_
  rintro a _ rfl
  have e : d.cur.buf = b' := by rw [h.cur.right]
  rw [e, h.cur.left]
  rcases hx a c.env d.env h.env with ⟨h1, h2⟩ | ⟨ms, pos, f, f', h1, h2, h3⟩
  · rw [h1, h2]; exact ⟨rfl, h⟩
  · rw [h1, h2]
    have key : ∀ u v : Cursor, CurSim b b' u v → RelP (Both (CtxSim R b b'))
        (if ms.isOk = true then Except.ok (some ms, (⟨u, f⟩ : Ctx E)) else Except.ok (some ms, c))
        (if ms.isOk = true then Except.ok (some ms, (⟨v, f'⟩ : Ctx E)) else Except.ok (some ms, d)) := by
      intro u v huv
      split
      · exact ⟨rfl, huv, h3⟩
      · exact ⟨rfl, h⟩
    cases pos with
    | none => exact key _ _ h.cur
    | some p => exact RelP.bind (h.cur.setStart hb p) key

omit hb in
theorem not_sim {p p' : Pat E} (hp : PatSim R b b' p p') (r : Rng) {s t : St E} (h : StSim R b b' s t) :
    RelP (Both (StSim R b b')) (checkNot p r s) (checkNot p' r t) := by
  unfold checkNot
  have e : t.ctx.cur.buf = b' := by rw [h.ctx.cur.right]
  rw [e, h.ctx.cur.left, hp.len]
  have hx := hp.run r _ _ h.ctx.env
  revert hx
  generalize p.run b r s.ctx.env = x
  generalize p'.run b' r t.ctx.env = y
  rcases x with ⟨_ | m, f⟩ <;> rcases y with ⟨m', f'⟩ <;> rintro ⟨h1, h2⟩ <;> dsimp only at h1 h2 <;> subst h1
  · exact ⟨rfl, ⟨h.ctx.cur, h2⟩, h.res⟩
  · dsimp only
    split
    · exact ⟨rfl, ⟨h.ctx.cur, h2⟩, h.res⟩
    · exact rfl
    · exact ⟨rfl, ⟨h.ctx.cur, h2⟩, h.res⟩

omit hb in
theorem StSim.pass {s t : St E} (h : StSim R b b' s t) (n : Nat) : StSim R b b' (s.pass n) (t.pass n) := ⟨h.ctx, by simp only [St.pass, h.res]⟩
omit hb in
theorem StSim.fail {s t : St E} (h : StSim R b b' s t) (f : Failure) : StSim R b b' (s.fail f) (t.fail f) := ⟨h.ctx, by simp only [St.fail, h.res]⟩

omit hb in
theorem excl_sim {p p' : Pat E} (hp : PatSim R b b' p p') (r : Rng) {s t : St E} (h : StSim R b b' s t) :
    RelP (Both (StSim R b b')) (excl p r s) (excl p' r t) := by
  unfold excl
  refine RelP.bind (not_sim hp r h) ?_
  rintro ⟨a, s'⟩ ⟨c, t'⟩ ⟨e, h'⟩
  dsimp only at e h'
  subst e
  dsimp only
  split
  · exact ⟨rfl, h'.pass _⟩
  · exact ⟨rfl, h'⟩
  · exact ⟨rfl, h'⟩

end

end Litcheck.Simulate
