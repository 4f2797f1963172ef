import Verif.Proofs.Groups

/-!
# Checking ends without a panic: rules and groups
-/

namespace Litcheck
open Spec
variable {E : Type}

/-- What a rule needs of a matcher in order not to panic: a match which it reports lies in the searched range, and its failures carry a
label. -/
structure Pat.Tame (p : Pat E) : Prop where
  found : ∀ b r env m env', r.start ≤ r.stop → r.stop ≤ b.length → p.run b r env = (some m, env') → m.isOk = true →
    ∃ i, m.info = some i ∧ r.start ≤ i.start ∧ i.start ≤ i.stop ∧ i.stop ≤ r.stop
  related : ∀ b r env m env' f, p.run b r env = (some m, env') → m.ty = .failed f → f.related = true

/-- The matcher never reports an empty match. -/
def Pat.NeverEmpty (p : Pat E) : Prop :=
  ∀ b r env m env' i, r.start ≤ r.stop → r.stop ≤ b.length → p.run b r env = (some m, env') → m.isOk = true → m.info = some i →
    i.start < i.stop

/-- What a `CHECK-NOT` group needs: a match which is reported has a location. -/
def Pat.Located (p : Pat E) : Prop :=
  ∀ b r env m env', r.start ≤ r.stop → r.stop ≤ b.length → p.run b r env = (some m, env') → m.isOk = true → m.info.isSome = true

theorem Pat.Tame.located {p : Pat E} (h : p.Tame) : p.Located := by
  intro b r env m env' h1 h2 h3 h4
  obtain ⟨i, hi, _⟩ := h.found b r env m env' h1 h2 h3 h4
  rw [hi]; rfl

/-- What a `CHECK-DAG` group needs: its matches lie in the searched range, in the order of their starts. -/
def Dag.Tame (d : Dag E) : Prop :=
  ∀ b r env ms pos env', r.start ≤ r.stop → r.stop ≤ b.length → d.run b r env = some (ms, pos, env') →
    (∀ i ∈ ms.filterMap MatchResult.info, r.start ≤ i.start ∧ i.start ≤ i.stop ∧ i.stop ≤ r.stop) ∧
    (ms.filterMap MatchResult.info).Pairwise (fun x y => x.start ≤ y.start) ∧ (∀ p, pos = some p → r.start ≤ p)

/-- The cursor of a block of which nothing is known but its bounds. `nx`: the block is the last one; `sm`: it ends at the end of a line. -/
structure Cursor.Fine (nx sm : Bool) (c : Cursor) : Prop where
  lf : c.crlf = false
  lo : c.start ≤ c.stop
  hi : c.stop ≤ c.buf.length
  last : nx = true → c.stop = c.buf.length
  eol : sm = true → c.start ≤ c.eol ∧ c.eol ≤ c.stop

theorem Cursor.Fine.setStart {nx sm : Bool} {c : Cursor} (w : c.Fine nx sm) {s : Nat} (hs : c.start ≤ s) :
    ∃ c', c.setStart s = .ok c' ∧ c'.Fine nx sm ∧ c'.start = min s c.stop ∧ c'.stop = c.stop ∧ c'.buf = c.buf := by
  obtain ⟨hlf, hlo, hhi, hl, he⟩ := w
  unfold Cursor.setStart
  simp only
  by_cases h1 : s > c.start
  · rw [if_pos h1]
    by_cases h2 : min s c.stop > c.eol
    · rw [if_pos h2]
      obtain ⟨r, hr, hnl⟩ := Cursor.nextNewlineInRange_ok (c := { c with start := min s c.stop }) hlf
        (s := min s c.stop) (e := c.stop) (by omega) hhi
      simp only [hr, bind, Except.bind]
      refine ⟨_, rfl, ⟨hlf, by simp; omega, hhi, hl, ?_⟩, rfl, rfl, rfl⟩
      intro _
      rcases hnl with ⟨n, rfl, hn1, hn2, _⟩ | ⟨rfl, _⟩
      · simp only [Option.getD_some]; omega
      · simp only [Option.getD_none]; omega
    · rw [if_neg h2]
      exact ⟨_, rfl, ⟨hlf, by simp; omega, hhi, hl, fun h => ⟨by simp at h2 ⊢; omega, (he h).2⟩⟩, rfl, rfl, rfl⟩
  · rw [if_neg h1, if_neg (by omega : ¬ s < c.start)]
    have : s = c.start := by omega
    subst this
    have hm : min c.start c.stop = c.start := by omega
    simp only [hm]
    exact ⟨_, rfl, ⟨hlf, hlo, hhi, hl, he⟩, rfl, rfl, rfl⟩

theorem Cursor.Fine.searchBlock {nx sm : Bool} {c : Cursor} (w : c.Fine nx sm) : c.searchBlock = .ok ⟨c.start, c.stop⟩ :=
  bounded_ok w.lo w.hi

/-- The rule can be applied in such a block. -/
def Rule.Tame (nx sm : Bool) : Rule E → Prop
  | .plain p => p.Tame
  | .next p => nx = true ∧ p.Tame
  | .same p => sm = true ∧ p.Tame ∧ p.NeverEmpty
  | .empty _ => nx = true

/-- What happened to the cursor. -/
structure Moved (nx sm : Bool) (c c' : Cursor) : Prop where
  fine : c'.Fine nx sm
  buf : c'.buf = c.buf
  stop : c'.stop = c.stop
  le : c.start ≤ c'.start

theorem Moved.refl {nx sm : Bool} {c : Cursor} (h : c.Fine nx sm) : Moved nx sm c c := ⟨h, rfl, rfl, Nat.le_refl _⟩

theorem Moved.trans {nx sm : Bool} {c c' c'' : Cursor} (h : Moved nx sm c c') (h' : Moved nx sm c' c'') : Moved nx sm c c'' :=
  ⟨h'.fine, h'.buf.trans h.buf, h'.stop.trans h.stop, Nat.le_trans h.le h'.le⟩

/-- The match lies between the positions of the cursor before and after. -/
def Within (c c' : Cursor) (m : MatchResult) : Prop :=
  ∃ i, m.info = some i ∧ c.start ≤ i.start ∧ i.start ≤ i.stop ∧ i.stop ≤ c'.start

/-- The result of a rule. -/
structure RuleFine (nx sm : Bool) (c : Ctx E) (m : Option MatchResult) (c' : Ctx E) : Prop where
  moved : Moved nx sm c.cur c'.cur
  found : ∀ x, m = some x → x.isOk = true → Within c.cur c'.cur x
  related : ∀ x f, m = some x → x.ty = .failed f → f.related = true

theorem isOk_of_tryProtected {p : Pat E} {b : Buf} {r : Rng} {env env' : E} {m : MatchResult} (h : p.tryProtected b r env = (some m, env')) :
    ∃ env2, p.run b r env = (some m, env2) := by
  unfold Pat.tryProtected at h
  cases hr : p.run b r env with
  | mk a e =>
    cases a with
    | none => rw [hr] at h; simp at h
    | some x =>
      rw [hr] at h
      simp only at h
      split at h <;> simp only [Prod.mk.injEq, Option.some.injEq] at h <;> exact ⟨e, by rw [h.1]⟩

theorem Rule.finish_tame {nx sm : Bool} {p : Pat E} (hp : p.Tame) {c : Ctx E} (w : c.cur.Fine nx sm) {r : Rng} (h1 : c.cur.start ≤ r.start)
    (h2 : r.start ≤ r.stop) (h3 : r.stop ≤ c.cur.stop) :
    ∃ m c', Rule.finish c (p.tryProtected c.cur.buf r c.env) = .ok (m, c') ∧ RuleFine nx sm c m c' := by
  cases hx : p.tryProtected c.cur.buf r c.env with
  | mk a env' =>
    cases a with
    | none => exact ⟨_, _, rfl, .refl w, by simp, by simp⟩
    | some m =>
      obtain ⟨e2, hr⟩ := isOk_of_tryProtected hx
      have hrel := fun f => hp.related _ _ _ _ _ f hr
      unfold Rule.finish
      cases ho : m.isOk with
      | false =>
        simp only [ho]
        refine ⟨_, _, rfl, .refl w, ?_, ?_⟩
        · intro x hx2 hx3
          simp only [Option.some.injEq] at hx2
          rw [← hx2, ho] at hx3; simp at hx3
        · intro x f hx2
          simp only [Option.some.injEq] at hx2
          rw [← hx2]; exact hrel f
      | true =>
        obtain ⟨i, hi, k1, k2, k3⟩ := hp.found _ _ _ _ _ h2 (Nat.le_trans h3 w.hi) hr ho
        obtain ⟨c2, s1, s2, s3, s4, s5⟩ := w.setStart (s := i.stop) (by omega)
        simp only [ho, hi, s1, bind, Except.bind]
        refine ⟨_, _, rfl, ⟨s2, s5, s4, by rw [s3]; omega⟩, ?_, ?_⟩
        · intro x hx2 _
          simp only [Option.some.injEq] at hx2
          subst hx2
          refine ⟨i, hi, by omega, k2, ?_⟩
          show i.stop ≤ c2.start
          rw [s3]; omega
        · intro x f hx2
          simp only [Option.some.injEq] at hx2
          rw [← hx2]; exact hrel f

theorem startOfNextLine_fine {nx sm : Bool} {c : Cursor} (w : c.Fine nx sm) :
    ∃ s, c.startOfNextLine = .ok s ∧ c.start ≤ s ∧ s ≤ c.buf.length := by
  obtain ⟨nl, hnl⟩ := nextFrom_ok (b := c.buf) (p := c.start) (by have := w.lo; have := w.hi; omega)
  refine ⟨nl.nextLineStart, by simp [Cursor.startOfNextLine, hnl, bind, Except.bind], ?_⟩
  have := w.lo; have := w.hi
  obtain ⟨_, ⟨n, h1, h2, _⟩ | ⟨h1, rfl⟩⟩ := nextFrom_spec hnl
  · have := h1.1; have := h1.2.1.lt
    omega
  · show c.start ≤ c.buf.length ∧ _
    exact ⟨by omega, Nat.le_refl _⟩

theorem matchNone_related (f : Failure) (h : matchNone.ty = .failed f) : f.related = true := by
  simp only [matchNone, MatchResult.failed, MatchType.failed.injEq] at h
  rw [← h]

/-- Rules do not panic. -/
theorem Rule.apply_tame {nx sm : Bool} {rule : Rule E} (hr : rule.Tame nx sm) {c : Ctx E} (w : c.cur.Fine nx sm) :
    ∃ m c', rule.apply c = .ok (m, c') ∧ RuleFine nx sm c m c' := by
  cases rule with
  | plain p =>
    simp only [Rule.apply, Rule.applyPlain, w.searchBlock, bind, Except.bind]
    exact Rule.finish_tame hr w (Nat.le_refl _) w.lo (Nat.le_refl _)
  | next p =>
    obtain ⟨hnx, hp⟩ := hr
    have hlast := w.last hnx
    obtain ⟨s, hs, hs1, hs2⟩ := startOfNextLine_fine w
    obtain ⟨nl, hnl, hnl2⟩ := Cursor.nextNewlineFrom_ok w.lf hs2
    simp only [Rule.apply, Rule.applyNext, hs, hnl, bind, Except.bind]
    split
    · rw [show c.cur.searchRange s c.cur.stop = .ok ⟨s, c.cur.stop⟩ from bounded_ok (by omega) w.hi]
      refine ⟨_, _, rfl, .refl w, ?_, ?_⟩
      · intro x hx hx2
        simp only [Option.some.injEq] at hx
        subst hx; simp [matchNone, MatchResult.failed, MatchResult.isOk, MatchType.isOk] at hx2
      · intro x f hx
        simp only [Option.some.injEq] at hx
        subst hx; exact matchNone_related f
    · have hb : s ≤ nl.getD c.cur.stop ∧ nl.getD c.cur.stop ≤ c.cur.stop := by
        rcases hnl2 with ⟨n, rfl, h1, h2, _⟩ | ⟨rfl, _⟩
        · simp only [Option.getD_some]; omega
        · simp only [Option.getD_none]; omega
      rw [show c.cur.searchRange s (nl.getD c.cur.stop) = .ok ⟨s, nl.getD c.cur.stop⟩ from bounded_ok hb.1 (by omega)]
      exact Rule.finish_tame hp w hs1 hb.1 hb.2
  | same p =>
    obtain ⟨hsm, hp, hne⟩ := hr
    obtain ⟨e1, e2⟩ := w.eol hsm
    have hhi := w.hi
    simp only [Rule.apply, Rule.applySame, bind, Except.bind]
    rw [show c.cur.searchLine = .ok ⟨c.cur.start, c.cur.eol⟩ from bounded_ok e1 (by omega)]
    dsimp only
    cases hx : p.tryProtected c.cur.buf ⟨c.cur.start, c.cur.eol⟩ c.env with
    | mk a env' =>
      cases a with
      | none => exact ⟨_, _, rfl, .refl w, by simp, by simp⟩
      | some m =>
        obtain ⟨e2', hr⟩ := isOk_of_tryProtected hx
        have hrel := fun f => hp.related _ _ _ _ _ f hr
        cases ho : m.isOk with
        | true =>
          obtain ⟨i, hi, k1, k2, k3⟩ := hp.found _ _ _ _ _ e1 (by dsimp only; omega) hr ho
          have k4 := hne _ _ _ _ _ _ e1 (by dsimp only; omega) hr ho hi
          dsimp only at k1 k3
          obtain ⟨c2, s1, s2, s3, s4, s5⟩ := w.setStart (s := i.stop) (by omega)
          simp only [ho, hi]
          rw [if_pos (by omega), s1]
          refine ⟨_, _, rfl, ⟨s2, s5, s4, by rw [s3]; omega⟩, ?_, ?_⟩
          · intro x hx2 _
            simp only [Option.some.injEq] at hx2
            subst hx2
            refine ⟨i, hi, by omega, k2, ?_⟩
            show i.stop ≤ c2.start
            rw [s3]; omega
          · intro x f hx2
            simp only [Option.some.injEq] at hx2
            rw [← hx2]; exact hrel f
        | false =>
          have hno : ∀ x : MatchResult, some m = some x → x.isOk = true → False := by
            intro x hx2 hx3
            simp only [Option.some.injEq] at hx2
            rw [← hx2, ho] at hx3; simp at hx3
          have hrel' : ∀ x f, some m = some x → x.ty = .failed f → f.related = true := by
            intro x f hx2
            simp only [Option.some.injEq] at hx2
            rw [← hx2]; exact hrel f
          cases hmi : m.info with
          | some i =>
            simp only [ho, hmi]
            exact ⟨_, _, rfl, .refl w, fun x a b => (hno x a b).elim, hrel'⟩
          | none =>
            simp only [ho, hmi, w.searchBlock]
            cases hx2 : p.tryProtected c.cur.buf ⟨c.cur.start, c.cur.stop⟩ env' with
            | mk a2 env2 =>
              cases a2 with
              | none => exact ⟨_, _, rfl, .refl w, by simp, by simp⟩
              | some m2 =>
                dsimp only
                cases hm2 : m2.info with
                | some i =>
                  refine ⟨_, _, rfl, .refl w, ?_, ?_⟩
                  · intro x hx3 hx4
                    simp only [Option.some.injEq] at hx3
                    subst hx3; simp [MatchResult.isOk, MatchType.isOk] at hx4
                  · intro x f hx3 hx4
                    simp only [Option.some.injEq] at hx3
                    subst hx3
                    simp only [MatchType.failed.injEq] at hx4
                    rw [← hx4]
                | none => exact ⟨_, _, rfl, .refl w, fun x a b => (hno x a b).elim, hrel'⟩
  | empty ps =>
    have hnx : nx = true := hr
    have hlast := w.last hnx
    obtain ⟨s, hs, hs1, hs2⟩ := startOfNextLine_fine w
    obtain ⟨nl, hnl, hnl2⟩ := Cursor.nextNewlineFrom_ok w.lf hs2
    simp only [Rule.apply, Rule.applyEmpty, hs, hnl, bind, Except.bind]
    have hb : s ≤ nl.getD c.cur.buf.length ∧ nl.getD c.cur.buf.length ≤ c.cur.buf.length := by
      rcases hnl2 with ⟨n, rfl, h1, h2, _⟩ | ⟨rfl, _⟩
      · simp only [Option.getD_some]; omega
      · simp only [Option.getD_none]; omega
    split
    · obtain ⟨c2, s1, s2, s3, s4, s5⟩ := w.setStart (s := nl.getD c.cur.buf.length) (by omega)
      rw [s1]
      refine ⟨_, _, rfl, ⟨s2, s5, s4, by rw [s3]; omega⟩, ?_, ?_⟩
      · intro x hx2 _
        simp only [Option.some.injEq] at hx2
        subst hx2
        refine ⟨_, rfl, hs1, hb.1, ?_⟩
        show nl.getD c.cur.buf.length ≤ c2.start
        rw [s3]; omega
      · intro x f hx2 hx3
        simp only [Option.some.injEq] at hx2
        subst hx2; simp [MatchResult.ok] at hx3
    · rw [show c.cur.searchRange (min c.cur.start s) (nl.getD c.cur.buf.length) = .ok ⟨_, _⟩ from bounded_ok (by omega) hb.2]
      refine ⟨_, _, rfl, .refl w, ?_, ?_⟩
      · intro x hx hx2
        simp only [Option.some.injEq] at hx
        subst hx; simp [matchNone, MatchResult.failed, MatchResult.isOk, MatchType.isOk] at hx2
      · intro x f hx
        simp only [Option.some.injEq] at hx
        subst hx; exact matchNone_related f

/-! ## Groups -/

/-- A list of matches of one rule each, between two positions of the cursor. -/
def Entries (lo hi : Nat) (acc : List Matches) : Prop :=
  ∀ ms ∈ acc, ∃ x i, ms = [x] ∧ x.isOk = true ∧ x.info = some i ∧ lo ≤ i.start ∧ i.start ≤ i.stop ∧ i.stop ≤ hi

theorem Entries.mono {lo hi lo' hi' : Nat} {acc : List Matches} (h : Entries lo hi acc) (h1 : lo' ≤ lo) (h2 : hi ≤ hi') : Entries lo' hi' acc := by
  intro ms hms
  obtain ⟨x, i, a, b, c, d, e, f⟩ := h ms hms
  exact ⟨x, i, a, b, c, by omega, e, by omega⟩

theorem Entries.ranges {lo hi : Nat} : ∀ {acc : List Matches}, Entries lo hi acc →
    ∃ R, rangesOf acc = .ok R ∧ R.length = acc.length ∧ ∀ r ∈ R, lo ≤ r.start ∧ r.start ≤ r.stop ∧ r.stop ≤ hi
  | [], _ => ⟨[], rfl, rfl, by simp⟩
  | ms :: acc, h => by
    obtain ⟨R, h1, h2, h3⟩ := Entries.ranges (acc := acc) (fun m hm => h m (by simp [hm]))
    obtain ⟨x, i, rfl, b, c, d, e, f⟩ := h ms (by simp)
    refine ⟨⟨i.start, i.stop⟩ :: R, ?_, by simp [h2], ?_⟩
    · simp only [rangesOf, range_single c b, h1, bind, Except.bind]
    · intro r hr
      rcases List.mem_cons.1 hr with rfl | hr
      · exact ⟨d, e, f⟩
      · exact h3 r hr

theorem Entries.append_one {lo hi : Nat} {acc : List Matches} (h : Entries lo hi acc) {x : MatchResult} {i : Info} (h1 : x.isOk = true)
    (h2 : x.info = some i) (h3 : lo ≤ i.start) (h4 : i.start ≤ i.stop) (h5 : i.stop ≤ hi) : Entries lo hi (acc ++ [[x]]) := by
  intro ms hms
  rcases List.mem_append.1 hms with hm | hm
  · exact h ms hm
  · simp only [List.mem_singleton] at hm
    exact ⟨x, i, hm, h1, h2, h3, h4, h5⟩

theorem Entries.allNone {lo hi : Nat} {acc : List Matches} (h : Entries lo hi acc) : allRangesNone acc = .ok acc.isEmpty := by
  cases acc with
  | nil => rfl
  | cons ms acc =>
    obtain ⟨x, i, rfl, b, c, _⟩ := h ms (by simp)
    simp only [allRangesNone, range_single c b, bind, Except.bind, List.isEmpty_cons]

theorem orderedLoop_tame {nx sm : Bool} : ∀ {rules : List (Rule E)}, (∀ r ∈ rules, r.Tame nx sm) → ∀ {acc : List Matches} {s : St E} (lo : Nat),
    s.ctx.cur.Fine nx sm → lo ≤ s.ctx.cur.start → Entries lo s.ctx.cur.start acc →
    ∃ d acc' s', orderedLoop rules acc s = .ok (d, acc', s') ∧ Moved nx sm s.ctx.cur s'.ctx.cur ∧ Entries lo s'.ctx.cur.start acc'
  | [], _, acc, s, lo, w, _, he => ⟨_, _, _, rfl, .refl w, he⟩
  | r :: rs, h, acc, s, lo, w, hlo, he => by
    obtain ⟨m, c', h1, h2⟩ := Rule.apply_tame (h r (by simp)) w
    have hrs : ∀ r ∈ rs, r.Tame nx sm := fun x hx => h x (by simp [hx])
    have hle := h2.moved.le
    simp only [orderedLoop, h1, bind, Except.bind]
    cases m with
    | none =>
      obtain ⟨d, acc', s', k1, k2, k3⟩ := orderedLoop_tame hrs (acc := acc) (s := ({ s with ctx := c' } : St E).fail noteFailure) lo
        h2.moved.fine (Nat.le_trans hlo hle) (he.mono (Nat.le_refl _) hle)
      exact ⟨d, acc', s', k1, h2.moved.trans k2, k3⟩
    | some x =>
      dsimp only
      split
      · rename_i hok
        have hok : x.isOk = true := by simpa [Matches.isOk] using hok
        obtain ⟨i, i1, i2, i3, i4⟩ := h2.found x rfl hok
        obtain ⟨d, acc', s', k1, k2, k3⟩ := orderedLoop_tame hrs (acc := acc ++ [[x]]) (s := { s with ctx := c' }) lo
          h2.moved.fine (Nat.le_trans hlo hle) ((he.mono (Nat.le_refl _) hle).append_one hok i1 (Nat.le_trans hlo i2) i3 i4)
        exact ⟨d, acc', s', k1, h2.moved.trans k2, k3⟩
      · split <;> exact ⟨_, _, _, rfl, h2.moved, he.mono (Nat.le_refl _) hle⟩

theorem repeatedLoop_tame {nx sm : Bool} {rule : Rule E} (hr : rule.Tame nx sm) : ∀ (n : Nat) {acc : List Matches} {s : St E} (lo : Nat),
    s.ctx.cur.Fine nx sm → lo ≤ s.ctx.cur.start → Entries lo s.ctx.cur.start acc →
    ∃ d acc' s', repeatedLoop rule n acc s = .ok (d, acc', s') ∧ Moved nx sm s.ctx.cur s'.ctx.cur ∧ Entries lo s'.ctx.cur.start acc' ∧
      (d = true → acc'.length = acc.length + n)
  | 0, acc, s, lo, w, _, he => ⟨_, _, _, rfl, .refl w, he, by simp⟩
  | n + 1, acc, s, lo, w, hlo, he => by
    obtain ⟨m, c', h1, h2⟩ := Rule.apply_tame hr w
    have hle := h2.moved.le
    simp only [repeatedLoop, h1, bind, Except.bind]
    cases m with
    | none => exact ⟨_, _, _, rfl, h2.moved, he.mono (Nat.le_refl _) hle, by simp⟩
    | some x =>
      dsimp only
      cases hx : x.ty with
      | failed f =>
        simp only [h2.related x f rfl hx, if_true]
        exact ⟨_, _, _, rfl, h2.moved, he.mono (Nat.le_refl _) hle, by simp⟩
      | _ =>
        dsimp only
        have hok : x.isOk = true := by simp [MatchResult.isOk, hx, MatchType.isOk]
        obtain ⟨i, i1, i2, i3, i4⟩ := h2.found x rfl hok
        obtain ⟨d, acc', s', k1, k2, k3, k4⟩ := repeatedLoop_tame hr n (acc := acc ++ [[x]]) (s := { s with ctx := c' }) lo
          h2.moved.fine (Nat.le_trans hlo hle) ((he.mono (Nat.le_refl _) hle).append_one hok i1 (Nat.le_trans hlo i2) i3 i4)
        refine ⟨d, acc', s', k1, h2.moved.trans k2, k3, fun hd => ?_⟩
        rw [k4 hd]; simp; omega

mutual
/-- A group which can be checked without a panic. -/
def Group.Tame (nx sm : Bool) : Group E → Prop
  | .never _ => False
  | .unordered d => d.Tame
  | .bounded d g => d.Tame ∧ (∃ p, g = .ordered [.plain p] ∨ ∃ n, g = .repeated (.plain p) n) ∧ g.Tame nx sm
  | .ordered rules => ∀ r ∈ rules, r.Tame nx sm
  | .repeated rule n => rule.Tame nx sm ∧ 1 ≤ n
  | .tree t => t.Tame nx sm
/-- A tree which can be checked without a panic. -/
def Tree.Tame (nx sm : Bool) : Tree E → Prop
  | .matchAll g => g.Tame nx sm
  | .matchAround root l r => root.Located ∧ l.Tame nx sm ∧ l.Closed ∧ r.Tame nx sm
  | .matchBefore root l => root.Located ∧ l.Tame nx sm
  | .matchAfter root r => root.Located ∧ r.Tame nx sm
/-- The group has no `CHECK-DAG` lines: its matches end where the cursor is afterwards. -/
def Group.Closed : Group E → Prop
  | .never _ => True
  | .unordered _ => False
  | .bounded _ _ => False
  | .ordered _ => True
  | .repeated _ _ => True
  | .tree t => t.Closed
/-- The tree has no `CHECK-DAG` lines. -/
def Tree.Closed : Tree E → Prop
  | .matchAll g => g.Closed
  | .matchAround _ l r => l.Closed ∧ r.Closed
  | .matchBefore _ l => l.Closed
  | .matchAfter _ r => r.Closed
end

/-- What is known after a group. -/
structure GroupFine (nx sm : Bool) (closed : Prop) (s : St E) (gr : GR) (s' : St E) : Prop where
  moved : Moved nx sm s.ctx.cur s'.ctx.cur
  noErr : ∀ f, gr ≠ .err f
  ranges : ∃ R, rangesOf gr.matches = .ok R ∧ (∀ r ∈ R, s.ctx.cur.start ≤ r.start ∧ r.start ≤ r.stop ∧ r.stop ≤ s.ctx.cur.stop) ∧
    (closed → ∀ r ∈ R, r.stop ≤ s'.ctx.cur.start) ∧ ((∃ ms, gr = .matched ms) → R ≠ [])

theorem Entries.fine {nx sm : Bool} {closed : Prop} {s s' : St E} {acc : List Matches} {gr : GR} (hm : Moved nx sm s.ctx.cur s'.ctx.cur)
    (he : Entries s.ctx.cur.start s'.ctx.cur.start acc) (hg : gr.matches = acc) (hne : ∀ f, gr ≠ .err f)
    (hn : (∃ ms, gr = .matched ms) → acc ≠ []) : GroupFine nx sm closed s gr s' := by
  obtain ⟨R, h1, h2, h3⟩ := he.ranges
  refine ⟨hm, hne, R, by rw [hg]; exact h1, ?_, fun _ r hr => (h3 r hr).2.2, ?_⟩
  · intro r hr
    have := h3 r hr
    have h4 := hm.fine.lo
    have h5 := hm.stop
    exact ⟨this.1, this.2.1, by omega⟩
  · intro hx hR
    subst hR
    exact hn hx (List.length_eq_zero_iff.1 h2.symm)

/-- Ordered and repeated groups. -/
theorem checkOrdered_tame {nx sm : Bool} {rules : List (Rule E)} (h : ∀ r ∈ rules, r.Tame nx sm) {s : St E} (w : s.ctx.cur.Fine nx sm) :
    ∃ gr s', checkOrdered rules s = .ok (gr, s') ∧ Moved nx sm s.ctx.cur s'.ctx.cur ∧ Entries s.ctx.cur.start s'.ctx.cur.start gr.matches ∧
      (∀ f, gr ≠ .err f) ∧ ((∃ ms, gr = .matched ms) → gr.matches ≠ []) := by
  obtain ⟨d, acc, s', h1, h2, h3⟩ := orderedLoop_tame h (acc := []) (s := s) s.ctx.cur.start w (Nat.le_refl _) (by intro m hm; simp at hm)
  simp only [checkOrdered, h1, bind, Except.bind]
  cases d with
  | false => exact ⟨_, _, rfl, h2, h3, by simp, by simp⟩
  | true =>
    simp only [if_true, h3.allNone]
    cases acc with
    | nil => exact ⟨_, _, rfl, h2, h3, by simp, by simp⟩
    | cons x xs => exact ⟨_, _, rfl, h2, h3, by simp, by simp [GR.matches]⟩

theorem checkRepeated_tame {nx sm : Bool} {rule : Rule E} {n : Nat} (h : rule.Tame nx sm) (hn : 1 ≤ n) {s : St E} (w : s.ctx.cur.Fine nx sm) :
    ∃ gr s', checkRepeated rule n s = .ok (gr, s') ∧ Moved nx sm s.ctx.cur s'.ctx.cur ∧ Entries s.ctx.cur.start s'.ctx.cur.start gr.matches ∧
      (∀ f, gr ≠ .err f) ∧ ((∃ ms, gr = .matched ms) → gr.matches ≠ []) := by
  obtain ⟨d, acc, s', h1, h2, h3, h4⟩ := repeatedLoop_tame h n (acc := []) (s := s) s.ctx.cur.start w (Nat.le_refl _) (by intro m hm; simp at hm)
  simp only [checkRepeated, h1, bind, Except.bind]
  cases d with
  | false => exact ⟨_, _, rfl, h2, h3, by simp, by simp⟩
  | true =>
    refine ⟨_, _, rfl, h2, h3, by simp, ?_⟩
    rintro - hnil
    have := h4 rfl
    simp only [if_true, GR.matches] at hnil
    rw [hnil] at this
    simp at this; omega

/-- The range of matches which are in order. -/
theorem range_tame {ms : Matches} {lo hi : Nat} (h1 : ∀ i ∈ ms.filterMap MatchResult.info, lo ≤ i.start ∧ i.start ≤ i.stop ∧ i.stop ≤ hi)
    (h2 : (ms.filterMap MatchResult.info).Pairwise (fun x y => x.start ≤ y.start)) :
    ∃ r, Matches.range ms = .ok r ∧ ∀ x, r = some x → lo ≤ x.start ∧ x.start ≤ x.stop ∧ x.stop ≤ hi := by
  have hhead : ms.findSome? MatchResult.matchedRange = (ms.filterMap MatchResult.info).head?.map Info.range := by
    induction ms with
    | nil => rfl
    | cons m ms ih =>
      simp only [List.findSome?_cons, List.filterMap_cons, MatchResult.matchedRange]
      cases hm : m.info with
      | none =>
        simp only [Option.map_none]
        refine ih ?_ ?_
        · simpa [List.filterMap_cons, hm] using h1
        · simpa [List.filterMap_cons, hm] using h2
      | some i => simp
  have hlast : ms.reverse.findSome? MatchResult.matchedRange = (ms.filterMap MatchResult.info).getLast?.map Info.range := by
    clear h1 h2 hhead
    induction ms with
    | nil => rfl
    | cons m ms ih =>
      rw [List.reverse_cons, List.findSome?_append, ih, List.filterMap_cons]
      cases hm : m.info with
      | none => cases h : (ms.filterMap MatchResult.info).getLast? <;> simp [MatchResult.matchedRange, hm]
      | some i =>
        rw [List.getLast?_cons]
        cases h : (ms.filterMap MatchResult.info).getLast? <;> simp [MatchResult.matchedRange, hm]
  have hpair : ∀ a z, (ms.filterMap MatchResult.info).head? = some a → (ms.filterMap MatchResult.info).getLast? = some z →
      a.start ≤ z.stop ∧ lo ≤ a.start ∧ z.stop ≤ hi := by
    intro a z ha hz
    have hza := List.mem_of_getLast? hz
    obtain ⟨_, z2, z3⟩ := h1 z hza
    cases hl : ms.filterMap MatchResult.info with
    | nil => rw [hl] at ha; simp at ha
    | cons y ys =>
      rw [hl] at ha hza h2
      simp only [List.head?_cons, Option.some.injEq] at ha
      subst ha
      obtain ⟨a1, _, _⟩ := h1 y (by rw [hl]; simp)
      rcases List.mem_cons.1 hza with rfl | hza
      · exact ⟨z2, a1, z3⟩
      · have := (List.pairwise_cons.1 h2).1 z hza
        exact ⟨by omega, a1, z3⟩
  have hgen : ∃ r, Matches.generalRange ms = .ok r ∧ ∀ x, r = some x → lo ≤ x.start ∧ x.start ≤ x.stop ∧ x.stop ≤ hi := by
    unfold Matches.generalRange
    rw [hhead, hlast]
    cases ha : (ms.filterMap MatchResult.info).head? with
    | none => exact ⟨none, rfl, by simp⟩
    | some a =>
      cases hz : (ms.filterMap MatchResult.info).getLast? with
      | none =>
        simp only [List.head?_eq_none_iff, List.getLast?_eq_none_iff] at ha hz
        rw [hz] at ha; simp at ha
      | some z =>
        obtain ⟨p1, p2, p3⟩ := hpair a z ha hz
        refine ⟨some ⟨a.start, z.stop⟩, ?_, ?_⟩
        · simp only [Option.map_some, Info.range, Rng.new, bind, Except.bind]
          rw [if_pos p1]
        · intro x hx
          simp only [Option.some.injEq] at hx
          subst hx; exact ⟨p2, p1, p3⟩
  unfold Matches.range
  split
  · exact hgen
  · rename_i m
    split
    · rename_i i hi' hok
      refine ⟨_, rfl, ?_⟩
      intro x hx
      simp only [Option.some.injEq] at hx
      subst hx
      exact h1 i (by simp [hi'])
    · exact hgen
  · rename_i m m' rest
    split
    · rename_i i i2 hi1 hok1 hi2 hok2
      have hp := hpair i i2 (by simp [List.filterMap_cons, hi1]) (by
        have : m :: m' :: rest = (m :: (m' :: rest).dropLast) ++ [(m' :: rest).getLast (by simp)] := by
          rw [List.cons_append, List.dropLast_append_getLast]
        rw [this, List.filterMap_append]
        simp [hi2])
      refine ⟨some ⟨i.start, i2.stop⟩, ?_, ?_⟩
      · simp only [Rng.new, bind, Except.bind]
        rw [if_pos hp.1]
      · intro x hx
        simp only [Option.some.injEq] at hx
        subst hx; exact ⟨hp.2.1, hp.1, hp.2.2⟩
    · exact hgen

/-- The matches of a `CHECK-DAG` group. -/
structure DagFine (nx sm : Bool) (c : Ctx E) (m : Option Matches) (c' : Ctx E) : Prop where
  moved : Moved nx sm c.cur c'.cur
  inside : ∀ ms, m = some ms → (∀ i ∈ ms.filterMap MatchResult.info, c.cur.start ≤ i.start ∧ i.start ≤ i.stop ∧ i.stop ≤ c.cur.stop) ∧
    (ms.filterMap MatchResult.info).Pairwise (fun x y => x.start ≤ y.start)

theorem Dag.apply_tame {nx sm : Bool} {d : Dag E} (hd : d.Tame) {c : Ctx E} (w : c.cur.Fine nx sm) :
    ∃ m c', d.apply c = .ok (m, c') ∧ DagFine nx sm c m c' := by
  simp only [Dag.apply, w.searchBlock, bind, Except.bind]
  cases hr : d.run c.cur.buf ⟨c.cur.start, c.cur.stop⟩ c.env with
  | none => exact ⟨_, _, rfl, .refl w, by simp⟩
  | some x =>
    obtain ⟨ms, pos, env'⟩ := x
    obtain ⟨h1, h2, h3⟩ := hd _ _ _ _ _ _ w.lo w.hi hr
    have hin : ∀ ms', some ms = some ms' → (∀ i ∈ ms'.filterMap MatchResult.info, c.cur.start ≤ i.start ∧ i.start ≤ i.stop ∧ i.stop ≤ c.cur.stop) ∧
        (ms'.filterMap MatchResult.info).Pairwise (fun x y => x.start ≤ y.start) := by
      intro ms' h
      simp only [Option.some.injEq] at h
      subst h; exact ⟨h1, h2⟩
    dsimp only
    cases pos with
    | none =>
      dsimp only
      split
      · exact ⟨_, _, rfl, .refl w, hin⟩
      · exact ⟨_, _, rfl, .refl w, hin⟩
    | some p =>
      have hp := h3 p rfl
      dsimp only at hp
      obtain ⟨c2, s1, s2, s3, s4, s5⟩ := w.setStart hp
      dsimp only
      rw [s1]
      dsimp only
      split
      · refine ⟨_, _, rfl, ⟨s2, s5, s4, ?_⟩, hin⟩
        show c.cur.start ≤ c2.start
        have := w.lo
        rw [s3]; omega
      · exact ⟨_, _, rfl, .refl w, hin⟩

theorem rangesOf_cons {ms : Matches} {rest : List Matches} {R : List Rng} {r : Option Rng} (h1 : Matches.range ms = .ok r)
    (h2 : rangesOf rest = .ok R) : rangesOf (ms :: rest) = .ok (r.toList ++ R) := by
  simp only [rangesOf, h1, h2, bind, Except.bind]
  cases r <;> rfl

theorem GroupFine.of_parts {nx sm : Bool} {closed : Prop} {s s' : St E} {gr : GR} {R : List Rng} (hm : Moved nx sm s.ctx.cur s'.ctx.cur)
    (hne : ∀ f, gr ≠ .err f) (hR : rangesOf gr.matches = .ok R)
    (h1 : ∀ r ∈ R, s.ctx.cur.start ≤ r.start ∧ r.start ≤ r.stop ∧ r.stop ≤ s.ctx.cur.stop)
    (h2 : closed → ∀ r ∈ R, r.stop ≤ s'.ctx.cur.start) (h3 : (∃ ms, gr = .matched ms) → R ≠ []) : GroupFine nx sm closed s gr s' :=
  ⟨hm, hne, R, hR, h1, h2, h3⟩

theorem checkUnordered_tame {nx sm : Bool} {d : Dag E} (hd : d.Tame) {s : St E} (w : s.ctx.cur.Fine nx sm) :
    ∃ gr s', checkUnordered d s = .ok (gr, s') ∧ GroupFine nx sm False s gr s' := by
  obtain ⟨m, c', h1, h2⟩ := Dag.apply_tame hd w
  simp only [checkUnordered, h1, bind, Except.bind]
  cases m with
  | none => exact ⟨_, _, rfl, h2.moved, by simp, [], rfl, by simp, by simp, by simp⟩
  | some ms =>
    obtain ⟨i1, i2⟩ := h2.inside ms rfl
    obtain ⟨r, hr, hr2⟩ := range_tame i1 i2
    simp only [hr]
    cases r with
    | none =>
      refine ⟨_, _, rfl, .of_parts (R := []) h2.moved (by simp) ?_ (by simp) (by simp) (by simp)⟩
      simpa [GR.matches] using rangesOf_cons hr (rest := []) rfl
    | some x =>
      refine ⟨_, _, rfl, .of_parts (R := [x]) h2.moved (by simp) ?_ ?_ (by simp) (by simp)⟩
      · simpa [GR.matches] using rangesOf_cons hr (rest := []) rfl
      · intro r hrr
        simp only [List.mem_singleton] at hrr
        subst hrr
        exact hr2 _ rfl

theorem discardOverlap_info (n : Nat) (m : MatchResult) : (discardOverlap n m).info = m.info ∨ (discardOverlap n m).info = none := by
  unfold discardOverlap
  repeat' split
  all_goals first | exact .inl rfl | exact .inr rfl

theorem filterMap_discard (n : Nat) : ∀ ms : Matches,
    ((ms.map (discardOverlap n)).filterMap MatchResult.info).Sublist (ms.filterMap MatchResult.info)
  | [] => by simp
  | m :: ms => by
    have ih := filterMap_discard n ms
    rw [List.map_cons, List.filterMap_cons, List.filterMap_cons]
    rcases discardOverlap_info n m with h | h
    · rw [h]
      cases m.info with
      | none => exact ih
      | some i => exact ih.cons_cons i
    · rw [h]
      cases m.info with
      | none => exact ih
      | some i => exact ih.cons i

theorem checkBounded_tame {nx sm : Bool} {d : Dag E} {g : Group E} (hd : d.Tame) {s : St E} (w : s.ctx.cur.Fine nx sm)
    (hg : ∀ {s : St E}, s.ctx.cur.Fine nx sm → ∃ gr s', checkGroup g s = .ok (gr, s') ∧ Moved nx sm s.ctx.cur s'.ctx.cur ∧
      Entries s.ctx.cur.start s'.ctx.cur.start gr.matches ∧ (∀ f, gr ≠ .err f) ∧ ((∃ ms, gr = .matched ms) → gr.matches ≠ [])) :
    ∃ gr s', checkGroup (.bounded d g) s = .ok (gr, s') ∧ GroupFine nx sm False s gr s' := by
  obtain ⟨left, c', h1, h2⟩ := Dag.apply_tame hd w
  obtain ⟨gr, s', k1, k2, k3, k4, k5⟩ := hg (s := { s with ctx := c' }) h2.moved.fine
  dsimp only at k2 k3
  have hmv : Moved nx sm s.ctx.cur s'.ctx.cur := h2.moved.trans k2
  have hlo := h2.moved.le
  have hst := hmv.stop
  have hfl := hmv.fine.lo
  obtain ⟨R, r1, r2, r3⟩ := k3.ranges
  have r3' : ∀ r ∈ R, s.ctx.cur.start ≤ r.start ∧ r.start ≤ r.stop ∧ r.stop ≤ s.ctx.cur.stop := by
    intro r hr
    have := r3 r hr
    exact ⟨by omega, this.2.1, by omega⟩
  simp only [checkGroup, h1, k1, bind, Except.bind]
  have hleft : ∀ lms, left = some lms → ∃ r, Matches.range lms = .ok r ∧
      ∀ x, r = some x → s.ctx.cur.start ≤ x.start ∧ x.start ≤ x.stop ∧ x.stop ≤ s.ctx.cur.stop :=
    fun lms h => range_tame (h2.inside lms h).1 (h2.inside lms h).2
  have hcons : ∀ (r : Option Rng), (∀ x, r = some x → s.ctx.cur.start ≤ x.start ∧ x.start ≤ x.stop ∧ x.stop ≤ s.ctx.cur.stop) →
      ∀ y ∈ r.toList ++ R, s.ctx.cur.start ≤ y.start ∧ y.start ≤ y.stop ∧ y.stop ≤ s.ctx.cur.stop := by
    intro r hr y hy
    rcases List.mem_append.1 hy with hy | hy
    · exact hr y (by simpa using hy)
    · exact r3' y hy
  cases gr with
  | err f => exact absurd rfl (k4 f)
  | unmatched rms =>
    simp only [GR.matches] at r1
    unfold combineBounded
    cases left with
    | none => exact ⟨_, _, rfl, .of_parts hmv (by simp) r1 r3' (by simp) (by simp)⟩
    | some lms =>
      obtain ⟨r, hr, hr2⟩ := hleft lms rfl
      simp only [hr, bind, Except.bind]
      cases r with
      | none => exact ⟨_, _, rfl, .of_parts hmv (by simp) (rangesOf_cons hr r1) (hcons _ hr2) (by simp) (by simp)⟩
      | some x => exact ⟨_, _, rfl, .of_parts hmv (by simp) (rangesOf_cons hr r1) (hcons _ hr2) (by simp) (by simp)⟩
  | matched rms =>
    simp only [GR.matches] at r1 k3
    have hne := k5 ⟨_, rfl⟩
    simp only [GR.matches] at hne
    unfold combineBounded
    cases rms with
    | nil => exact absurd rfl hne
    | cons r0 rest =>
      obtain ⟨x, i, hx1, hx2, hx3, _⟩ := k3 r0 (by simp)
      have hrr := range_single hx3 hx2
      rw [← hx1] at hrr
      simp only [hrr, bind, Except.bind]
      have hRne : R ≠ [] := by
        intro h0; subst h0; simp [GR.matches] at r2
      cases left with
      | none => exact ⟨_, _, rfl, .of_parts hmv (by simp) r1 r3' (by simp) (fun _ => hRne)⟩
      | some lms =>
        obtain ⟨r, hr, hr2⟩ := hleft lms rfl
        simp only [hr]
        have hkeep : ∃ gr' s'', (Except.ok (GR.matched (lms :: r0 :: rest), s') : P (GR × St E)) = .ok (gr', s'') ∧ GroupFine nx sm False s gr' s'' :=
          ⟨_, _, rfl, .of_parts hmv (by simp) (rangesOf_cons hr r1) (hcons _ hr2) (by simp) (fun _ => by simp [hRne])⟩
        cases r with
        | none => exact hkeep
        | some lr =>
          dsimp only
          split
          · obtain ⟨q1, q2⟩ := h2.inside lms rfl
            have hsub := filterMap_discard i.start lms
            obtain ⟨r', hr', hr2'⟩ := range_tame (fun j hj => q1 j (hsub.subset hj)) (q2.sublist hsub)
            exact ⟨_, _, rfl, .of_parts hmv (by simp) (rangesOf_cons hr' r1) (hcons _ hr2') (by simp) (fun _ => by simp [hRne])⟩
          · exact hkeep

/-! ## Trees -/

theorem checkNot_tame {p : Pat E} (hp : p.Located) {r : Rng} {s : St E} (h1 : r.start ≤ r.stop) (h2 : r.stop ≤ s.ctx.cur.buf.length) :
    ∃ nr s', checkNot p r s = .ok (nr, s') ∧ s'.ctx.cur = s.ctx.cur := by
  unfold checkNot
  cases hr : p.run s.ctx.cur.buf r s.ctx.env with
  | mk a env' =>
    cases a with
    | none => exact ⟨_, _, rfl, rfl⟩
    | some m =>
      dsimp only
      cases ho : m.isOk with
      | false => exact ⟨_, _, rfl, rfl⟩
      | true =>
        have := hp _ _ _ _ _ h1 h2 hr ho
        cases hi : m.info with
        | none => rw [hi] at this; simp at this
        | some i => exact ⟨_, _, rfl, rfl⟩

theorem excl_tame {p : Pat E} (hp : p.Located) {r : Rng} {s : St E} (h1 : r.start ≤ r.stop) (h2 : r.stop ≤ s.ctx.cur.buf.length) :
    ∃ extra s', excl p r s = .ok (extra, s') ∧ s'.ctx.cur = s.ctx.cur ∧ rangesOf extra = .ok [] := by
  obtain ⟨nr, s', k1, k2⟩ := checkNot_tame hp h1 h2
  simp only [excl, k1, bind, Except.bind]
  cases nr with
  | passed n => exact ⟨_, _, rfl, k2, rfl⟩
  | found i => exact ⟨_, _, rfl, k2, rfl⟩
  | err => exact ⟨_, _, rfl, k2, rfl⟩

theorem maxEnd_tame {ms : List Matches} {R : List Rng} (h : rangesOf ms = .ok R) (hne : R ≠ []) :
    ∃ e, maxEnd ms = .ok e ∧ ∃ r ∈ R, e = r.stop := by
  unfold maxEnd
  simp only [h, bind, Except.bind]
  cases R with
  | nil => exact absurd rfl hne
  | cons r R =>
    refine ⟨_, rfl, ?_⟩
    rcases (foldl_max_stop R r.stop).2.2 with h | ⟨x, hx, h⟩
    · exact ⟨r, by simp, h⟩
    · exact ⟨x, by simp [hx], h⟩

theorem minStart_tame {ms : List Matches} {R : List Rng} (h : rangesOf ms = .ok R) (hne : R ≠ []) :
    ∃ e, minStart ms = .ok e ∧ ∃ r ∈ R, e = r.start := by
  unfold minStart
  simp only [h, bind, Except.bind]
  cases R with
  | nil => exact absurd rfl hne
  | cons r R =>
    refine ⟨_, rfl, ?_⟩
    rcases (foldl_min_start R r.start).2.2 with h | ⟨x, hx, h⟩
    · exact ⟨r, by simp, h⟩
    · exact ⟨x, by simp [hx], h⟩

theorem assertNonEmpty_tame {ms : List Matches} {R : List Rng} (h : rangesOf ms = .ok R) (hne : R ≠ []) : assertNonEmpty ms = .ok () := by
  cases ms with
  | nil => simp [rangesOf] at h; exact absurd h hne
  | cons m ms => rfl

theorem moved_of_cur {nx sm : Bool} {c : Cursor} {s s' : St E} (h : Moved nx sm c s.ctx.cur) (h' : s'.ctx.cur = s.ctx.cur) :
    Moved nx sm c s'.ctx.cur := by rw [h']; exact h

/-- The exclusion region before the matches `rms` of the right-hand side, which begins at `le`, and what is reported. -/
theorem region_tame {nx sm : Bool} {root : Pat E} (hroot : root.Located) {s s1 s2 : St E} {le : Nat} {rms : List Matches} {R Rr : List Rng}
    {closed : Prop} (hm : Moved nx sm s.ctx.cur s2.ctx.cur) (hle : le ≤ s1.ctx.cur.start)
    (hr : ∀ r ∈ Rr, s1.ctx.cur.start ≤ r.start ∧ r.start ≤ r.stop ∧ r.stop ≤ s.ctx.cur.stop)
    (hrr : rangesOf rms = .ok Rr) (hne : Rr ≠ []) (order : List Matches → List Matches)
    (horder : ∀ extra, rangesOf extra = .ok [] → rangesOf (order extra) = .ok R) (hRne : R ≠ [])
    (hRin : ∀ r ∈ R, s.ctx.cur.start ≤ r.start ∧ r.start ≤ r.stop ∧ r.stop ≤ s.ctx.cur.stop) (hclosed : closed → ∀ r ∈ R, r.stop ≤ s2.ctx.cur.start) :
    ∃ gr s', (do
      assertNonEmpty rms
      let rightStart ← minStart rms
      let r ← s2.ctx.cur.searchRange le rightStart
      let (extra, s) ← excl root r s2
      .ok (.matched (order extra), s) : P (GR × St E)) = .ok (gr, s') ∧ GroupFine nx sm closed s gr s' := by
  obtain ⟨rs, h1, x, hx, rfl⟩ := minStart_tame hrr hne
  have hx2 := hr x hx
  have hs := hm.fine.hi
  have hs2 := hm.stop
  have hsr : s2.ctx.cur.searchRange le x.start = .ok ⟨le, x.start⟩ := bounded_ok (by omega) (by omega)
  obtain ⟨extra, s', e1, e2, e3⟩ := excl_tame hroot (r := ⟨le, x.start⟩) (s := s2) (by dsimp only; omega) (by dsimp only; omega)
  simp only [assertNonEmpty_tame hrr hne, h1, hsr, e1, bind, Except.bind]
  refine ⟨_, _, rfl, .of_parts (moved_of_cur hm e2) (by simp) (horder _ e3) hRin ?_ (fun _ => hRne)⟩
  intro hc r hr'
  rw [e2]; exact hclosed hc r hr'

theorem expectNoErr_tame {gr : GR} {s : St E} (h : ∀ f, gr ≠ .err f) : ∃ b, expectNoErr (gr, s) = .ok (b, gr.matches, s) ∧
    (b = true ↔ ∃ ms, gr = .matched ms) := by
  cases gr with
  | matched ms => exact ⟨true, rfl, by simp⟩
  | unmatched ms => exact ⟨false, rfl, by simp⟩
  | err f => exact absurd rfl (h f)

theorem GroupFine.weaken {nx sm : Bool} {c c' : Prop} {s s' : St E} {gr : GR} (h : GroupFine nx sm c s gr s') (hc : c' → c) :
    GroupFine nx sm c' s gr s' := by
  obtain ⟨h1, h2, R, h3, h4, h5, h6⟩ := h
  exact ⟨h1, h2, R, h3, h4, fun x => h5 (hc x), h6⟩

mutual
/-- Groups do not panic. -/
theorem checkGroup_tame {nx sm : Bool} : ∀ (g : Group E) {s : St E}, g.Tame nx sm → s.ctx.cur.Fine nx sm →
    ∃ gr s', checkGroup g s = .ok (gr, s') ∧ GroupFine nx sm g.Closed s gr s'
  | .never p, s, h, w => by simp [Group.Tame] at h
  | .ordered rules, s, h, w => by
    simp only [Group.Tame] at h
    obtain ⟨gr, s', h1, h2, h3, h4, h5⟩ := checkOrdered_tame h w
    exact ⟨gr, s', by rw [checkGroup]; exact h1, h3.fine h2 rfl h4 h5⟩
  | .repeated rule n, s, h, w => by
    simp only [Group.Tame] at h
    obtain ⟨gr, s', h1, h2, h3, h4, h5⟩ := checkRepeated_tame h.1 h.2 w
    exact ⟨gr, s', by rw [checkGroup]; exact h1, h3.fine h2 rfl h4 h5⟩
  | .unordered d, s, h, w => by
    simp only [Group.Tame] at h
    obtain ⟨gr, s', h1, h2⟩ := checkUnordered_tame h w
    exact ⟨gr, s', by rw [checkGroup]; exact h1, h2.weaken (by simp [Group.Closed])⟩
  | .bounded d g, s, h, w => by
    simp only [Group.Tame] at h
    obtain ⟨hd, ⟨p, hp⟩, hg⟩ := h
    obtain ⟨gr, s', h1, h2⟩ := checkBounded_tame (g := g) hd w (fun {s} w => by
      rcases hp with rfl | ⟨n, rfl⟩
      · simp only [Group.Tame] at hg
        rw [checkGroup]; exact checkOrdered_tame hg w
      · simp only [Group.Tame] at hg
        rw [checkGroup]; exact checkRepeated_tame hg.1 hg.2 w)
    exact ⟨gr, s', h1, h2.weaken (by simp [Group.Closed])⟩
  | .tree t, s, h, w => by
    simp only [Group.Tame] at h
    obtain ⟨gr, s', h1, h2⟩ := checkTree_tame t h w
    exact ⟨gr, s', by rw [checkGroup]; exact h1, h2.weaken (by simp [Group.Closed])⟩
/-- Trees do not panic. -/
theorem checkTree_tame {nx sm : Bool} : ∀ (t : Tree E) {s : St E}, t.Tame nx sm → s.ctx.cur.Fine nx sm →
    ∃ gr s', checkTree t s = .ok (gr, s') ∧ GroupFine nx sm t.Closed s gr s'
  | .matchAll g, s, h, w => by
    simp only [Tree.Tame] at h
    obtain ⟨gr, s', h1, h2⟩ := checkGroup_tame g h w
    exact ⟨gr, s', by rw [checkTree]; exact h1, h2.weaken (by simp [Tree.Closed])⟩
  | .matchAround root l r, s, h, w => by
    simp only [Tree.Tame] at h
    obtain ⟨hroot, hl, hlc, hr⟩ := h
    obtain ⟨gl, s1, l1, l2, l3, Rl, l4, l5, l6, l7⟩ := checkTree_tame l hl w
    obtain ⟨gr, s2, r1, r2, r3, Rr, r4, r5, r6, r7⟩ := checkTree_tame r hr l2.fine
    obtain ⟨bl, e1, e2⟩ := expectNoErr_tame (s := s1) l3
    obtain ⟨br, e3, e4⟩ := expectNoErr_tame (s := s2) r3
    have hm := l2.trans r2
    have hs1 := l2.stop
    have hle1 := l2.le
    have hle2 := r2.le
    have hR : rangesOf (gl.matches ++ gr.matches) = .ok (Rl ++ Rr) := rangesOf_append l4 r4
    have hin : ∀ x ∈ Rl ++ Rr, s.ctx.cur.start ≤ x.start ∧ x.start ≤ x.stop ∧ x.stop ≤ s.ctx.cur.stop := by
      intro x hx
      rcases List.mem_append.1 hx with hx | hx
      · exact l5 x hx
      · have := r5 x hx
        exact ⟨by omega, this.2.1, by omega⟩
    have hcl : (Tree.matchAround root l r).Closed → ∀ x ∈ Rl ++ Rr, x.stop ≤ s2.ctx.cur.start := by
      intro hc x hx
      simp only [Tree.Closed] at hc
      rcases List.mem_append.1 hx with hx | hx
      · have := l6 hlc x hx; omega
      · exact r6 hc.2 x hx
    have hrin : ∀ x ∈ Rr, s1.ctx.cur.start ≤ x.start ∧ x.start ≤ x.stop ∧ x.stop ≤ s.ctx.cur.stop := by
      intro x hx
      have := r5 x hx
      exact ⟨this.1, this.2.1, by omega⟩
    have hord : ∀ extra, rangesOf extra = .ok [] → rangesOf (gl.matches ++ extra ++ gr.matches) = .ok (Rl ++ Rr) := by
      intro extra he
      have := rangesOf_append (rangesOf_append l4 he) r4
      simpa using this
    rw [checkTree]
    simp only [l1, e1, bind, Except.bind]
    cases bl with
    | true =>
      have hlne := l7 (e2.1 rfl)
      obtain ⟨le, m1, x, hx, rfl⟩ := maxEnd_tame l4 hlne
      have hxle := l6 hlc x hx
      simp only [if_true, assertNonEmpty_tame l4 hlne, m1, r1, e3]
      cases br with
      | false =>
        simp only [aroundAfterLeft]
        exact ⟨_, _, rfl, .of_parts (s' := s2.pass root.len) hm (by simp) hR hin hcl (fun _ => by simp [hlne])⟩
      | true =>
        have hrne := r7 (e4.1 rfl)
        exact region_tame hroot hm hxle hrin r4 hrne (fun extra => gl.matches ++ extra ++ gr.matches) hord (by simp [hrne]) hin hcl
    | false =>
      simp only [Bool.false_eq_true, if_false, r1, e3]
      cases br with
      | false =>
        simp only [aroundNoLeft]
        exact ⟨_, _, rfl, .of_parts (s' := s2.pass root.len) hm (by simp) hR hin hcl (by simp)⟩
      | true =>
        have hrne := r7 (e4.1 rfl)
        exact region_tame hroot hm (Nat.le_refl _) hrin r4 hrne (fun extra => gl.matches ++ extra ++ gr.matches) hord (by simp [hrne]) hin hcl
  | .matchBefore root l, s, h, w => by
    simp only [Tree.Tame] at h
    obtain ⟨gl, s1, l1, l2, l3, Rl, l4, l5, l6, l7⟩ := checkTree_tame l h.2 w
    obtain ⟨bl, e1, e2⟩ := expectNoErr_tame (s := s1) l3
    have hle1 := l2.le
    have hst := l2.fine.lo
    rw [checkTree]
    simp only [l1, e1, bind, Except.bind]
    have hord : ∀ extra, rangesOf extra = .ok [] → rangesOf (gl.matches ++ extra) = .ok Rl := by
      intro extra he
      simpa using rangesOf_append l4 he
    cases bl with
    | true =>
      have hlne := l7 (e2.1 rfl)
      obtain ⟨extra, s', x1, x2, x3⟩ := excl_tame h.1 (r := ⟨s1.ctx.cur.start, s1.ctx.cur.stop⟩) (s := s1) hst l2.fine.hi
      simp only [afterBefore, assertNonEmpty_tame l4 hlne, l2.fine.searchBlock, x1, bind, Except.bind]
      refine ⟨_, _, rfl, .of_parts (moved_of_cur l2 x2) (by simp) (hord _ x3) l5 ?_ (fun _ => hlne)⟩
      intro hc r hr
      rw [x2]; exact l6 (by simpa [Tree.Closed] using hc) r hr
    | false =>
      have hsr : s1.ctx.cur.searchRange s.ctx.cur.start s1.ctx.cur.stop = .ok ⟨s.ctx.cur.start, s1.ctx.cur.stop⟩ :=
        bounded_ok (by omega) l2.fine.hi
      obtain ⟨extra, s', x1, x2, x3⟩ := excl_tame h.1 (r := ⟨s.ctx.cur.start, s1.ctx.cur.stop⟩) (s := s1) (by dsimp only; omega) l2.fine.hi
      simp only [afterBefore, hsr, x1, bind, Except.bind]
      refine ⟨_, _, rfl, .of_parts (moved_of_cur l2 x2) (by simp) (hord _ x3) l5 ?_ (by simp)⟩
      intro hc r hr
      rw [x2]; exact l6 (by simpa [Tree.Closed] using hc) r hr
  | .matchAfter root r, s, h, w => by
    simp only [Tree.Tame] at h
    obtain ⟨gr, s2, r1, r2, r3, Rr, r4, r5, r6, r7⟩ := checkTree_tame r h.2 w
    obtain ⟨br, e3, e4⟩ := expectNoErr_tame (s := s2) r3
    rw [checkTree]
    simp only [r1, e3, bind, Except.bind]
    cases br with
    | false =>
      simp only [afterAfter]
      exact ⟨_, _, rfl, .of_parts (s' := s2.pass root.len) r2 (by simp) r4 r5 (fun hc => r6 (by simpa [Tree.Closed] using hc)) (by simp)⟩
    | true =>
      have hrne := r7 (e4.1 rfl)
      exact region_tame h.1 (s1 := s) r2 (Nat.le_refl _) r5 r4 hrne (fun extra => gr.matches ++ extra)
        (fun extra he => by simpa using rangesOf_append r4 he) hrne r5 (by simpa [Tree.Closed] using r6)
end

/-- A group of a block. -/
def Group.Harmless (nx sm : Bool) (g : Group E) : Prop := g.Tame nx sm ∨ ∃ p, g = .never p ∧ p.Located

theorem checkOne_tame {nx sm : Bool} {g : Group E} (h : g.Harmless nx sm) {s : St E} (w : s.ctx.cur.Fine nx sm) :
    ∃ s', checkOne g s = .ok s' ∧ Moved nx sm s.ctx.cur s'.ctx.cur := by
  rcases h with h | ⟨p, rfl, hp⟩
  · obtain ⟨gr, s', h1, h2⟩ := checkGroup_tame g h w
    simp only [checkOne, h1, bind, Except.bind]
    cases gr with
    | matched ms => exact ⟨_, rfl, h2.moved⟩
    | unmatched ms => exact ⟨_, rfl, h2.moved⟩
    | err f => exact ⟨_, rfl, h2.moved⟩
  · obtain ⟨nr, s', k1, k2⟩ := checkNot_tame hp (r := ⟨s.ctx.cur.start, s.ctx.cur.stop⟩) (s := s) w.lo w.hi
    have hk : Moved nx sm s.ctx.cur s'.ctx.cur := by rw [k2]; exact .refl w
    simp only [checkOne, checkGroup, checkNever, w.searchBlock, k1, bind, Except.bind]
    cases nr with
    | passed n => exact ⟨_, rfl, hk⟩
    | found i => exact ⟨_, rfl, hk⟩
    | err => exact ⟨_, rfl, hk⟩

theorem checkGroups_tame {nx sm : Bool} : ∀ {gs : List (Group E)} {s : St E}, (∀ g ∈ gs, g.Harmless nx sm) → s.ctx.cur.Fine nx sm →
    ∃ s', checkGroups gs s = .ok s' ∧ Moved nx sm s.ctx.cur s'.ctx.cur
  | [], s, _, w => ⟨s, rfl, .refl w⟩
  | g :: gs, s, h, w => by
    obtain ⟨s1, h1, h2⟩ := checkOne_tame (h g (by simp)) w
    obtain ⟨s2, h3, h4⟩ := checkGroups_tame (gs := gs) (fun x hx => h x (by simp [hx])) h2.fine
    exact ⟨s2, by simp only [checkGroups, h1, h3, bind, Except.bind], h2.trans h4⟩

theorem checkGroupSections_tame {nx sm : Bool} : ∀ {gs : List (Group E)} {s : St E}, (∀ g ∈ gs, g.Harmless nx sm) → s.ctx.cur.Fine nx sm →
    ∃ s', checkGroupSections (gs.map .group) s = .ok s' ∧ Moved nx sm s.ctx.cur s'.ctx.cur
  | [], s, _, w => ⟨s, rfl, .refl w⟩
  | g :: gs, s, h, w => by
    obtain ⟨s1, h1, h2⟩ := checkOne_tame (h g (by simp)) w
    obtain ⟨s2, h3, h4⟩ := checkGroupSections_tame (gs := gs) (fun x hx => h x (by simp [hx])) h2.fine
    exact ⟨s2, by simp only [List.map_cons, checkGroupSections, h1, h3, bind, Except.bind], h2.trans h4⟩

end Litcheck
