import Verif.Spec.InOrder
import Verif.Proofs.Literal
import Verif.Model.Filecheck

/-!
# Plain literal checks: greedy search is complete
-/

namespace Litcheck
open Spec
variable {E : Type}

theorem Spec.InOrder.mono {ic : Bool} {b : Buf} {p q : Nat} {lits : List Buf} (h : InOrder ic b p lits) (hq : q ≤ p) :
    InOrder ic b q lits := by
  cases h with
  | nil => exact .nil
  | cons h1 h2 h3 => exact .cons (by omega) h2 h3

theorem setStart_any {c : Cursor} (_h1 : c.start ≤ c.stop) (h2 : c.stop ≤ c.buf.length) (s : Nat) :
    ∃ c', c.setStart s = .ok c' ∧ c'.start = min s c.stop ∧ c'.stop = c.stop ∧ c'.buf = c.buf := by
  have hb : ∃ nl, ({ c with start := min s c.stop } : Cursor).nextNewlineInRange (.included (min s c.stop)) (.excluded c.stop) = .ok nl := by
    simp only [Cursor.nextNewlineInRange, bounded_ok (b := c.buf) (by omega : min s c.stop ≤ c.stop) h2, bind, Except.bind]
    exact ⟨_, rfl⟩
  obtain ⟨nl, hnl⟩ := hb
  unfold Cursor.setStart
  simp only
  split
  · split
    · rw [hnl]; exact ⟨{ c with start := min s c.stop, eol := nl.getD c.stop }, rfl, rfl, rfl, rfl⟩
    · exact ⟨{ c with start := min s c.stop }, rfl, rfl, rfl, rfl⟩
  · split
    · rw [hnl]; exact ⟨{ c with start := min s c.stop, eol := nl.getD c.stop }, rfl, rfl, rfl, rfl⟩
    · exact ⟨{ c with start := min s c.stop }, rfl, rfl, rfl, rfl⟩

theorem Spec.Occurs.le {ic : Bool} {lit b : Buf} {s e : Nat} (h : Occurs ic lit b s e) (hne : lit ≠ []) :
    s < e ∧ e ≤ b.length := by
  obtain ⟨rfl, ho⟩ := h
  have hl := List.length_pos_iff.2 hne
  refine ⟨by omega, ?_⟩
  obtain ⟨y, hy, _⟩ := ho (lit.length - 1) (lit[lit.length - 1]'(by omega)) (by simp [hl])
  have := (List.getElem?_eq_some_iff.1 hy).1
  omega

/-- One plain literal check, on the whole rest of the input. -/
theorem applyPlain_lit {ic : Bool} {lit : Buf} {ps : Nat} {c : Ctx E} (h1 : c.cur.start ≤ c.cur.stop)
    (h2 : c.cur.stop = c.cur.buf.length) (hne : lit ≠ []) :
    (∃ s e cur', Rule.applyPlain (litPat ic lit ps) c = .ok (some (.ok ⟨s, e, 0, ps⟩), ⟨cur', c.env⟩) ∧
      c.cur.start ≤ s ∧ Occurs ic lit c.cur.buf s e ∧
      (∀ s' e', c.cur.start ≤ s' → Occurs ic lit c.cur.buf s' e' → e ≤ e') ∧
      cur'.start = e ∧ cur'.stop = cur'.buf.length ∧ cur'.buf = c.cur.buf) ∨
    (Rule.applyPlain (litPat ic lit ps) c = .ok (some matchNone, c) ∧
      ∀ s' e', c.cur.start ≤ s' → ¬ Occurs ic lit c.cur.buf s' e') := by
  have hr : c.cur.searchBlock = .ok ⟨c.cur.start, c.cur.stop⟩ := bounded_ok h1 (by omega)
  rcases litPat_run (ic := ic) (lit := lit) (ps := ps) c.cur.buf ⟨c.cur.start, c.cur.stop⟩ c.env with
    ⟨s, e, h3, h4, h5, h6, h7⟩ | ⟨h3, h4⟩
  · left
    obtain ⟨cur', k1, k2, k3, k4⟩ := setStart_any h1 (by omega) e
    refine ⟨s, e, cur', ?_, h4, h6, ?_, by rw [k2]; simp only at h5; omega, by rw [k3, k4, h2], k4⟩
    · simp only [Rule.applyPlain, hr, Pat.tryProtected, h3, Rule.finish, MatchResult.ok, MatchResult.isOk, MatchType.isOk,
        bind, Except.bind, if_true, k1]
    · intro s' e' hs ho
      have hb := ho.le hne
      have := h7 s' e' hs (by simp only; omega) ho
      have := h6.1
      have := ho.1
      omega
  · right
    refine ⟨?_, ?_⟩
    · simp [Rule.applyPlain, hr, Pat.tryProtected, h3, Rule.finish, matchNone, MatchResult.failed, MatchResult.isOk,
        MatchType.isOk, bind, Except.bind]
    · intro s' e' hs ho
      have hb := ho.le hne
      exact h4 s' e' hs (by simp only; omega) (by simp only; omega) ho

/-- The loop of an ordered group of plain literal checks. -/
theorem orderedLoop_lits {ic : Bool} {b : Buf} : ∀ (lits : List (Buf × Nat)) (acc : List Matches) (st : St E),
    (∀ x ∈ lits, x.1 ≠ []) → st.ctx.cur.buf = b → st.ctx.cur.start ≤ st.ctx.cur.stop → st.ctx.cur.stop = b.length →
    ∃ (d : Bool) (infos : List Info) (st' : St E), orderedLoop (lits.map (fun x => Rule.plain (litPat ic x.1 x.2))) acc st =
        .ok (d, acc ++ infos.map (fun i => [MatchResult.ok i]), st') ∧
      ((InOrder ic b st.ctx.cur.start (lits.map Prod.fst) ∧ d = true ∧ infos.length = lits.length ∧ st'.res = st.res) ∨
       (¬ InOrder ic b st.ctx.cur.start (lits.map Prod.fst) ∧ d = false ∧ ∃ f, st'.res = st.res.addFailed f))
  | [], acc, st, _, _, _, _ => ⟨true, [], st, by simp [orderedLoop], .inl ⟨.nil, rfl, rfl, rfl⟩⟩
  | x :: xs, acc, st, hne, hb, h1, h2 => by
    rcases applyPlain_lit (ic := ic) (lit := x.1) (ps := x.2) (c := st.ctx) h1 (by rw [h2, hb]) (hne x (by simp)) with
      ⟨s, e, cur', k1, k2, k3, k4, k5, k6, k7⟩ | ⟨k1, k2⟩
    · have hbd := k3.le (hne x (by simp))
      obtain ⟨d, infos, st', j1, j2⟩ := orderedLoop_lits xs (acc ++ [[.ok ⟨s, e, 0, x.2⟩]]) { st with ctx := ⟨cur', st.ctx.env⟩ }
        (fun y hy => hne y (by simp [hy])) (by simp only; rw [k7, hb]) (by simp only; rw [k5, k6, k7]; exact hbd.2)
        (by simp only; rw [k6, k7, hb])
      refine ⟨d, ⟨s, e, 0, x.2⟩ :: infos, st', ?_, ?_⟩
      · simp only [List.map_cons, orderedLoop, Rule.apply, k1, bind, Except.bind]
        have : Matches.isOk [MatchResult.ok ⟨s, e, 0, x.2⟩] = true := rfl
        rw [if_pos this, j1]
        simp
      · simp only at j2
        rw [k5] at j2
        rcases j2 with ⟨j3, j4, j5, j6⟩ | ⟨j3, j4, j5⟩
        · exact .inl ⟨.cons k2 (by rw [hb] at k3; exact k3) j3, j4, by simp [j5], j6⟩
        · right
          refine ⟨?_, j4, j5⟩
          intro hi
          cases hi with
          | cons m1 m2 m3 =>
            exact j3 (m3.mono (k4 _ _ m1 (by rw [hb]; exact m2)))
    · refine ⟨false, [], st.fail (match xs with | [] => ⟨.noneButExpected, true⟩ | _ => ⟨.groupFailed, false⟩), ?_, .inr ⟨?_, rfl, _, rfl⟩⟩
      · simp only [List.map_cons, orderedLoop, Rule.apply, k1, bind, Except.bind]
        have : Matches.isOk [matchNone] = false := rfl
        rw [if_neg (by simp [this])]
        cases xs <;> simp [matchNone, MatchResult.failed]
      · intro hi
        cases hi with
        | cons m1 m2 m3 => exact k2 _ _ m1 (by rw [hb]; exact m2)

/-- Plain `CHECK` lines for the given literals. -/
def plainLines (ic : Bool) (lits : List (Buf × Nat)) : List (Line E) := lits.map (fun x => litLine ic .plain x.1 x.2)

theorem compile_plain (sc : SetCompiler E) (ic : Bool) {lits : List (Buf × Nat)} (hne : lits ≠ []) :
    compile sc none (plainLines ic lits) =
      .ok (.ok [.group (.ordered (lits.map (fun x => Rule.plain (litPat ic x.1 x.2))))]) := by
  have hloop : ∀ (ls : List (Buf × Nat)) (block : List (Line E)),
      compileLinesLoop none (plainLines ic ls) none block [] =
        if (block ++ plainLines ic ls).isEmpty then .ok [] else .ok [(none, block ++ plainLines ic ls)] := by
    intro ls
    induction ls with
    | nil => intro block; cases block <;> simp [plainLines, compileLinesLoop]
    | cons x xs ih =>
      intro block
      have := ih (block ++ [litLine ic .plain x.1 x.2])
      simp only [plainLines] at this ⊢
      simp only [List.map_cons, compileLinesLoop, litLine, Option.isSome_none, Bool.false_eq_true, if_false, Option.toList_none, List.append_nil, reduceCtorEq]
      simp only [litLine] at this
      rw [this]
      simp
  have hall : ∀ l ∈ (plainLines ic lits : List (Line E)), l.endsOrdered = false := by
    intro l hl
    obtain ⟨x, _, rfl⟩ := List.mem_map.1 hl
    rfl
  cases lits with
  | nil => exact absurd rfl hne
  | cons x xs =>
    have hcl : compileLines none (plainLines (E := E) ic (x :: xs)) = .ok [(none, plainLines ic (x :: xs))] := by
      unfold compileLines
      rw [Option.toList_none, hloop]
      simp [plainLines]
    unfold compile
    rw [hcl]
    have htw : ∀ ls : List (Buf × Nat), (plainLines (E := E) ic ls).takeWhile (fun l => !l.endsOrdered) = plainLines ic ls ∧
        (plainLines (E := E) ic ls).dropWhile (fun l => !l.endsOrdered) = [] := by
      intro ls
      induction ls with
      | nil => simp [plainLines]
      | cons y ys ih =>
        simp only [plainLines, List.map_cons] at ih ⊢
        have he : (litLine (E := E) ic .plain y.1 y.2).endsOrdered = false := rfl
        rw [List.takeWhile_cons, List.dropWhile_cons]
        simp [he, ih]
    have hlen : (plainLines (E := E) ic (x :: xs)).length = xs.length + 1 := by simp [plainLines]
    have hbody : compileBody sc (plainLines (E := E) ic (x :: xs)).length (plainLines ic (x :: xs)) [] none =
        .ok (.ok ([.ordered ((x :: xs).map (fun x => Rule.plain (litPat ic x.1 x.2)))], none)) := by
      rw [hlen]
      have hcons : (plainLines (E := E) ic (x :: xs)) = litLine ic .plain x.1 x.2 :: plainLines ic xs := rfl
      rw [hcons, compileBody]
      simp only [litLine]
      rw [(htw xs).1, (htw xs).2]
      cases xs.length <;> simp [compileBody, pushGroup, plainLines, compileRule, litLine, Function.comp_def]
    have hnb : (plainLines (E := E) ic (x :: xs)).isEmpty = false := rfl
    simp [hnb, compileBlocks, hbody, bind, Except.bind]

theorem appendAll_ok (infos : List Info) (t : TestResult) :
    (t.appendAll (infos.map (fun i => [MatchResult.ok i]))).errors = t.errors := by
  induction infos generalizing t with
  | nil => rfl
  | cons i is ih =>
    simp only [List.map_cons, TestResult.appendAll, List.foldl_cons] at ih ⊢
    rw [ih]
    simp [TestResult.append, TestResult.appendOne, MatchResult.intoResult, MatchResult.ok, TestResult.addMatched]

theorem allRanges_infos (i : Info) (is : List Info) :
    allRangesNone ((i :: is).map (fun i => [MatchResult.ok i])) = .ok false := by
  simp [allRangesNone, Matches.range, MatchResult.ok, MatchResult.isOk, MatchType.isOk, bind, Except.bind]

theorem verdict_pass {tr : TestResult} (h : tr.errors = []) : ∃ ms, verdict (.ok tr) = .pass ms := by
  have hok : tr.isOk = true := by simp [TestResult.isOk, h]
  exact ⟨_, by simp only [verdict, TestResult.intoResult, if_pos hok]; rfl⟩

theorem verdict_fail {tr : TestResult} (h : tr.errors ≠ []) : verdict (.ok tr) = .fail tr.errors := by
  have hok : ¬ tr.isOk = true := by simpa [TestResult.isOk] using h
  simp only [verdict, TestResult.intoResult, if_neg hok]

/-- The verdict for plain literal checks. -/
theorem plain_verdict (ic : Bool) (o : CheckOpts) (clear : E → E) {lits : List (Buf × Nat)} (hne : lits ≠ [])
    (hnn : ∀ x ∈ lits, x.1 ≠ []) (env : E) (b : Buf) :
    (InOrder ic b 0 (lits.map Prod.fst) ∧
      ∃ ms, verify (litSet ic) o clear none (plainLines ic lits) env b = .ok (.pass ms)) ∨
    (¬ InOrder ic b 0 (lits.map Prod.fst) ∧
      ∃ fs, verify (litSet ic) o clear none (plainLines ic lits) env b = .ok (.fail fs)) := by
  unfold verify filecheck
  rw [compile_plain (litSet ic) ic hne]
  simp only [bind, Except.bind]
  obtain ⟨nl, hnl⟩ := nextFrom_ok (b := b) (p := 0) (by omega)
  have hnew : Cursor.new b = .ok ⟨b, 0, b.length, nl.offset, nl.isCrlf⟩ := by
    simp [Cursor.new, Newline.next, hnl, bind, Except.bind]
  unfold checkInput
  simp only [hnew, bind, Except.bind]
  by_cases hemp : (!o.allowEmpty && b.isEmpty) = true
  · rw [if_pos hemp]
    right
    refine ⟨?_, [⟨.emptyInput, false⟩], ?_⟩
    · intro hi
      cases lits with
      | nil => exact hne rfl
      | cons x xs =>
        cases hi with
        | cons h1 h2 h3 =>
          have := h2.le (hnn x (by simp))
          simp at hemp
          rw [hemp.2] at this
          simp at this; omega
    · simp [verdict, TestResult.fromErrors, TestResult.intoResult, TestResult.isOk]
  · rw [if_neg hemp]
    have hreset : (⟨b, 0, b.length, nl.offset, nl.isCrlf⟩ : Cursor).reset = .ok ⟨b, 0, b.length, nl.offset, nl.isCrlf⟩ := by
      simp [Cursor.reset, Newline.next, hnl, bind, Except.bind]
    simp only [discoverBlocks, discoverLoop, hreset, bind, Except.bind, List.isEmpty_nil, if_true, List.takeWhile,
      Section.isBlock, Bool.not_false, List.length_cons, List.length_nil, List.reverse_cons, List.reverse_nil, List.nil_append]
    have hsb : ∃ eol, (⟨b, 0, b.length, nl.offset, nl.isCrlf⟩ : Cursor).setBounds ⟨0, b.length⟩ = .ok ⟨b, 0, b.length, eol, nl.isCrlf⟩ := by
      have hnx : ∃ r, (⟨b, 0, b.length, nl.offset, nl.isCrlf⟩ : Cursor).nextNewlineFrom 0 = .ok r := by
        simp only [Cursor.nextNewlineFrom, Cursor.nextNewlineInRange, bounded_from_ok (b := b) (Nat.zero_le _), bind, Except.bind]
        exact ⟨_, rfl⟩
      obtain ⟨r, hr⟩ := hnx
      refine ⟨r.getD b.length, ?_⟩
      simp [Cursor.setBounds, bounded_ok (b := b) (Nat.zero_le _) (Nat.le_refl _), hr, bind, Except.bind]
    obtain ⟨eol, hsb⟩ := hsb
    simp only [checkBlocks, checkBlock, BlockInfo.range, Rng.new, Option.isNone_some, Bool.false_eq_true, if_false,
      Option.getD_some, Option.getD_none, bind, Except.bind, Nat.zero_le, if_true]
    have hrng : Rng.new 0 b.length = .ok ⟨0, b.length⟩ := by simp [Rng.new]
    obtain ⟨d, infos, st', j1, j2⟩ := orderedLoop_lits (ic := ic) (b := b) lits []
      ({ ctx := ⟨⟨b, 0, b.length, eol, nl.isCrlf⟩, if o.enableVarScope = true then clear env else env⟩, res := TestResult.new } : St E)
      hnn rfl (Nat.zero_le _) rfl
    simp only [List.nil_append] at j1
    have hsec : ∀ st, checkSections ([Section.group (Group.ordered (lits.map (fun x => Rule.plain (litPat ic x.1 x.2))))] : List (Section E)) ⟨0, 1⟩ st =
        checkGroupSections [.group (.ordered (lits.map (fun x => Rule.plain (litPat ic x.1 x.2))))] st := by
      intro st
      simp [checkSections, Rng.isEmpty, Rng.len, bind, Except.bind]
    simp only [hsb, hsec, checkGroupSections, checkOne, checkGroup, checkOrdered, j1, bind, Except.bind]
    rcases j2 with ⟨j3, rfl, j5, j6⟩ | ⟨j3, rfl, f, j5⟩
    · left
      refine ⟨j3, ?_⟩
      cases infos with
      | nil =>
        have : lits.length = 0 := by simpa using j5.symm
        exact absurd (List.length_eq_zero_iff.1 this) hne
      | cons i is =>
        have he := appendAll_ok (i :: is) st'.res
        rw [j6] at he
        simp only [if_true, allRanges_infos, Bool.false_eq_true, if_false, j6]
        obtain ⟨ms, hms⟩ := verdict_pass (by rw [he]; rfl)
        exact ⟨ms, congrArg _ hms⟩
    · right
      refine ⟨j3, ?_⟩
      have he := appendAll_ok infos st'.res
      rw [j5] at he
      simp only [Bool.false_eq_true, if_false, j5]
      exact ⟨_, congrArg _ (verdict_fail (by rw [he]; simp [TestResult.addFailed]))⟩

end Litcheck
