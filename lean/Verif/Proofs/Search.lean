import Verif.Proofs.Documented

/-!
# When does the search for a pattern with variables end?
-/

namespace Litcheck.Pattern
open Litcheck.Smart Litcheck.Spec Litcheck.RegexSpec Litcheck.PatternSpec
open Litcheck.Regex hiding Items
open Litcheck.Lex (Part Match CPat VarName Expr Op)

section
variable {eng : Engine} {cf : Conf eng} {b : Buf} {hi : Nat} {env : Vars} {op : MOp eng} {rest : List (MOp eng)} {anc : Bool}

/-- Another place of the match so far. -/
def setBounds (x y : Nat) : Smart.Step (Smart.St × Nat × Nat) → Smart.Step (Smart.St × Nat × Nat)
  | .yes (st, se) => .yes ({ st with mstart := x, mend := y }, se)
  | .no f => .no f
  | .err => .err
  | .panic p => .panic p

theorem matchPart_frame (st : Smart.St) (x y : Nat) :
    matchPart cf b hi env { st with mstart := x, mend := y } op = setBounds x y (matchPart cf b hi env st op) := by
  cases op with
  | literal lit =>
    simp only [matchPart]
    split
    · split <;> rfl
    · split <;> rfl
  | regex prog caps =>
    simp only [matchPart]
    cases eng.search prog b st.pos hi st.anchored with
    | none => rfl
    | some h => simp only; cases capture b h caps <;> rfl
  | numeric f cap =>
    simp only [matchPart]
    split
    · rfl
    · split
      · rfl
      · cases eng.build false (match cap with | some c => group (symOf c.name) (formatBody (f.getD (.unsigned 0))) | none => group' (formatBody (f.getD (.unsigned 0)))) with
        | none => rfl
        | some prog =>
          simp only
          cases eng.search prog b st.pos hi st.anchored with
          | none => rfl
          | some h =>
            cases cap with
            | none => rfl
            | some c =>
              simp only
              cases fromUtf8 b.length (sliceOf b h.start h.stop) with
              | none => rfl
              | some t => simp only; cases Num.parseWithFormat t (f.getD (.unsigned 0)) <;> rfl
  | subst e ty =>
    simp only [matchPart]
    cases evalExpr cf.checked cf.line env ty e with
    | yes v =>
      simp only [Smart.Step.bind]
      cases eng.build cf.ignoreCase (substText v ty) with
      | none => rfl
      | some prog => simp only; cases eng.search prog b st.pos hi st.anchored <;> rfl
    | no => rfl
    | err => rfl
    | panic => rfl
  | bind => rfl
  | drop => rfl
  | constraint => rfl

/-- All attempts after the end of the input are the same. -/
theorem attempt_min (p : Nat) : attempt cf b hi anc op rest env p = attempt cf b hi anc op rest env (min p b.length) := by
  have e : start b anc p = { start b anc (min p b.length) with mstart := p, mend := p } := by simp [start]
  unfold attempt
  dsimp only
  rw [e, matchPart_frame]
  generalize start b anc (min p b.length) = st
  cases matchPart cf b hi env st op <;> rfl

theorem search_stuck {p p' : Nat} (hp : b.length ≤ p) (ha : attempt cf b hi anc op rest env p = .retry p') (h' : b.length ≤ p') :
    ∀ fuel, search cf b hi anc op rest env fuel p = none := by
  have key : ∀ fuel q, b.length ≤ q → search cf b hi anc op rest env fuel q = none := by
    intro fuel
    induction fuel with
    | zero => intro q _; rfl
    | succ n ih =>
      intro q hq
      have : attempt cf b hi anc op rest env q = .retry p' := by
        rw [attempt_min, Nat.min_eq_right hq, ← ha, attempt_min p, Nat.min_eq_right hp]
      unfold search
      rw [this]
      exact ih p' h'
  intro fuel
  exact key fuel p hp

theorem search_mono {x : Smart.Found} : ∀ {fuel p : Nat}, search cf b hi anc op rest env fuel p = some x →
    ∀ n, fuel ≤ n → search cf b hi anc op rest env n p = some x
  | 0, p, h => by simp [search] at h
  | fuel + 1, p, h => by
    intro n hn
    obtain ⟨m, rfl⟩ : ∃ m, n = m + 1 := ⟨n - 1, by omega⟩
    unfold search at h ⊢
    cases ha : attempt cf b hi anc op rest env p with
    | retry p' => rw [ha] at h; exact search_mono h m (by omega)
    | _ => rw [ha] at h; exact h

end

section
variable {cx : PatternSpec.Ctx} {o : Opts} {cf : Conf engine} {b : Buf} {hi : Nat} {env : Vars} {op : MOp engine}
  {rest : List (MOp engine)} {anc : Bool}

/-- If so many attempts do not decide, no number of attempts does. -/
theorem search_decided : ∀ {n p : Nat}, b.length ≤ n + p → search cf b hi anc op rest env (n + 1) p = none →
    (∀ fuel, search cf b hi anc op rest env fuel p = none) ∧
      ∃ q p', b.length ≤ q ∧ attempt cf b hi anc op rest env q = .retry p' := by
  intro n
  induction n with
  | zero =>
    intro p hp h
    cases ha : attempt cf b hi anc op rest env p with
    | retry p' =>
      have := attempt_retry ha
      exact ⟨search_stuck (by omega) ha (by omega), p, p', by omega, ha⟩
    | _ => unfold search at h; rw [ha] at h; simp at h
  | succ n ih =>
    intro p hp h
    cases ha : attempt cf b hi anc op rest env p with
    | retry p' =>
      have h' := h
      unfold search at h'
      rw [ha] at h'
      have := attempt_retry ha
      by_cases hb : b.length ≤ p
      · exact ⟨search_stuck hb ha (by omega), p, p', hb, ha⟩
      · obtain ⟨h1, h2⟩ := ih (p := p') (by omega) h'
        refine ⟨?_, h2⟩
        intro fuel
        cases fuel with
        | zero => rfl
        | succ m => unfold search; rw [ha]; exact h1 m
    | _ => unfold search at h; rw [ha] at h; simp at h

/-- A search which does not end: the range ends with the input, and the first part matches the empty text there. -/
theorem stuck_empty {q p' : Nat} (hhi : hi ≤ b.length) (hq : b.length ≤ q) (ha : attempt cf b hi anc op rest env q = .retry p') :
    hi = b.length ∧ ∃ st st1, st.pos = b.length ∧ matchPart cf b hi env st op = .yes (st1, b.length, b.length) := by
  unfold attempt at ha
  dsimp only at ha
  split at ha
  · simp at ha
  · simp at ha
  · simp at ha
  · rename_i st1 s e hm
    obtain ⟨h1, h2, h3, _⟩ := matchPart_bounds hm
    have h1' : min q b.length ≤ s := h1
    obtain rfl : s = b.length := by omega
    obtain rfl : e = b.length := by omega
    exact ⟨by omega, _, _, by simp [start]; omega, hm⟩

theorem seg_first {x : Part} {run : List Part} {cp : CPart} (ft : Fit cx o cf) (hs : SegRun (x :: run) cp)
    (hl : lowerPart engine o cp = .ok (some (op :: rest))) {st st1 : Smart.St} {n : Nat} (hn : n ≤ b.length)
    (hm : matchPart cf b hi env st op = .yes (st1, n, n)) : ∃ env', PartMatches cx b env n n env' x := by
  generalize hxs : x :: run = xs at hs
  cases hs with
  | @lit t hne =>
    simp only [lowerPart, buildLiteral] at hl
    rw [if_neg (by simpa using hne)] at hl
    simp only [Except.ok.injEq, Option.some.injEq, List.cons.injEq] at hl
    obtain ⟨rfl, _⟩ := hl
    have hlen : (litBytes o t.flatten).length = 0 := by
      simp only [matchPart] at hm
      split at hm
      · split at hm
        · simp only [Smart.Step.yes.injEq, Prod.mk.injEq] at hm
          omega
        · simp at hm
      · split at hm
        · rename_i pid _ _ hf
          simp only [Smart.Step.yes.injEq, Prod.mk.injEq] at hm
          obtain ⟨_, rfl, h6⟩ := hm
          obtain ⟨h1, h2, ⟨l, h3, h4, h5⟩, _⟩ := findSet_some hf
          have hl : l = litBytes o t.flatten := by
            rcases Nat.eq_zero_or_pos pid with rfl | hpos
            · simpa using h3.symm
            · rw [List.getElem?_eq_none (by simp; omega)] at h3; simp at h3
          subst hl
          omega
        · simp at hm
    exfalso
    have h1 : litBytes o t.flatten = utf8 [] := by rw [List.length_eq_zero_iff.1 hlen]; rfl
    have h2 := utf8_injective h1
    rw [canonical_spaced] at h2
    apply hne
    unfold spaced at h2
    split at h2
    · exact h2
    · simpa using h2
  | @rx run' l src caps hrun hit =>
    subst hxs
    simp only [lowerPart, buildRegex] at hl
    split at hl
    · simp at hl
    · rename_i prog hb
      simp only [Except.ok.injEq, Option.some.injEq, List.cons.injEq] at hl
      obtain ⟨rfl, _⟩ := hl
      obtain ⟨r, hp, rfl⟩ := build_some hb
      obtain ⟨hr1, hr2⟩ := parse_reads hp
      obtain rfl := reads_unique hr1 hit.reads
      simp only [matchPart] at hm
      split at hm
      · simp at hm
      · rename_i h hf
        obtain ⟨cs, hc, hm⟩ := Step.bind_yes hm
        simp only [Smart.Step.yes.injEq, Prod.mk.injEq] at hm
        obtain ⟨rfl, h1, h2⟩ := hm
        have hf' : find o.ignoreCase (seqRe l) b st.pos hi st.anchored = some h := hf
        obtain ⟨_, _, _, _, hl, _⟩ := find_some hf'
        rw [← ft.ic, h1, h2] at hl
        cases hrun with
        | @cons _ l1 c0 _ m d hsp hps =>
          rw [names_seq_append, List.nodup_append] at hr2
          obtain ⟨k, c1, c2, h3, h4, _⟩ := (lang_seq_append m l1).1 hl
          obtain rfl : k = n := by
            have := Lang.le _ _ _ _ h3
            have := Lang.le _ _ _ _ h4
            omega
          obtain ⟨sp, e1, g1, m1, q1, b1⟩ := part_sound (cx := cx) hsp hr2.1 h3
          cases hsp with
          | literal | regex | numeric =>
            simp only [List.map_eq_nil_iff] at e1
            subst e1
            exact ⟨env, b1 env env .nil⟩
          | capture hv hr =>
            simp only [seqRe] at h3 hr2
            obtain ⟨d', hd', _⟩ := h3
            have hn' := hr2.1
            rw [Re.names, List.nodup_append] at hn'
            exact ⟨_, ⟨_, reads_parse hr hn'.1, _, hd'⟩, [], by simp [utf8, sliceOf], rfl⟩
          | number hv hpr =>
            simp only [seqRe] at h3
            obtain ⟨d', hd', _⟩ := h3
            obtain ⟨_, t', ht', ho⟩ := (lang_format _ hpr).1 hd'
            exfalso
            have : utf8 t' = utf8 [] := by
              have := ho.1
              exact List.length_eq_zero_iff.1 (by omega)
            exact format_nonempty ht' (utf8_injective this)
  | @dyn m hd hok =>
    simp only [List.cons.injEq] at hxs
    obtain ⟨rfl, rfl⟩ := hxs
    cases m with
    | substitution y pt =>
      have hd' : pt = none := hd
      subst hd'
      simp only [lowerPart, lowerMatch, Except.ok.injEq, Option.some.injEq, List.cons.injEq] at hl
      obtain ⟨rfl, _⟩ := hl
      simp only [matchPart] at hm
      obtain ⟨v, hev, hm⟩ := Step.bind_yes hm
      split at hm
      · simp at hm
      · rename_i prog hb
        split at hm
        · simp at hm
        · rename_i h hf
          simp only [Smart.Step.yes.injEq, Prod.mk.injEq] at hm
          obtain ⟨rfl, h1, h2⟩ := hm
          obtain ⟨r, hp, rfl⟩ := build_some hb
          have hf' : find cf.ignoreCase r b st.pos hi st.anchored = some h := hf
          obtain ⟨_, _, _, _, hl, _⟩ := find_some hf'
          rw [h1, h2] at hl
          have ht := substSrc_sound hev
          refine ⟨env, rfl, _, by rw [ft.line]; exact ht, ?_⟩
          rw [ft.rd, ft.ic, ← ft.ic']
          exact stands_weak ⟨r, hp, _, hl⟩
    | numeric f cap ex =>
      have hd' : ex ≠ none := hd
      cases ex with
      | none => exact absurd rfl hd'
      | some ex =>
        cases cap with
        | none =>
          simp only [lowerPart, lowerMatch, Except.ok.injEq, Option.some.injEq, List.cons.injEq] at hl
          obtain ⟨rfl, _⟩ := hl
          simp only [matchPart] at hm
          obtain ⟨v, hev, hm⟩ := Step.bind_yes hm
          split at hm
          · simp at hm
          · rename_i prog hb
            split at hm
            · simp at hm
            · rename_i h hf
              simp only [Smart.Step.yes.injEq, Prod.mk.injEq] at hm
              obtain ⟨rfl, h1, h2⟩ := hm
              obtain ⟨r, hp, rfl⟩ := build_some hb
              have hf' : find cf.ignoreCase r b st.pos hi st.anchored = some h := hf
              obtain ⟨_, _, _, _, hl, _⟩ := find_some hf'
              rw [h1, h2] at hl
              have ht := substSrc_sound hev
              refine ⟨env, rfl, _, by rw [ft.line]; exact ht, ?_⟩
              rw [ft.rd, ft.ic, ← ft.ic']
              exact stands_weak ⟨r, hp, _, hl⟩
        | some y =>
          simp only [lowerPart, lowerMatch, Except.ok.injEq, Option.some.injEq, List.cons.injEq] at hl
          obtain ⟨rfl, _⟩ := hl
          obtain ⟨hv, hpr⟩ := hok
          simp only [matchPart] at hm
          split at hm
          · simp at hm
          · split at hm
            · simp at hm
            · split at hm
              · simp at hm
              · rename_i prog hb
                split at hm
                · simp at hm
                · rename_i h hf
                  split at hm
                  · simp at hm
                  · split at hm
                    · simp only [Smart.Step.yes.injEq, Prod.mk.injEq] at hm
                      obtain ⟨rfl, h1, h2⟩ := hm
                      obtain ⟨r, hp, rfl⟩ := build_some hb
                      have hit := Items.group hv (items_format _ hpr).reads
                      obtain rfl := reads_unique (parse_reads hp).1 hit.reads
                      have hf' : find false _ b st.pos hi st.anchored = some h := hf
                      obtain ⟨_, _, _, _, hl, _⟩ := find_some hf'
                      rw [h1, h2] at hl
                      simp only [seqRe] at hl
                      obtain ⟨d, hd, _⟩ := hl
                      obtain ⟨_, t', ht', ho⟩ := (lang_format _ hpr).1 hd
                      exfalso
                      have : utf8 t' = utf8 [] := by
                        have := ho.1
                        exact List.length_eq_zero_iff.1 (by omega)
                      exact format_nonempty ht' (utf8_injective this)
                    · simp at hm

/-- If the first operation matches the empty text somewhere, so does the first part. -/
theorem first_empty (ft : Fit cx o cf) {x : Part} {ps : List Part} {cps : List CPart} (hs : SegList (x :: ps) cps)
    (hl : lowerParts engine o cps = .ok (some (op :: rest))) {st st1 : Smart.St} {n : Nat} (hn : n ≤ b.length)
    (hm : matchPart cf b hi env st op = .yes (st1, n, n)) : ∃ env', PartMatches cx b env n n env' x := by
  generalize hxs : x :: ps = xs at hs
  cases hs with
  | nil h => simp [lowerParts] at hl
  | @cons run₀ run cp ps' cps' h0 h1 h2 =>
    obtain ⟨y, z, hy, hz, he⟩ := lowerParts_cons hl
    cases run₀ with
    | cons x' r' =>
      simp only [List.cons_append, List.cons.injEq] at hxs
      obtain ⟨rfl, _⟩ := hxs
      have := h0 cx b env n
      cases this with
      | @cons _ _ _ _ k env' _ _ hp hps =>
        obtain rfl : k = n := by
          have := partMatches_le hp
          have := partsMatch_le hps
          omega
        exact ⟨env', hp⟩
    | nil =>
      cases run with
      | nil =>
        exfalso
        generalize hr : ([] : List Part) = r at h1
        cases h1 with
        | lit h => simp only [List.nil_eq, List.map_eq_nil_iff] at hr; subst hr; simp at h
        | rx _ _ h => exact h hr.symm
        | dyn => simp at hr
      | cons x' r' =>
        simp only [List.nil_append, List.cons_append, List.cons.injEq] at hxs
        obtain ⟨rfl, _⟩ := hxs
        obtain ⟨op', bs, rfl, _, _⟩ := seg_sound ft h1 hy
        simp only [List.cons_append, List.cons.injEq] at he
        obtain ⟨rfl, _⟩ := he
        exact seg_first ft h1 hy hn hm

end
end Litcheck.Pattern
