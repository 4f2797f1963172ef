import Verif.Proofs.WordsReport
import Verif.Proofs.Sets
import Verif.Spec.Guarded

/-!
# `CHECK-NOT` lines which begin with a text and use variables
-/

namespace Litcheck.Sets
open Litcheck.Smart Litcheck.Spec Litcheck.RegexSpec Litcheck.PatternSpec Litcheck.Pattern
open Litcheck.Regex (engine utf8)
open Litcheck.Lex (Part Match CPat CLine)

/-! ## The pattern behind the text -/

theorem flush_frame (a : List CPart) (st : CSt) : CSt.flush { st with out := a ++ st.out } = a ++ st.flush := by
  unfold CSt.flush
  dsimp only
  split_ifs <;> simp

theorem step_frame (a : List CPart) (st : CSt) (p : Part) :
    compactStep { st with out := a ++ st.out } p = { compactStep st p with out := a ++ (compactStep st p).out } := by
  have hdyn : ∀ m, (⟨CSt.flush { st with out := a ++ st.out } ++ [.dyn m], [], [], true⟩ : CSt) = ⟨a ++ (st.flush ++ [.dyn m]), [], [], true⟩ := by
    intro m
    rw [flush_frame, List.append_assoc]
  cases p with
  | literal s => rfl
  | regex s => rfl
  | match_ m =>
    cases m with
    | substitution x pt => cases pt with
      | none => exact hdyn _
      | some s => rfl
    | numeric f cap e =>
      cases e with
      | some e => cases cap <;> exact hdyn _
      | none => cases cap <;> rfl

theorem fold_frame (a : List CPart) : ∀ (ps : List Part) (st : CSt),
    ps.foldl compactStep { st with out := a ++ st.out } = { ps.foldl compactStep st with out := a ++ (ps.foldl compactStep st).out }
  | [], st => rfl
  | p :: ps, st => by
    rw [List.foldl_cons, List.foldl_cons, step_frame]
    exact fold_frame a ps _

/-- The parts before are taken again as they are. -/
def Again (st : CSt) : Prop :=
  st.out.foldl recompactStep ⟨[], [], [], true⟩ = ⟨st.out, [], [], true⟩ ∧ (st.litMode = true → st.caps = [])

theorem Again.flush {st : CSt} (h : Again st) : ∃ st', st.flush.foldl recompactStep ⟨[], [], [], true⟩ = st' ∧ st'.out = st.out ∧ st'.flush = st.flush := by
  unfold CSt.flush
  by_cases ht : st.text = []
  · rw [if_pos (by simp [ht])]
    exact ⟨_, h.1, rfl, rfl⟩
  · rw [if_neg (by simpa using ht)]
    cases hl : st.litMode with
    | true =>
      simp only [if_true]
      rw [List.foldl_append, h.1]
      refine ⟨_, rfl, rfl, ?_⟩
      simp only [List.foldl_cons, List.foldl_nil, recompactStep, compactStep, if_true, List.nil_append]
      rw [if_neg (by simpa using ht)]
    | false =>
      simp only [Bool.false_eq_true, if_false]
      rw [List.foldl_append, h.1]
      refine ⟨_, rfl, rfl, ?_⟩
      simp only [List.foldl_cons, List.foldl_nil, recompactStep, CSt.addRx, if_true, List.nil_append, Regex.escape, List.flatMap_nil]
      rw [if_neg (by simpa using ht)]
      simp

theorem Again.step {st : CSt} (h : Again st) (p : Part) : Again (compactStep st p) := by
  have hdyn : ∀ m, (∀ st : CSt, compactStep st (.match_ m) = ⟨st.flush ++ [.dyn m], [], [], true⟩) → Again (compactStep st (.match_ m)) := by
    intro m hm
    rw [hm]
    obtain ⟨st', h1, h2, h3⟩ := h.flush
    refine ⟨?_, fun _ => rfl⟩
    dsimp only
    rw [List.foldl_append, h1, List.foldl_cons, List.foldl_nil]
    show compactStep st' (.match_ m) = _
    rw [hm, h3]
  have hrx : ∀ s c, Again (st.addRx s c) := fun s c => ⟨h.1, fun hl => by simp [CSt.addRx] at hl⟩
  cases p with
  | literal s => exact ⟨h.1, h.2⟩
  | regex s => exact hrx _ _
  | match_ m =>
    cases m with
    | substitution x pt => cases pt with
      | none => exact hdyn _ (fun _ => rfl)
      | some s => exact hrx _ _
    | numeric f cap e =>
      cases e with
      | some e => cases cap <;> exact hdyn _ (fun _ => rfl)
      | none => cases cap <;> exact hrx _ _

theorem again_fold : ∀ (ps : List Part) {st : CSt}, Again st → Again (ps.foldl compactStep st)
  | [], _, h => h
  | p :: ps, _, h => again_fold ps (h.step p)

/-- A text, and then parts of which the first uses a variable. -/
theorem guarded_compile {o : Opts} {s : Str} (hs : s ≠ []) {ps : List Part} {m : Match} {qs : List Part} (hps : ps = .match_ m :: qs)
    (hm : ∀ st : CSt, compactStep st (.match_ m) = ⟨st.flush ++ [.dyn m], [], [], true⟩) :
    ∃ rest, popPrefix (compact (.match_ (.literal s :: ps))) = (.sub s, rest) ∧ compileSuffix o rest = Pattern.compile engine o (.match_ ps) := by
  have e0 : compactStep ⟨[], [], [], true⟩ (.match_ m) = ⟨[.dyn m], [], [], true⟩ := hm _
  have e1 : (Part.literal s :: ps).foldl compactStep ⟨[], [], [], true⟩ =
      { ps.foldl compactStep ⟨[], [], [], true⟩ with out := [CPart.lit s] ++ (ps.foldl compactStep ⟨[], [], [], true⟩).out } := by
    rw [hps, List.foldl_cons, List.foldl_cons, List.foldl_cons, e0]
    have e2 : compactStep ⟨[], [], [], true⟩ (.literal s) = ⟨[], s, [], true⟩ := by simp [compactStep]
    rw [e2, hm]
    have e3 : (CSt.flush ⟨[], s, [], true⟩) = [.lit s] := by
      unfold CSt.flush
      dsimp only
      rw [if_neg (by simpa using hs), if_pos rfl]
      rfl
    rw [e3]
    exact fold_frame [.lit s] qs ⟨[.dyn m], [], [], true⟩
  have hout : (ps.foldl compactStep ⟨[], [], [], true⟩).out ≠ [] := by
    rw [hps, List.foldl_cons, e0]
    have := fold_frame [.dyn m] qs ⟨[], [], [], true⟩
    rw [show ([CPart.dyn m] ++ (⟨[], [], [], true⟩ : CSt).out) = [CPart.dyn m] from rfl] at this
    rw [this]
    simp
  have ha : Again (ps.foldl compactStep ⟨[], [], [], true⟩) := again_fold ps ⟨rfl, fun _ => rfl⟩
  have hc : compact (.match_ ps) = .parts (ps.foldl compactStep ⟨[], [], [], true⟩).flush := by
    have : compact (.match_ ps) = (let st := ps.foldl compactStep ⟨[], [], [], true⟩
         if st.out.isEmpty then if st.litMode then .lit st.text else .rx ⟨st.text, st.caps⟩ else .parts st.flush) := by
      rw [hps]; rfl
    rw [this]
    dsimp only
    rw [if_neg (by simpa using hout)]
  have hc' : compact (.match_ (.literal s :: ps)) = .parts (.lit s :: (ps.foldl compactStep ⟨[], [], [], true⟩).flush) := by
    have : compact (.match_ (.literal s :: ps)) = (let st := (Part.literal s :: ps).foldl compactStep ⟨[], [], [], true⟩
         if st.out.isEmpty then if st.litMode then .lit st.text else .rx ⟨st.text, st.caps⟩ else .parts st.flush) := rfl
    rw [this, e1]
    dsimp only
    rw [if_neg (by simp), flush_frame]
    rfl
  generalize ps.foldl compactStep ⟨[], [], [], true⟩ = st at ha hc hc' hout
  obtain ⟨st', h1, h2, h3⟩ := ha.flush
  have hfl : st.flush ≠ [] := by
    unfold CSt.flush
    split_ifs <;> simp [hout]
  have hre : recompact st.flush = .parts st.flush := by
    unfold recompact
    rw [h1]
    dsimp only
    rw [if_neg (by rw [h2]; simpa using hout), h3]
  refine ⟨st.flush, by rw [hc']; rfl, ?_⟩
  have e4 : compileSuffix o st.flush = compileCompact o (recompact st.flush) := by
    cases hst : st.flush with
    | nil => exact absurd hst hfl
    | cons => rfl
  rw [e4, hre]
  unfold Pattern.compile
  rw [hc]
  unfold compileCompact
  dsimp only
  cases lowerParts engine o st.flush with
  | error => rfl
  | ok x => cases x <;> rfl

/-- The operations of words and a part without variables, anchored. -/
theorem anchored_words {cx : PatternSpec.Ctx} {o : Opts} {cf : Conf engine} (ft : Fit cx o cf)
    {ps tail : List Part} {ws : List Str} {b : Buf} {hi : Nat} {env : Vars}
    (hps : List.Forall₂ (WordOf o.strictWs cf.checked cf.line env) ps ws) (hne : ∀ w ∈ ws, w ≠ []) (hlast : ∃ qs m, ps = qs ++ [.match_ m])
    (hu : ∀ p ∈ tail, ¬ Uses p) (hok : ∀ p ∈ tail, PartOk p) (hcan : ∀ p ∈ tail, Canonical o.strictWs p) (hcap : ∀ p ∈ tail, ¬ Captures p)
    (hend : (∀ p ∈ tail, ∃ s, p = .literal s) ∨ ∀ env', ¬ PartsMatch cx b env tail hi hi env')
    {c : Compiled engine} (hc : Pattern.compile engine o (.match_ (ps ++ tail)) = .ok (some c)) (hhi : hi ≤ b.length) :
    isAlways c = false ∧ ∀ (ln q : Nat), q ≤ hi →
    (∃ e env', runAnchored cf ln b ⟨q, hi⟩ env c = .result (.ok ⟨q, e, 0, ln⟩) env' ∧ q ≤ e ∧ e ≤ hi ∧ PartsMatch cx b env (ps ++ tail) q e env') ∨
    (runAnchored cf ln b ⟨q, hi⟩ env c = .result matchNone env ∧ ∀ e env', e ≤ hi → ¬ PartsMatch cx b env (ps ++ tail) q e env') := by
  have hic := ft.ic
  have hic' := ft.ic'
  have hst := ft.strict
  have hln := ft.line
  have hrd : ∀ t, plainText t = true → cx.rd.literal t = true := by rw [ft.rd]; exact fun _ h => h
  have hnum : ∀ p ∈ tail, NoNumber p := fun p hp f x e he => hcap p hp (.inr ⟨f, x, e, he⟩)
  obtain ⟨g1, g2, g3⟩ := words_fold (b := b) (hi := hi) hps hne (st := ⟨[], [], [], true⟩) rfl rfl (winv_nil (o := o) (cf := cf))
  have hst1 : ∃ out, out ≠ [] ∧ ps.foldl compactStep ⟨[], [], [], true⟩ = ⟨out, [], [], true⟩ := by
    obtain ⟨qs, m, rfl⟩ := hlast
    rw [List.foldl_append, List.foldl_cons, List.foldl_nil]
    obtain ⟨w, hw⟩ : ∃ w, WordOf o.strictWs cf.checked cf.line env (.match_ m) w := forall₂_left hps (.match_ m) (by simp)
    rcases wordOf_insert (b := b) (hi := hi) hw with ⟨s, hs⟩ | ⟨m', op, he, _, _, hc⟩
    · cases hs
    · cases he
      exact ⟨_, by simp, hc _⟩
  obtain ⟨out, hout, hfold⟩ := hst1
  rw [hfold] at g3
  obtain ⟨ops, vs, v1, v2, v3, _, v5, v6⟩ := g3
  dsimp only at v1
  rw [List.nil_append, show utf8 ([] : Str) = [] from rfl, List.append_nil] at v5
  have hpne : ps ≠ [] := by obtain ⟨qs, m, rfl⟩ := hlast; simp
  have hcomp : compact (.match_ (ps ++ tail)) = .parts (tail.foldl compactStep ⟨out, [], [], true⟩).flush := by
    have ec : compact (.match_ (ps ++ tail)) = (let st := (ps ++ tail).foldl compactStep ⟨[], [], [], true⟩
         if st.out.isEmpty then if st.litMode then .lit st.text else .rx ⟨st.text, st.caps⟩ else .parts st.flush) := by
      cases ps with
      | nil => exact absurd rfl hpne
      | cons => rfl
    rw [ec, List.foldl_append, hfold]
    dsimp only
    have e1 := static_fold_eq (tail := tail) out ⟨[], [], [], true⟩ hu
    dsimp only at e1
    rw [if_neg]
    rw [e1]
    simpa using hout
  have hsegs := compact_segs (parts := ps ++ tail) (by simp [hpne]) (by
    intro p hp
    rcases List.mem_append.1 hp with hp | hp
    · obtain ⟨w, hw⟩ := forall₂_left hps p hp
      cases hw <;> trivial
    · exact hok p hp)
  rw [hcomp] at hsegs
  dsimp only at hsegs
  unfold Pattern.compile at hc
  rw [hcomp] at hc
  dsimp only at hc
  cases hlp : lowerParts engine o (tail.foldl compactStep ⟨out, [], [], true⟩).flush with
  | error => rw [hlp] at hc; simp [bind, Except.bind] at hc
  | ok z =>
    rw [hlp] at hc
    cases z with
    | none => simp [bind, Except.bind] at hc
    | some z =>
      simp only [bind, Except.bind, Except.ok.injEq, Option.some.injEq] at hc
      subst hc
      refine ⟨rfl, fun ln q hq => ?_⟩
      have wm : ∀ {i j env'}, PartsMatch cx b env ps i j env' ↔ env' = env ∧ Occurs cx.ic (utf8 ws.flatten) b i j :=
        words_match (ck := cf.checked) hrd (by rw [hst, hln]; exact hps)
      have full : ∀ {s e env'}, e ≤ hi → (PartsMatch cx b env (ps ++ tail) s e env' →
          hitAt cf.ignoreCase b hi s vs.flatten = true ∧ PartsMatch cx b env tail (s + vs.flatten.length) e env') := by
        intro s e env' he
        rw [partsMatch_append]
        rintro ⟨k, env1, a1, a2⟩
        obtain ⟨rfl, rfl, a3⟩ := wm.1 a1
        rw [← v5, hic, ← hic'] at *
        have := partsMatch_le a2
        exact ⟨hitAt_iff.2 ⟨by omega, a3⟩, a2⟩
      obtain ⟨y, T, safe, rfl, t1, t2, t3, t4⟩ := tail_ops (b := b) (env := env) hic hic' hst hhi hu hok (by rw [hst]; exact hcan) hnum
        (Q := fun _ => True)
        (by
          rcases hend with hend | hend
          · exact .inl hend
          · exact .inr (.inl ⟨hcap, hend⟩)) v1 hlp
      have hsafe := t4 hcap
      have hwne : ws ≠ [] := by
        intro h
        rw [h] at hps
        cases hps
        exact hpne rfl
      cases v2 with
      | nil =>
        exfalso
        have := utf8_ne (s := ws.flatten) (by
          cases ws with
          | nil => exact absurd rfl hwne
          | cons w ws => simp; intro h; exact absurd h (hne w (by simp)))
        exact this v5.symm
      | @cons op v ops vs hw hws =>
        have hrun : runAnchored cf ln b ⟨q, hi⟩ env (Compiled.smart (op :: ops ++ y)) =
            match search cf b hi true op (ops ++ y) env 2 q with
            | none => .hang
            | some (.panic p) => .panic p
            | some .err => .err env
            | some .absent => .result matchNone env
            | some (.found st env') =>
              if st.pat then
                if convertible st.caps then .result (.ok ⟨st.mstart, st.mend, 0, ln⟩) env'
                else .result (.failed ⟨.foundConstraintFailed, true⟩) env'
              else .result matchNone env' := rfl
        rw [hrun]
        have hsearch : search cf b hi true op (ops ++ y) env 2 q = match attempt cf b hi true op (ops ++ y) env q with
            | .found st env' => some (.found st (env.merge env'))
            | .absent => some .absent
            | .err => some .err
            | .panic p => some (.panic p)
            | .retry p => search cf b hi true op (ops ++ y) env 1 p := rfl
        rw [hsearch]
        have hpos : (start b true q).pos = q := by simp [start]; omega
        have hatt : attempt cf b hi true op (ops ++ y) env q = match matchPart cf b hi env (start b true q) op with
            | .err => .err
            | .panic p => .panic p
            | .no _ => .absent
            | .yes (st1, s, e) =>
              match matchParts cf b hi (ops ++ y) env { st1 with mstart := s, mend := e, pos := min e b.length, anchored := true } with
              | .err => .err
              | .panic p => .panic p
              | .yes (st2, env') => .found st2 env'
              | .no _ => .absent := rfl
        have hanc := hw.anchored (start b true q) rfl
        rw [hpos] at hanc
        by_cases hh : hitAt cf.ignoreCase b hi q v = true
        · rw [if_pos hh] at hanc
          have hle := (hitAt_iff.1 hh).1
          rw [hanc] at hatt
          dsimp only at hatt
          rw [Nat.min_eq_left (show q + v.length ≤ b.length by omega)] at hatt
          generalize hst2 : ({ (start b true q) with mstart := q, mend := q + v.length, pos := q + v.length, anchored := true } : Smart.St) = st1 at hatt
          have e1 : st1.pos = q + v.length := by rw [← hst2]
          have e2 : st1.mend = q + v.length := by rw [← hst2]
          have e3 : st1.mstart = q := by rw [← hst2]
          have e4 : st1.anchored = true := by rw [← hst2]
          have e5 : convertible st1.caps = true := by rw [← hst2]; rfl
          rcases words_run hhi y hws (fun x hx => v3 x (by simp [hx])) st1 e4 (by rw [e1, e2]) (by rw [e1]; exact hle) with
            ⟨h1, h2, _⟩ | ⟨k, h1, h2, h3, ⟨f, h4⟩, _⟩
          · rw [h2] at hatt
            have hle2 := (hitAt_iff.1 h1).1
            have ht := t1 { st1 with mend := st1.pos + vs.flatten.length, pos := st1.pos + vs.flatten.length } e4 rfl hle2 trivial
            have hlen : q + (v :: vs).flatten.length = st1.pos + vs.flatten.length := by rw [e1, List.flatten_cons, List.length_append]; omega
            generalize matchParts cf b hi y env { st1 with mend := st1.pos + vs.flatten.length, pos := st1.pos + vs.flatten.length } = u at hatt ht
            cases u with
            | yes x =>
              obtain ⟨st2, env2⟩ := x
              dsimp only at hatt ht
              rw [e3] at ht
              have hcv := ht.2.2 e5
              have hs := attempt_sound ft hsegs.list hlp hhi hatt (convertible_iff.1 hcv)
              rw [hatt]
              dsimp only
              rw [if_pos ht.2.1, if_pos hcv, ht.1]
              left
              rw [ht.1] at hs
              refine ⟨_, _, rfl, hs.2.2.1, hs.2.2.2, ?_⟩
              rw [(partsMatch_extends hs.1).merge]
              exact hs.1
            | no f =>
              dsimp only at hatt ht
              rw [hatt]
              refine .inr ⟨rfl, fun e env' he hm => ?_⟩
              obtain ⟨_, a2⟩ := full he hm
              rw [hlen] at a2
              exact ht.2 (t2 _ _ _ he a2)
            | err => exact absurd hsafe ht
            | panic => exact absurd hsafe ht
          · rw [h4] at hatt
            dsimp only at hatt
            rw [hatt]
            refine .inr ⟨rfl, fun e env' he hm => ?_⟩
            obtain ⟨a1, _⟩ := full he hm
            rw [List.flatten_cons, hitAt_append, ← e1] at a1
            have hx : hitAt cf.ignoreCase b hi st1.pos ((vs.take (k + 1)).flatten ++ (vs.drop (k + 1)).flatten) = true := by
              rw [← List.flatten_append, List.take_append_drop]; exact a1.2
            rw [hitAt_append, h3] at hx
            exact absurd hx.1 (by simp)
        · rw [if_neg hh] at hanc
          rw [hanc] at hatt
          dsimp only at hatt
          rw [hatt]
          refine .inr ⟨rfl, fun e env' he hm => ?_⟩
          obtain ⟨a1, _⟩ := full he hm
          rw [List.flatten_cons, hitAt_append] at a1
          exact hh a1.1

/-! ## The search -/

/-- The line means its text and then `R`, and its suffix decides `R` at each place. -/
def EntryOk (cx : Nat → PatternSpec.Ctx) (cfs : Nat → Conf engine) (b : Buf) (hi : Nat) (env : Vars) (y : CPat × Nat) (s : Str) (c : Compiled engine) : Prop :=
  ∃ R : Nat → Nat → Vars → Prop,
    (∀ p e env', meaning (cx y.2) y.1 env b p e env' ↔ OccursAt false (utf8 s) b p ∧ R (p + (utf8 s).length) e env') ∧
    (∀ q e env', R q e env' → q ≤ e) ∧
    ∀ q, q ≤ hi → (∃ e env', runAnchored (cfs y.2) y.2 b ⟨q, hi⟩ env c = .result (.ok ⟨q, e, 0, y.2⟩) env' ∧ e ≤ hi ∧ R q e env') ∨
      (runAnchored (cfs y.2) y.2 b ⟨q, hi⟩ env c = .result matchNone env ∧ ∀ e env', e ≤ hi → ¬ R q e env')

theorem anyLoop_words {cx : Nat → PatternSpec.Ctx} {cfs : Nat → Conf engine} {b : Buf} {r : Rng} {env : Vars} {ls : List (CPat × Nat)} {ss : List Str}
    {lits : List (Buf × Nat)} {sfx : List (List Sfx)} (hl : lits.map Prod.fst = ss.map utf8) (hne : ∀ s ∈ ss, s ≠ []) (hnd : ss.Nodup)
    (htg : ¬ Tangled (ss.map utf8))
    (h1 : ∀ (pid : Nat) (s : Str), ss[pid]? = some s → ∃ y ∈ ls, ∃ c, sfx[pid]? = some [(c, y.2)] ∧ EntryOk cx cfs b r.stop env y s c)
    (h2 : ∀ y ∈ ls, ∃ (pid : Nat) (s : Str), ss[pid]? = some s ∧ ∃ c, sfx[pid]? = some [(c, y.2)] ∧ EntryOk cx cfs b r.stop env y s c) :
    ∀ (fuel p : Nat), p ≤ r.stop → r.stop < fuel + p →
    ∃ m env', anyLoop false cfs (.subPrefix lits sfx) sfx b r fuel (.lits p) env = .result m env' ∧
      ((m.isOk = true ∧ ∃ y ∈ ls, ∃ q e env1, p ≤ q ∧ q ≤ e ∧ e ≤ r.stop ∧ meaning (cx y.2) y.1 env b q e env1 ∧
          ∃ i, m.info = some i ∧ i.start = q ∧ i.stop = e ∧ i.pspan = y.2 ∧ env' = env1) ∨
       (m.isOk = false ∧ env' = env ∧ ∀ y ∈ ls, ∀ q e env1, p ≤ q → e ≤ r.stop → ¬ meaning (cx y.2) y.1 env b q e env1))
  | 0, p, hp, hf => by omega
  | fuel + 1, p, hp, hf => by
    unfold anyLoop nextMatch
    dsimp only
    rw [hl]
    cases hfs : findSet false (ss.map utf8) b r.stop (r.stop - p) p with
    | none =>
      dsimp only
      refine ⟨_, _, rfl, .inr ⟨rfl, rfl, ?_⟩⟩
      intro y hy q e env1 hq he hm
      obtain ⟨pid, s, hs, c, _, R, hR, hle, _⟩ := h2 y hy
      obtain ⟨a1, a2⟩ := (hR _ _ _).1 hm
      have := hle _ _ _ a2
      have hh := findSet_none hfs q hq (by omega) (utf8 s) (List.mem_map_of_mem (List.mem_of_getElem? hs))
      rw [hitAt_iff.2 ⟨by omega, a1⟩] at hh
      cases hh
    | some x =>
      obtain ⟨pid, s0, e0⟩ := x
      dsimp only
      obtain ⟨g1, g2, ⟨l, g3, g4, g5⟩, g6, _⟩ := findSet_some hfs
      rw [List.getElem?_map] at g3
      cases hs : ss[pid]? with
      | none => rw [hs] at g3; simp at g3
      | some s =>
        rw [hs] at g3
        simp only [Option.map_some, Option.some.injEq] at g3
        subst g3
        obtain ⟨y, hy, c, hc, R, hR, hle, hdec⟩ := h1 pid s hs
        obtain ⟨g7, g8⟩ := hitAt_iff.1 g5
        have hlen : 0 < (utf8 s).length := List.length_pos_iff.2 (utf8_ne (hne s (List.mem_of_getElem? hs)))
        rw [hc]
        dsimp only
        simp only [trySuffixes]
        rcases hdec e0 (by omega) with ⟨e, env', d1, d2, d3⟩ | ⟨d1, d2⟩
        · rw [d1]
          simp only [MatchResult.ok]
          refine ⟨_, _, rfl, .inl ⟨rfl, y, hy, s0, e, env', g1, ?_, d2, (hR _ _ _).2 ⟨g8, by rw [← g4]; exact d3⟩, _, rfl, rfl, rfl, rfl, rfl⟩⟩
          have := hle _ _ _ d3
          omega
        · rw [d1]
          simp only [matchNone, MatchResult.failed]
          obtain ⟨m, env', k1, k2⟩ := anyLoop_words hl hne hnd htg h1 h2 fuel e0 (by omega) (by omega)
          refine ⟨m, env', k1, ?_⟩
          rcases k2 with ⟨k2, y', hy', q, e, env1, k3, k4⟩ | ⟨k2, k3, k4⟩
          · exact .inl ⟨k2, y', hy', q, e, env1, by omega, k4⟩
          · refine .inr ⟨k2, k3, ?_⟩
            intro y' hy' q e env1 hq he hm
            by_cases hqe : e0 ≤ q
            · exact k4 y' hy' q e env1 hqe he hm
            · obtain ⟨pid', s', hs', c', hc', R', hR', hle', hdec'⟩ := h2 y' hy'
              obtain ⟨a1, a2⟩ := (hR' _ _ _).1 hm
              have a3 := hle' _ _ _ a2
              have hm' : utf8 s' ∈ ss.map utf8 := List.mem_map_of_mem (List.mem_of_getElem? hs')
              by_cases hq0 : q < s0
              · have hh := g6 q hq hq0 (utf8 s') hm'
                rw [hitAt_iff.2 ⟨by omega, a1⟩] at hh
                cases hh
              · by_cases hsame : s0 = q ∧ s = s'
                · obtain ⟨rfl, rfl⟩ := hsame
                  have hpid : pid = pid' := by
                    obtain ⟨p1, p2⟩ := List.getElem?_eq_some_iff.1 hs
                    obtain ⟨p3, p4⟩ := List.getElem?_eq_some_iff.1 hs'
                    exact (List.Nodup.getElem_inj_iff hnd).1 (p2.trans p4.symm)
                  subst hpid
                  rw [hc] at hc'
                  simp only [Option.some.injEq, List.cons.injEq, Prod.mk.injEq, and_true] at hc'
                  obtain ⟨rfl, hln⟩ := hc'
                  rw [← g4] at a2
                  rcases hdec' e0 (by omega) with ⟨e', env2, d3, _⟩ | ⟨_, d3⟩
                  · rw [← hln, d1] at d3
                    simp [matchNone, MatchResult.failed, MatchResult.ok] at d3
                  · exact d3 e env1 he a2
                · refine htg ⟨utf8 s, List.mem_map_of_mem (List.mem_of_getElem? hs), utf8 s', hm', b, s0, q, g8, a1, by omega, by omega, ?_⟩
                  by_cases h0 : s0 = q
                  · right
                    intro hu
                    exact hsame ⟨h0, Litcheck.Regex.utf8_injective hu⟩
                  · exact .inl h0

/-! ## The reading of words -/

theorem part_reading {rd : Reading} {cx : PatternSpec.Ctx} {b : Buf} {env env' : Vars} {i j : Nat} {p : Part} (hu : ¬ Uses p) :
    PartMatches { cx with rd := rd } b env i j env' p ↔ PartMatches cx b env i j env' p := by
  cases p with
  | literal s => exact Iff.rfl
  | regex s => exact Iff.rfl
  | match_ m =>
    cases m with
    | substitution x pt => cases pt with
      | none => exact absurd trivial hu
      | some s => exact Iff.rfl
    | numeric f cap e =>
      cases e with
      | some e => cases cap <;> exact absurd trivial hu
      | none =>
        cases cap with
        | none => exact Iff.rfl
        | some x =>
          simp only [PartMatches]
          constructor
          · rintro ⟨t, v, f', h1, h2, h3, h4, h5, _⟩
            exact ⟨t, v, f', h1, h2, h3, h4, h5, by simp⟩
          · rintro ⟨t, v, f', h1, h2, h3, h4, h5, _⟩
            exact ⟨t, v, f', h1, h2, h3, h4, h5, by simp⟩

theorem parts_reading {rd : Reading} {cx : PatternSpec.Ctx} {b : Buf} : ∀ {ps : List Part} {env env' : Vars} {i j : Nat}, (∀ p ∈ ps, ¬ Uses p) →
    (PartsMatch { cx with rd := rd } b env ps i j env' ↔ PartsMatch cx b env ps i j env')
  | [], env, env', i, j, _ => by
    constructor <;> (intro h; cases h; exact .nil)
  | p :: ps, env, env', i, j, hu => by
    constructor
    · intro h
      cases h with
      | cons h1 h2 => exact .cons ((part_reading (hu p (by simp))).1 h1) ((parts_reading fun q hq => hu q (by simp [hq])).1 h2)
    · intro h
      cases h with
      | cons h1 h2 => exact .cons ((part_reading (hu p (by simp))).2 h1) ((parts_reading fun q hq => hu q (by simp [hq])).2 h2)

theorem words_reading {cx : PatternSpec.Ctx} {rd : Reading} (hrd : ∀ t, plainText t = true → cx.rd.literal t = true) (hrd' : ∀ t, plainText t = true → rd.literal t = true)
    {ck : Bool} {b : Buf} {ps tail : List Part} {ws : List Str} {env env' : Vars} {i j : Nat}
    (hps : List.Forall₂ (WordOf cx.strict ck cx.line env) ps ws) (hu : ∀ p ∈ tail, ¬ Uses p) :
    PartsMatch { cx with rd := rd } b env (ps ++ tail) i j env' ↔ PartsMatch cx b env (ps ++ tail) i j env' := by
  rw [partsMatch_append, partsMatch_append]
  refine exists_congr fun k => exists_congr fun env1 => and_congr ?_ (parts_reading hu)
  rw [words_match (cx := { cx with rd := rd }) (ck := ck) hrd' hps, words_match (ck := ck) hrd hps]

/-! ## The set -/

/-- What the compiler of sets needs to know of a line. -/
def HasText (y : CPat × Nat) (s : Str) : Prop := (popPrefix (compact y.1)).1 = .lit s ∨ (popPrefix (compact y.1)).1 = .sub s

theorem same_text {x pre : Prefix} {s t : Str} (hx : x = .lit s ∨ x = .sub s) (hp : pre = .lit t ∨ pre = .sub t) (hne : s ≠ t) : x.same pre = false := by
  have : (s == t) = false := by simpa using hne
  rcases hx with rfl | rfl <;> rcases hp with rfl | rfl <;> simp [Prefix.same, Prefix.text, this]

theorem collect_texts {o : Opts} : ∀ {ls : List (CPat × Nat)} {ss : List Str}, List.Forall₂ HasText ls ss → ss.Nodup →
    ∀ (id : Nat) (un : List (Prefix × Nat × Nat)) (sfx : List (List Sfx)) {u : List (Prefix × Nat × Nat)} {sfx' : List (List Sfx)},
    (∀ x ∈ un, ∃ t, (x.1 = .lit t ∨ x.1 = .sub t) ∧ t ∉ ss) → collect o ls id un sfx = .ok (some (u, sfx')) →
    ∃ us cs, u = un ++ us ∧ sfx' = sfx ++ cs ∧ List.Forall₂ (fun y x => x.1 = (popPrefix (compact y.1)).1 ∧ x.2.2 = y.2) ls us ∧
      List.Forall₂ (fun y l => ∃ c, compileSuffix o (popPrefix (compact y.1)).2 = .ok (some c) ∧ l = [(c, y.2)]) ls cs
  | _, _, .nil, _, id, un, sfx, u, sfx', _, h => by
    simp only [collect, Except.ok.injEq, Option.some.injEq, Prod.mk.injEq] at h
    obtain ⟨rfl, rfl⟩ := h
    exact ⟨[], [], by simp, by simp, .nil, .nil⟩
  | (p, ln) :: ls, s :: ss, .cons h1 h2, hnd, id, un, sfx, u, sfx', hun, h => by
    unfold collect at h
    dsimp only at h
    have hnone : (un.find? fun x => x.1.same (popPrefix (compact p)).1) = none := by
      rw [List.find?_eq_none]
      intro x hx
      obtain ⟨t, h3, h4⟩ := hun x hx
      rw [same_text h3 h1 (fun he => h4 (by simp [he]))]
      simp
    rw [hnone] at h
    dsimp only at h
    rw [if_neg (by rcases h1 with h1 | h1 <;> (intro he; rw [he] at h1; cases h1))] at h
    cases hc : compileSuffix o (popPrefix (compact p)).2 with
    | error => rw [hc] at h; simp [bind, Except.bind] at h
    | ok c =>
      rw [hc] at h
      cases c with
      | none => simp [bind, Except.bind] at h
      | some c =>
        simp only [bind, Except.bind] at h
        obtain ⟨hd1, hd2⟩ := List.nodup_cons.1 hnd
        obtain ⟨us, cs, a1, a2, a3, a4⟩ := collect_texts h2 hd2 (id + 1) _ _ (by
          intro x hx
          rcases List.mem_append.1 hx with hx | hx
          · obtain ⟨t, h3, h4⟩ := hun x hx
            exact ⟨t, h3, fun hm => h4 (by simp [hm])⟩
          · rw [List.mem_singleton.1 hx]
            exact ⟨s, h1, hd1⟩) h
        refine ⟨_ :: us, _ :: cs, by rw [a1, List.append_assoc]; rfl, by rw [a2, List.append_assoc]; rfl, .cons ⟨rfl, rfl⟩ a3, .cons ⟨c, hc, rfl⟩ a4⟩

theorem forall₂_right_get {α β : Type} {R : α → β → Prop} : ∀ {l : List α} {m : List β}, List.Forall₂ R l m → ∀ {i : Nat} {x : β}, m[i]? = some x →
    ∃ a, l[i]? = some a ∧ R a x
  | _, _, .nil, i, x, h => by simp at h
  | _ :: _, _ :: _, .cons h1 h2, 0, x, h => by simp at h; subst h; exact ⟨_, rfl, h1⟩
  | _ :: _, _ :: _, .cons h1 h2, i + 1, x, h => by
    simp only [List.getElem?_cons_succ] at h ⊢
    exact forall₂_right_get h2 h

theorem forall₂_left_get {α β : Type} {R : α → β → Prop} : ∀ {l : List α} {m : List β}, List.Forall₂ R l m → ∀ {i : Nat} {x : α}, l[i]? = some x →
    ∃ a, m[i]? = some a ∧ R x a
  | _, _, .nil, i, x, h => by simp at h
  | _ :: _, _ :: _, .cons h1 h2, 0, x, h => by simp at h; subst h; exact ⟨_, rfl, h1⟩
  | _ :: _, _ :: _, .cons h1 h2, i + 1, x, h => by
    simp only [List.getElem?_cons_succ] at h ⊢
    exact forall₂_left_get h2 h

/-- What a guarded line is compiled to. -/
theorem guarded_entry {o : Opts} (hi0 : o.ignoreCase = false) {cx : Nat → PatternSpec.Ctx} {cfs : Nat → Conf engine}
    (hfit : ∀ n, Fit { cx n with rd := weak } o (cfs n)) (hrd : ∀ n t, plainText t = true → (cx n).rd.literal t = true)
    {b : Buf} {hi : Nat} {env : Vars} (hhi : hi ≤ b.length) {y : CPat × Nat} {s : Str} (hg : Guarded (cx y.2) (cfs y.2).checked b hi env y.1 s) :
    s ≠ [] ∧ Canonical o.strictWs (.literal s) ∧ HasText y s ∧ ∀ c, compileSuffix o (popPrefix (compact y.1)).2 = .ok (some c) →
      EntryOk cx cfs b hi env y s c ∧ (isAlways c = true → y.1 = .literal s) := by
  obtain ⟨p, n⟩ := y
  dsimp only at hg ⊢
  have ft := hfit n
  have hst : (cx n).strict = o.strictWs := ft.strict
  have hic : (cx n).ic = false := by rw [← hi0]; exact ft.ic
  have hlit : ∀ {s : Str} {env env' : Vars} {i j : Nat}, Canonical (cx n).strict (.literal s) → (PartMatches (cx n) b env i j env' (.literal s) ↔ env' = env ∧ Occurs false (utf8 s) b i j) := by
    intro s env env' i j hc
    constructor
    · rintro ⟨h1, s', h2, h3⟩
      rw [spaced_canonical hc h2, hic] at h3
      exact ⟨h1, h3⟩
    · rintro ⟨h1, h2⟩; exact ⟨h1, _, .inl rfl, by rw [hic]; exact h2⟩
  cases hg with
  | text h1 h2 =>
    refine ⟨h1, by rw [← hst]; exact h2, .inl rfl, ?_⟩
    intro c hc
    simp only [compact, popPrefix, compileSuffix, Except.ok.injEq, Option.some.injEq] at hc
    subst hc
    refine ⟨⟨fun q e env' => env' = env ∧ e = q, ?_, ?_, ?_⟩, fun _ => rfl⟩
    · intro p e env'
      unfold meaning
      simp only [partsOf]
      constructor
      · intro h
        cases h with
        | cons a1 a2 =>
          cases a2
          obtain ⟨a3, a4, a5⟩ := (hlit h2).1 a1
          exact ⟨a5, a3, a4⟩
      · rintro ⟨a1, rfl, rfl⟩
        exact .cons ((hlit h2).2 ⟨rfl, rfl, a1⟩) .nil
    · rintro q e env' ⟨_, rfl⟩; exact le_refl _
    · intro q hq
      exact .inl ⟨q, env, rfl, hq, rfl, rfl⟩
  | @uses s m qs ps tail ws h1 h2 h3 h4 h5 h6 h7 h8 h9 h10 h11 =>
    have hm : ∀ st : CSt, compactStep st (.match_ m) = ⟨st.flush ++ [.dyn m], [], [], true⟩ := by
      obtain ⟨w, hw⟩ := forall₂_left h5 (.match_ m) (by rw [h3]; simp)
      cases hw <;> exact fun _ => rfl
    obtain ⟨rest, g1, g2⟩ := guarded_compile (o := o) h1 (ps := ps ++ tail) (by rw [h3]; rfl) hm
    refine ⟨h1, by rw [← hst]; exact h2, .inr (by rw [g1]), ?_⟩
    intro c hc
    rw [g1, g2] at hc
    have hline : (cx n).line = (cfs n).line := ft.line
    have h5' : List.Forall₂ (WordOf o.strictWs (cfs n).checked (cfs n).line env) ps ws := by rw [← hst, ← hline]; exact h5
    obtain ⟨k1, k2⟩ := anchored_words ft h5' h6 h4 h7 h8 (by rw [← hst]; exact h9) h10
      (by rcases h11 with h11 | h11
          · exact .inl h11
          · exact .inr (fun env' => by rw [parts_reading h7]; exact h11 env')) hc hhi
    refine ⟨⟨fun q e env' => PartsMatch (cx n) b env (ps ++ tail) q e env', ?_, ?_, ?_⟩, ?_⟩
    · intro p e env'
      unfold meaning
      simp only [partsOf]
      constructor
      · intro h
        cases h with
        | cons a1 a2 =>
          obtain ⟨rfl, rfl, a4⟩ := (hlit h2).1 a1
          exact ⟨a4, a2⟩
      · rintro ⟨a1, a2⟩
        exact .cons ((hlit h2).2 ⟨rfl, rfl, a1⟩) a2
    · intro q e env' h; exact partsMatch_le h
    · intro q hq
      have hwr : ∀ {e env'}, PartsMatch { cx n with rd := weak } b env (ps ++ tail) q e env' ↔ PartsMatch (cx n) b env (ps ++ tail) q e env' :=
        words_reading (hrd n) (fun _ h => h) h5 h7
      rcases k2 n q hq with ⟨e, env', a1, _, a3, a4⟩ | ⟨a1, a2⟩
      · exact .inl ⟨e, env', a1, a3, hwr.1 a4⟩
      · exact .inr ⟨a1, fun e env' he h => a2 e env' he (hwr.2 h)⟩
    · intro ha
      rw [k1] at ha
      cases ha

/-- The search for a group of guarded lines. -/
theorem nots_guarded {o : Opts} (hi0 : o.ignoreCase = false) {cx : Nat → PatternSpec.Ctx} {cfs : Nat → Conf engine}
    (hfit : ∀ n, Fit { cx n with rd := weak } o (cfs n)) (hrd : ∀ n t, plainText t = true → (cx n).rd.literal t = true)
    {b : Buf} {r : Rng} {env : Vars} (hr : r.start ≤ r.stop) (hhi : r.stop ≤ b.length) {ls : List (CPat × Nat)} {ss : List Str}
    (hg : List.Forall₂ (fun (y : CPat × Nat) s => Guarded (cx y.2) (cfs y.2).checked b r.stop env y.1 s) ls ss) (hnd : ss.Nodup) (htg : ¬ Tangled (ss.map utf8))
    (hsome : ∃ y ∈ ls, ∀ s, y.1 ≠ .literal s) {set : MatchSet} (h : compileSet o ls = .ok (some set)) :
    ∃ m env', (anyPat false cfs set).run b r env = (some m, env') ∧
      ((m.isOk = true ∧ ∃ y ∈ ls, ∃ q e env1, r.start ≤ q ∧ q ≤ e ∧ e ≤ r.stop ∧ meaning (cx y.2) y.1 env b q e env1 ∧
          ∃ i, m.info = some i ∧ i.start = q ∧ i.stop = e ∧ i.pspan = y.2 ∧ env' = env1) ∨
       (m.isOk = false ∧ env' = env ∧ ∀ y ∈ ls, ∀ q e env1, r.start ≤ q → e ≤ r.stop → ¬ meaning (cx y.2) y.1 env b q e env1)) := by
  have hE : ∀ {y : CPat × Nat} {s : Str}, Guarded (cx y.2) (cfs y.2).checked b r.stop env y.1 s → _ := fun hx => guarded_entry hi0 hfit hrd hhi hx
  unfold compileSet at h
  cases hc : collect o ls 0 [] [] with
  | error => rw [hc] at h; simp [bind, Except.bind] at h
  | ok x =>
    rw [hc] at h
    cases x with
    | none => simp [bind, Except.bind] at h
    | some x =>
      obtain ⟨us, cs⟩ := x
      simp only [bind, Except.bind] at h
      obtain ⟨us', cs', hu0, hs0, a3, a4⟩ := collect_texts (hg.imp fun y s hx => (hE hx).2.2.1) hnd 0 [] [] (by simp) hc
      rw [List.nil_append] at hu0 hs0
      rw [← hu0] at a3
      rw [← hs0] at a4
      clear hu0 hs0
      have hall : us.all (fun x => x.1.isLit || x.1.isSub) = true := by
        rw [List.all_eq_true]
        intro x hx
        obtain ⟨i, hi⟩ := List.mem_iff_getElem?.1 hx
        obtain ⟨y, b1, b2, _⟩ := forall₂_right_get a3 hi
        obtain ⟨s, _, b3⟩ := forall₂_left_get hg b1
        rcases (hE b3).2.2.1 with b4 | b4 <;> rw [b2, b4] <;> rfl
      obtain ⟨y0, hy0, hn0⟩ := hsome
      obtain ⟨i0, hi0'⟩ := List.mem_iff_getElem?.1 hy0
      obtain ⟨s0, _, b3⟩ := forall₂_left_get hg hi0'
      obtain ⟨l0, b4, c0, b5, rfl⟩ := forall₂_left_get a4 hi0'
      have hal : isAlways c0 = false := by
        cases ha : isAlways c0 with
        | false => rfl
        | true => exact absurd (((hE b3).2.2.2 c0 b5).2 ha) (hn0 s0)
      have hsingle : (cs.all fun ss => ss.all fun s => isAlways s.1) = false := by
        rw [List.all_eq_false]
        exact ⟨_, List.mem_of_getElem? b4, by simp [hal]⟩
      have hnl : us.all (fun x => x.1.isLit) = false := by
        rw [List.all_eq_false]
        obtain ⟨x, b6, b7, _⟩ := forall₂_left_get a3 hi0'
        refine ⟨x, List.mem_of_getElem? b6, ?_⟩
        rw [b7]
        obtain ⟨p0, n0⟩ := y0
        dsimp only at b3 hn0 ⊢
        cases b3 with
        | text => exact absurd rfl (hn0 _)
        | @uses _ m qs ps tail ws h1 h2 h3 h4 h5 h6 h7 h8 h9 h10 h11 =>
          have hm : ∀ st : CSt, compactStep st (.match_ m) = ⟨st.flush ++ [.dyn m], [], [], true⟩ := by
            obtain ⟨w, hw⟩ := forall₂_left h5 (.match_ m) (by rw [h3]; simp)
            cases hw <;> exact fun _ => rfl
          obtain ⟨rest, g1, _⟩ := guarded_compile (o := o) h1 (ps := ps ++ tail) (by rw [h3]; rfl) hm
          rw [g1]
          simp [Prefix.isLit]
      unfold classify at h
      dsimp only at h
      rw [hnl, hall, hsingle] at h
      simp only [Bool.false_eq_true, if_false, if_true, Except.ok.injEq, Option.some.injEq] at h
      subst h
      have hlits : (setLits o us).map Prod.fst = ss.map utf8 := by
        apply List.ext_getElem?
        intro i
        unfold setLits
        rw [List.map_map, List.getElem?_map, List.getElem?_map]
        cases hu : us[i]? with
        | some x =>
          obtain ⟨y, d1, d2, _⟩ := forall₂_right_get a3 hu
          obtain ⟨s, d3, d4⟩ := forall₂_left_get hg d1
          rw [d3]
          simp only [Option.map_some, Function.comp, Option.some.injEq]
          have e1 : x.1.text.getD [] = s := by
            rcases (hE d4).2.2.1 with d5 | d5 <;> rw [d2, d5] <;> rfl
          rw [e1]
          exact litBytes_canonical (hE d4).2.1
        | none =>
          cases hs : ss[i]? with
          | none => rfl
          | some s =>
            obtain ⟨y, d1, _⟩ := forall₂_right_get hg hs
            obtain ⟨x, d2, _⟩ := forall₂_left_get a3 d1
            rw [hu] at d2
            cases d2
      have hne : ∀ s ∈ ss, s ≠ [] := by
        intro s hs
        obtain ⟨i, hi⟩ := List.mem_iff_getElem?.1 hs
        obtain ⟨y, _, d2⟩ := forall₂_right_get hg hi
        exact (hE d2).1
      obtain ⟨m, env', k1, k2⟩ := anyLoop_words (cx := cx) (cfs := cfs) (b := b) (r := r) (env := env) (ls := ls) hlits hne hnd htg
        (by
          intro pid s hs
          obtain ⟨y, d1, d2⟩ := forall₂_right_get hg hs
          obtain ⟨l, d3, c, d4, rfl⟩ := forall₂_left_get a4 d1
          exact ⟨y, List.mem_of_getElem? d1, c, d3, ((hE d2).2.2.2 c d4).1⟩)
        (by
          intro y hy
          obtain ⟨i, d1⟩ := List.mem_iff_getElem?.1 hy
          obtain ⟨s, d2, d3⟩ := forall₂_left_get hg d1
          obtain ⟨l, d4, c, d5, rfl⟩ := forall₂_left_get a4 d1
          exact ⟨i, s, d2, c, d4, ((hE d3).2.2.2 c d5).1⟩)
        (r.stop - r.start + 2) r.start hr (by omega)
      refine ⟨m, env', ?_, k2⟩
      show (match anyOut false cfs (.subPrefix (setLits o us) cs) b r env with
        | .result m env' => (some m, env')
        | .err env' => (none, env')
        | .panic _ => (none, env)
        | .hang => (none, env)) = (some m, env')
      have : anyOut false cfs (.subPrefix (setLits o us) cs) b r env = .result m env' := k1
      rw [this]

end Litcheck.Sets
