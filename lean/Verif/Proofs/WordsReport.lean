import Verif.Proofs.WordsCompile

/-!
# The search for a pattern of words and a part without variables
-/

namespace Litcheck.Pattern
open Litcheck.Smart Litcheck.Spec Litcheck.RegexSpec Litcheck.PatternSpec
open Litcheck.Regex hiding Items
open Litcheck.Lex (Part Match CPat VarName Expr Op)

theorem partsMatch_append {cx : PatternSpec.Ctx} {b : Buf} {qs : List Part} : ∀ {ps : List Part} {env env'' : Vars} {i j : Nat},
    PartsMatch cx b env (ps ++ qs) i j env'' ↔ ∃ k env', PartsMatch cx b env ps i k env' ∧ PartsMatch cx b env' qs k j env''
  | [], env, env'', i, j => by
    constructor
    · intro h; exact ⟨i, env, .nil, h⟩
    · rintro ⟨k, env', h1, h2⟩; cases h1; exact h2
  | p :: ps, env, env'', i, j => by
    rw [List.cons_append]
    constructor
    · intro h
      cases h with
      | cons h1 h2 =>
        obtain ⟨k, env', h3, h4⟩ := partsMatch_append.1 h2
        exact ⟨k, env', .cons h1 h3, h4⟩
    · rintro ⟨k, env', h1, h2⟩
      cases h1 with
      | cons h3 h4 => exact .cons h3 (partsMatch_append.2 ⟨k, env', h4, h2⟩)

theorem forall₂_left {α β : Type} {R : α → β → Prop} : ∀ {l : List α} {m : List β}, List.Forall₂ R l m → ∀ a ∈ l, ∃ b, R a b
  | _, _, .nil, a, h => by simp at h
  | _ :: _, _ :: _, .cons h1 h2, a, h => by
    rcases List.mem_cons.1 h with rfl | h
    · exact ⟨_, h1⟩
    · exact forall₂_left h2 a h

theorem words_report {cx : PatternSpec.Ctx} {o : Opts} {cf : Conf engine} (hic : cx.ic = o.ignoreCase) (hic' : cf.ignoreCase = o.ignoreCase)
    (hst : cx.strict = o.strictWs) (hln : cx.line = cf.line) (hrd : ∀ t, plainText t = true → cx.rd.literal t = true)
    {ps tail : List Part} {ws : List Str} {b : Buf} {r : Rng} {env : Vars}
    (hps : List.Forall₂ (WordOf cx.strict cf.checked cx.line env) ps ws) (hne : ∀ w ∈ ws, w ≠ []) (hlast : ∃ qs m, ps = qs ++ [.match_ m])
    (hu : ∀ p ∈ tail, ¬ Uses p) (hok : ∀ p ∈ tail, PartOk p) (hcan : ∀ p ∈ tail, Canonical cx.strict p) (hnum : ∀ p ∈ tail, NoNumber p)
    (hbd : ∀ k, 0 < k → k ≤ ws.length → (k = ws.length → tail ≠ []) → ¬ Bordered cx.ic (utf8 (ws.take k).flatten))
    (hend : (∀ p ∈ tail, ∃ s, p = .literal s) ∨ ((∀ p ∈ tail, ¬ Captures p) ∧ ∀ env', ¬ PartsMatch cx b env tail r.stop r.stop env') ∨
      ∀ s env', r.start ≤ s → ¬ meaning cx (.match_ (ps ++ tail)) env b s r.stop env')
    {c : Compiled engine} (hc : compile engine o (.match_ (ps ++ tail)) = .ok (some c)) {pspan : Nat}
    (h1 : r.start ≤ r.stop) (h2 : r.stop ≤ b.length) :
    (∀ m env', (c.pat cf pspan).run b r env = (some m, env') → FirstOrNone (meaning cx (.match_ (ps ++ tail))) b r.start r.stop env m) ∧
    ((∀ p ∈ tail, ¬ Captures p) → ∃ m env', (c.pat cf pspan).run b r env = (some m, env')) := by
  rw [hst, hln] at hps
  obtain ⟨g1, g2, g3⟩ := words_fold (b := b) (hi := r.stop) hps hne (st := ⟨[], [], [], true⟩) rfl rfl (winv_nil (o := o) (cf := cf))
  have hst1 : ∃ out, out ≠ [] ∧ ps.foldl compactStep ⟨[], [], [], true⟩ = ⟨out, [], [], true⟩ := by
    obtain ⟨qs, m, rfl⟩ := hlast
    rw [List.foldl_append, List.foldl_cons, List.foldl_nil]
    obtain ⟨w, hw⟩ : ∃ w, WordOf o.strictWs cf.checked cf.line env (.match_ m) w := by
      exact forall₂_left hps (.match_ m) (by simp)
    rcases wordOf_insert (b := b) (hi := r.stop) hw with ⟨s, hs⟩ | ⟨m', op, he, _, _, hc⟩
    · cases hs
    · cases he
      exact ⟨_, by simp, hc _⟩
  obtain ⟨out, hout, hfold⟩ := hst1
  rw [hfold] at g3
  obtain ⟨ops, vs, v1, v2, v3, _, v5, v6⟩ := g3
  dsimp only at v1
  rw [List.nil_append, show utf8 ([] : Str) = [] from rfl, List.append_nil] at v5
  rw [List.nil_append] at v6
  have hpne : ps ≠ [] := by obtain ⟨qs, m, rfl⟩ := hlast; simp
  have hcomp : compact (.match_ (ps ++ tail)) = .parts (tail.foldl compactStep ⟨out, [], [], true⟩).flush := by
    have ec : compact (.match_ (ps ++ tail)) = (let st := (ps ++ tail).foldl compactStep ⟨[], [], [], true⟩
         if st.out.isEmpty then if st.litMode then .lit st.text else .rx ⟨st.text, st.caps⟩ else .parts st.flush) := by
      cases ps with
      | nil => exact absurd rfl hpne
      | cons => rfl
    rw [ec, List.foldl_append, hfold]
    dsimp only
    have e1 := static_fold_eq (tail := tail) out ⟨[], [], [], true⟩ hu
    dsimp only at e1
    rw [if_neg]
    rw [e1]
    simpa using hout
  unfold compile at hc
  rw [hcomp] at hc
  dsimp only at hc
  cases hlp : lowerParts engine o (tail.foldl compactStep ⟨out, [], [], true⟩).flush with
  | error => rw [hlp] at hc; simp [bind, Except.bind] at hc
  | ok z =>
    rw [hlp] at hc
    cases z with
    | none => simp [bind, Except.bind] at hc
    | some z =>
      simp only [bind, Except.bind, Except.ok.injEq, Option.some.injEq] at hc
      subst hc
      have wm : ∀ {i j env'}, PartsMatch cx b env ps i j env' ↔ env' = env ∧ Occurs cx.ic (utf8 ws.flatten) b i j :=
        words_match (ck := cf.checked) hrd (by rw [hst, hln]; exact hps)
      have full : ∀ {s e env'}, e ≤ r.stop → (meaning cx (.match_ (ps ++ tail)) env b s e env' ↔
          hitAt cf.ignoreCase b r.stop s vs.flatten = true ∧ PartsMatch cx b env tail (s + vs.flatten.length) e env') := by
        intro s e env' he
        unfold meaning
        rw [show partsOf (.match_ (ps ++ tail)) = ps ++ tail from rfl, partsMatch_append]
        constructor
        · rintro ⟨k, env1, a1, a2⟩
          obtain ⟨rfl, rfl, a3⟩ := wm.1 a1
          rw [← v5, hic, ← hic'] at *
          have := partsMatch_le a2
          exact ⟨hitAt_iff.2 ⟨by omega, a3⟩, a2⟩
        · rintro ⟨a1, a2⟩
          refine ⟨_, env, wm.2 ⟨rfl, ?_⟩, a2⟩
          rw [← v5, hic, ← hic']
          exact ⟨rfl, (hitAt_iff.1 a1).2⟩
      obtain ⟨y, T, safe, rfl, t1, t2, t3, t4⟩ := tail_ops (b := b) (env := env) hic hic' hst h2 hu hok hcan hnum
        (Q := fun q => ∃ s, r.start ≤ s ∧ hitAt cf.ignoreCase b r.stop s vs.flatten = true ∧ q = s + vs.flatten.length)
        (by
          rcases hend with hend | hend | hend
          · exact .inl hend
          · exact .inr (.inl hend)
          · refine .inr (.inr ?_)
            rintro q env' ⟨s, a1, a2, rfl⟩ a3
            exact hend s env' a1 ((full (le_refl _)).2 ⟨a2, a3⟩)) v1 hlp
      have hwne : ws ≠ [] := by
        intro h
        rw [h] at hps
        cases hps
        exact hpne rfl
      cases v2 with
      | nil =>
        exfalso
        have := utf8_ne (s := ws.flatten) (by
          cases ws with
          | nil => exact absurd rfl hwne
          | cons w ws => simp; intro h; exact absurd h (hne w (by simp)))
        exact this v5.symm
      | @cons op v ops vs hw hws =>
        have hb : ∀ k, 0 < k → k ≤ (v :: vs).length → (k = (v :: vs).length → y ≠ []) → ¬ Bordered cf.ignoreCase ((v :: vs).take k).flatten := by
          intro k k1 k2 k3
          obtain ⟨n, n1, n2, n3⟩ := v6 k k2
          rw [n3, hic', ← hic]
          refine hbd n (n2 k1) n1 ?_
          intro hn htl
          rw [hn, List.take_length, ← v5] at n3
          refine k3 ?_ (t3 htl)
          by_contra hk
          have hlen := congrArg List.length n3
          have hsp : ((v :: vs).take k).flatten ++ ((v :: vs).drop k).flatten = (v :: vs).flatten := by
            rw [← List.flatten_append, List.take_append_drop]
          rw [← hsp, List.length_append] at hlen
          cases hd : (v :: vs).drop k with
          | nil => rw [List.drop_eq_nil_iff] at hd; omega
          | cons a as =>
            rw [hd, List.flatten_cons, List.length_append] at hlen
            have := List.length_pos_iff.2 (v3 a (List.mem_of_mem_drop (by rw [hd]; simp)))
            omega
        obtain ⟨x, x1, x2⟩ := search_words h2 hw hws v3 t1 (lo := r.start) (fun s a1 a2 => ⟨s, a1, a2, rfl⟩) hb (b.length + 2) r.start (le_refl _) h1 (by omega)
        have hrun : ((Compiled.smart (op :: ops ++ y)).pat cf pspan).run b r env =
            match tryMatch cf (op :: (ops ++ y)) pspan (b.length + 2) b r env with
            | .result m env' => (some m, env')
            | .err env' => (none, env')
            | .panic _ => (none, env)
            | .hang => (none, env) := rfl
        rw [hrun]
        unfold tryMatch
        dsimp only
        rw [x1]
        cases x with
        | err =>
          dsimp only at x2 ⊢
          exact ⟨by simp, fun h => absurd (t4 h) x2⟩
        | panic =>
          dsimp only at x2 ⊢
          exact ⟨by simp, fun h => absurd (t4 h) x2⟩
        | absent =>
          dsimp only at x2 ⊢
          refine ⟨?_, fun _ => ⟨_, _, rfl⟩⟩
          intro m env' h
          simp only [Prod.mk.injEq, Option.some.injEq] at h
          rw [← h.1]
          refine .inr ⟨rfl, ?_⟩
          intro s e env'' a1 a2 a3
          obtain ⟨a4, a5⟩ := (full a2).1 a3
          exact x2 s a1 a4 (t2 _ _ _ a2 a5)
        | found st env1 =>
          dsimp only at x2 ⊢
          rw [if_pos x2.2.1]
          rw [if_pos x2.2.2.1]
          refine ⟨?_, fun _ => ⟨_, _, rfl⟩⟩
          intro m env' h
          simp only [Prod.mk.injEq, Option.some.injEq] at h
          rw [← h.1]
          refine .inl ⟨⟨st.mstart, st.mend, 0, pspan⟩, rfl, rfl, ?_⟩
          intro s e env'' a1 a2 a3
          obtain ⟨a4, a5⟩ := (full a2).1 a3
          show st.mstart ≤ s
          by_contra hs
          exact x2.2.2.2 s a1 (by omega) a4 (t2 _ _ _ a2 a5)

end Litcheck.Pattern
