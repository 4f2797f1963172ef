import Verif.Proofs.DagRx
import Verif.Proofs.DagAll

/-!
# Groups of patterns without variables: no panic, no search without end
-/

namespace Litcheck.Sets
open Litcheck.Smart Litcheck.Spec Litcheck.RegexSpec Litcheck.PatternSpec Litcheck.Pattern
open Litcheck.Regex hiding Items
open Litcheck.Lex (Part Match CPat CLine VarName Expr Op)

/-- Patterns which use no variables and capture at most strings, no two of the same text. -/
structure PlainGroup (o : Opts) (ps : List CPat) : Prop where
  static : StaticGroup o ps
  texts : (ps.map srcText).Nodup

theorem collect_total {o : Opts} : ∀ (ls : List (CPat × Nat)) (id : Nat) (un : List (Prefix × Nat × Nat)) (sfx : List (List Sfx))
    (old : List CPat), (∀ y ∈ ls, ∃ pre, View o y.1 pre ∧ popPrefix (compact y.1) = (pre, [])) → (∀ x ∈ un, ∃ p ∈ old, View o p x.1) →
    ((old ++ ls.map Prod.fst).map srcText).Nodup → ∃ u sfx', collect o ls id un sfx = .ok (some (u, sfx'))
  | [], id, un, sfx, old, _, _, _ => ⟨_, _, rfl⟩
  | (p, ln) :: ls, id, un, sfx, old, hv, hun, hn => by
    unfold collect
    obtain ⟨pre, hpv, hpp⟩ := hv (p, ln) (by simp)
    dsimp only at hpv hpp ⊢
    rw [hpp]
    dsimp only
    have hnot : un.find? (fun x => x.1.same pre) = none := by
      rw [List.find?_eq_none]
      intro x hx hxe
      obtain ⟨q, hq, hqv⟩ := hun x hx
      have := hqv.same hpv hxe
      rw [List.map_append, List.nodup_append] at hn
      exact hn.2.2 _ (List.mem_map_of_mem hq) _ (by simp) this
    rw [hnot]
    dsimp only
    rw [if_neg (by cases hpv <;> simp)]
    simp only [compileSuffix, bind, Except.bind]
    exact collect_total ls _ _ _ (old ++ [p]) (fun y hy => hv y (by simp [hy])) (by
      intro x hx
      rcases List.mem_append.1 hx with hx | hx
      · obtain ⟨q, hq, h1⟩ := hun x hx
        exact ⟨q, by simp [hq], h1⟩
      · simp only [List.mem_singleton] at hx
        subst hx
        exact ⟨p, by simp, hpv⟩) (by simpa using hn)

theorem visitRx_total {ic : Bool} {rxs : List SetRx} {b : Buf} (hstr : ∀ r ∈ rxs, ∀ c ∈ r.caps, c.ty = .string) :
    ∀ (hs : List (Nat × Nat × Nat)) (ms : Matches) (env : Vars), (∀ x ∈ hs, RxAt ic rxs b x.1 x.2.1 x.2.2) →
      ∃ ms' pos env', visitRx ic rxs b hs ms env = .result ms' pos env'
  | [], ms, env, _ => ⟨_, _, _, rfl⟩
  | (pid, s, e) :: hs, ms, env, h => by
    have x5 := h _ List.mem_cons_self
    have hrest : ∀ x ∈ hs, RxAt ic rxs b x.1 x.2.1 x.2.2 := fun x hx => h x (by simp [hx])
    unfold visitRx
    obtain ⟨i, vals, hsm, _⟩ := setMatch_find hstr x5 hs env
    rw [hsm]
    dsimp only
    split
    · exact visitRx_total hstr hs _ _ hrest
    · split
      · exact visitRx_total hstr hs _ _ hrest
      · split
        · exact ⟨_, _, _, rfl⟩
        · exact visitRx_total hstr hs _ _ hrest

theorem plainGroup_total {o : Opts} {ls : List (CPat × Nat)} (hg : PlainGroup o (ls.map Prod.fst)) (hnil : ls ≠ []) (ic : Bool) (cfs : Nat → Conf engine)
    (vs : Bool) : ∃ c, compileSet o ls = .ok c ∧ ∀ set, c = some set → ∀ (b : Buf) (r : Rng) (env : Vars),
      (∃ m env', anyOut ic cfs set b r env = .result m env') ∧
      ∃ ms pos env', dagOut ic cfs vs set b r env = .result ms pos env' := by
  have hv : ∀ y ∈ ls, ∃ pre, View o y.1 pre ∧ popPrefix (compact y.1) = (pre, []) := fun y hy => hg.static.view (List.mem_map_of_mem hy)
  obtain ⟨u, sfx, h1⟩ := collect_total (o := o) ls 0 [] [] [] hv (by simp) (by simpa using hg.texts)
  obtain ⟨a1, a2⟩ := collect_distinct ls 0 [] [] [] hv (by simp) (by simpa using hg.texts) rfl h1
  rw [List.map_nil, List.nil_append] at a2
  have hat : ∀ x ∈ u, ∃ y ∈ ls, View o y.1 x.1 := by
    intro x hx
    have : (x.1, x.2.2) ∈ ls.map fun y => ((popPrefix (compact y.1)).1, y.2) := by rw [← a2]; exact List.mem_map_of_mem (f := fun x => (x.1, x.2.2)) hx
    obtain ⟨y, hy, hye⟩ := List.mem_map.1 this
    obtain ⟨pre, h5, h6⟩ := hv y hy
    rw [h6, Prod.mk.injEq] at hye
    exact ⟨y, hy, hye.1 ▸ h5⟩
  have hsh : ∀ x ∈ u, (∃ s, x.1 = .lit s) ∨ ∃ r, x.1 = .rx r := by
    intro x hx
    obtain ⟨y, _, h3⟩ := hat x hx
    generalize x.1 = pre at h3
    cases h3 with
    | lit => exact .inl ⟨_, rfl⟩
    | rx => exact .inr ⟨_, rfl⟩
  have hc : compileSet o ls = classify o u sfx := by
    unfold compileSet
    rw [h1]; rfl
  rw [hc]
  have a1' : (sfx.all fun ss => ss.all fun s => isAlways s.1) = true := a1
  unfold classify
  dsimp only
  rw [a1']
  simp only [if_true]
  split
  · rename_i hl
    refine ⟨_, rfl, ?_⟩
    intro set hset b r env
    simp only [Option.some.injEq] at hset
    subst hset
    refine ⟨?_, ?_⟩
    · simp only [anyOut, litAny]
      cases findSet ic ((setLits o u).map Prod.fst) b r.stop (r.stop - r.start) r.start <;> exact ⟨_, _, rfl⟩
    · have hne : ∀ x ∈ setLits o u, x.1 ≠ [] := by
        intro x hx
        unfold setLits at hx
        obtain ⟨z, hz, rfl⟩ := List.mem_map.1 hx
        obtain ⟨y, hy, hvw⟩ := hat z hz
        have h6 := List.all_eq_true.1 hl z hz
        obtain ⟨pre, n1, n2⟩ := z
        dsimp only at hvw h6 ⊢
        cases hvw with
        | rx => simp [Prefix.isLit] at h6
        | lit c1 c2 c3 c4 =>
          simp only [Prefix.text, Option.getD_some]
          rw [c2]
          intro h0
          refine hg.static.solid y.1 (List.mem_map_of_mem hy) ⟨weak, o.ignoreCase, o.strictWs, 0⟩ rfl rfl Bindings.empty [] 0 Bindings.empty
            (c4 _ rfl rfl _ _ _ _ ?_)
          rw [h0]
          exact ⟨rfl, by intro i x hx; simp at hx⟩
      have hlen : ([] : List Info).length < (setLits o u).length := by
        have hlenu : u.length = ls.length := by simpa using congrArg List.length a2
        have := List.length_pos_iff.2 hnil
        simp only [setLits, List.length_map, List.length_nil]
        omega
      obtain ⟨ms, pos, found, e, g1, _⟩ := visitLoop_all hne (b := b) (stop := r.stop) (lo := r.start) (r.stop - r.start + 1) r.start []
        ⟨Nat.le_refl _, by simp, by simp, by simp⟩ hlen (by omega)
      have g1' : visitLoop (setLits o u) b r.stop (r.stop - r.start + 1) r.start [] = some (ms, pos) := g1
      simp only [dagOut, litDag, g1', Option.map_some]
      exact ⟨_, _, _, rfl⟩
  · rename_i hl
    rw [if_neg]
    · rw [if_pos]
      · cases hm : u.mapM buildSetRx with
        | none => exact ⟨_, rfl, by simp⟩
        | some rxs =>
          refine ⟨_, rfl, ?_⟩
          intro set hset b r env
          simp only [Option.some.injEq] at hset
          subst hset
          have hf := mapM_forall₂ hm
          have hstr : ∀ rx ∈ rxs, ∀ c ∈ rx.caps, c.ty = .string := by
            intro rx hrx
            obtain ⟨n, hn⟩ := List.mem_iff_getElem?.1 hrx
            obtain ⟨x, hx1, hx2⟩ := forall₂_getElem? hf hn
            obtain ⟨y, h4, h5⟩ := hat x (List.mem_of_getElem? hx1)
            obtain ⟨pre, n1, n2⟩ := x
            dsimp only at h5
            cases h5 with
            | lit => rw [(buildSetRx_lit hx2).2.1]; simp
            | @rx rr c1 c2 =>
              obtain ⟨_, e2, _⟩ := buildSetRx_rx hx2
              rw [e2]
              exact c2
          have hb : ∀ x ∈ setHits ic rxs b r.start r.stop, RxAt ic rxs b x.1 x.2.1 x.2.2 := by
            rintro ⟨pid, s, e⟩ hx
            obtain ⟨h1, h2, h3, rx, h4, h5⟩ := mem_setHits.1 hx
            exact ⟨rx, h4, hits_matches (show s ≤ r.stop by omega) h5⟩
          refine ⟨?_, visitRx_total hstr _ _ _ hb⟩
          simp only [anyOut, startSearch]
          cases hh : setHits ic rxs b r.start r.stop with
          | nil => exact ⟨_, _, rfl⟩
          | cons x rest =>
            obtain ⟨pid, s, e⟩ := x
            have x5 := hb (pid, s, e) (by rw [hh]; simp)
            dsimp only at x5
            simp only [nextMatch]
            obtain ⟨i, vals, hsm, _⟩ := setMatch_find hstr x5 rest env
            rw [hsm]
            exact ⟨_, _, rfl⟩
      · rw [List.all_eq_true]
        intro x hx
        rcases hsh x hx with ⟨_, h⟩ | ⟨_, h⟩ <;> rw [h] <;> rfl
    · intro hall
      apply hl
      rw [List.all_eq_true] at hall ⊢
      intro x hx
      have := hall x hx
      rcases hsh x hx with ⟨_, h⟩ | ⟨_, h⟩ <;> rw [h] at this ⊢
      · rfl
      · simp [Prefix.isLit, Prefix.isSub] at this

end Litcheck.Sets
