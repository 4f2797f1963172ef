import Verif.Proofs.Sets
import Verif.Proofs.BindsNothing
import Verif.Proofs.DagThreaded
import Verif.Proofs.CaptureText

/-!
# `CHECK-DAG` groups with regular expressions
-/

namespace Litcheck.Sets
open Litcheck.Smart Litcheck.Spec Litcheck.RegexSpec Litcheck.PatternSpec Litcheck.Pattern
open Litcheck.Regex hiding Items
open Litcheck.Lex (Part Match CPat CLine VarName Expr Op)

/-- The matches found so far: they are in order, and pattern `pid` matches where it was found. -/
structure Recorded (R : Nat → Nat → Nat → Prop) (stop lo start : Nat) (infos : List Info) : Prop where
  le : lo ≤ start
  each : ∀ i ∈ infos, lo ≤ i.start ∧ i.start < i.stop ∧ i.stop ≤ start ∧ i.stop ≤ stop ∧ R i.pid i.start i.stop
  sorted : infos.Pairwise (fun i j => i.stop ≤ j.start)
  pids : (infos.map Info.pid).Nodup

theorem pairwise_disjoint {l : List Info} (hpl : l.Pairwise (fun i j => i.stop ≤ j.start)) : ∀ x ∈ l, ∀ y ∈ l, x ≠ y →
    x.stop ≤ y.start ∨ y.stop ≤ x.start := by
  induction hpl with
  | nil => intro x hx; simp at hx
  | cons h1 h2 ih =>
    intro x hx y hy hxy
    rcases List.mem_cons.1 hx with rfl | hx'
    · rcases List.mem_cons.1 hy with rfl | hy'
      · exact absurd rfl hxy
      · exact Or.inl (h1 y hy')
    · rcases List.mem_cons.1 hy with rfl | hy'
      · exact Or.inr (h1 x hx')
      · exact ih x hx' y hy' hxy

/-- The matches `infos` follow each other from `env0` to `env`. -/
inductive Steps (Q : Info → Vars → Vars → Prop) (env0 : Vars) : List Info → Vars → Prop
  | nil : Steps Q env0 [] env0
  | snoc {l i env env'} : Steps Q env0 l env → Q i env env' → Steps Q env0 (l ++ [i]) env'

theorem Steps.threads {Q : Info → Vars → Vars → Prop} {ms : List (Meaning Vars)} {spans : List (Nat × Nat)} {b : Buf} {env0 env : Vars}
    {infos : List Info} (hQ : ∀ i env env', Q i env env' → ∃ m, ms[i.pid]? = some m ∧ m env b i.start i.stop env')
    (hs : ∀ i ∈ infos, spans[i.pid]? = some (i.start, i.stop)) (h : Steps Q env0 infos env) :
    Threads ms spans b (infos.map Info.pid) env0 env := by
  induction h with
  | nil => exact .nil
  | @snoc l i env env' h1 h2 ih =>
    rw [List.map_append]
    obtain ⟨m, h3, h4⟩ := hQ _ _ _ h2
    exact (ih fun x hx => hs x (by simp [hx])).snoc h3 (hs i (by simp)) h4

/-- One match for every pattern is a match of the group. -/
theorem Recorded.dag {μs : List (Meaning Vars)} {R : Nat → Nat → Nat → Prop} {b : Buf} {stop lo : Nat} {infos : List Info} {last : Info}
    {Q : Info → Vars → Vars → Prop} {env0 env1 : Vars}
    (hR : ∀ pid s e, R pid s e → ∃ μ, μs[pid]? = some μ ∧ ∃ env env', μ env b s e env')
    (hQ : ∀ i env env', Q i env env' → ∃ μ, μs[i.pid]? = some μ ∧ μ env b i.start i.stop env') (hst : Steps Q env0 infos env1)
    (v : Recorded R stop lo last.stop infos) (hlen : infos.length = μs.length) (hlast : infos.getLast? = some last) :
    ∃ s, Matches.range (infos.map .ok) = .ok (some ⟨s, last.stop⟩) ∧ lo ≤ s ∧ s ≤ last.stop ∧ last.stop ≤ stop ∧
      DagThreaded μs b stop lo s last.stop env0 env1 := by
  cases infos with
  | nil => simp at hlast
  | cons i0 infos =>
    have hp : ∀ j ∈ i0 :: infos, j.start ≤ j.stop := fun j hj => by obtain ⟨_, h, _⟩ := v.each j hj; omega
    have hrange := range_ok_map v.sorted hp hlast
    have hlm : last ∈ i0 :: infos := List.mem_of_getLast? hlast
    obtain ⟨a1, a2, a3, a4, a5⟩ := v.each last hlm
    obtain ⟨b1, b2, b3, b4, b5⟩ := v.each i0 (by simp)
    have hmin : ∀ j ∈ i0 :: infos, i0.start ≤ j.start := by
      intro j hj
      rcases List.mem_cons.1 hj with rfl | hj'
      · exact Nat.le_refl _
      · have := (List.pairwise_cons.1 v.sorted).1 j hj'; omega
    have hmax : ∀ j ∈ i0 :: infos, j.stop ≤ last.stop := fun j hj => (v.each j hj).2.2.1
    refine ⟨i0.start, hrange, b1, by omega, a4, ?_⟩
    have hpl : ∀ j ∈ i0 :: infos, j.pid < μs.length := by
      intro j hj
      obtain ⟨_, _, _, _, h⟩ := v.each j hj
      obtain ⟨μ, h1, _⟩ := hR _ _ _ h
      exact (List.getElem?_eq_some_iff.1 h1).1
    have hpid : ∀ p, p < μs.length → ∃ i ∈ i0 :: infos, i.pid = p := by
      intro p hp0
      have hsub : (i0 :: infos).map Info.pid ⊆ List.range μs.length := by
        intro q hq
        obtain ⟨j, hj, rfl⟩ := List.mem_map.1 hq
        rw [List.mem_range]
        exact hpl j hj
      have hperm : ((i0 :: infos).map Info.pid).Perm (List.range μs.length) :=
        (List.subperm_of_subset v.pids hsub).perm_of_length_le (by simp only [List.length_map, List.length_range]; omega)
      have : p ∈ (i0 :: infos).map Info.pid := hperm.mem_iff.2 (List.mem_range.2 hp0)
      obtain ⟨i, hi, rfl⟩ := List.mem_map.1 this
      exact ⟨i, hi, rfl⟩
    have hex : ∃ f : Nat → Info, ∀ p, p < μs.length → f p ∈ i0 :: infos ∧ (f p).pid = p := by
      have : ∀ p, ∃ i, p < μs.length → i ∈ i0 :: infos ∧ i.pid = p := by
        intro p
        by_cases hp0 : p < μs.length
        · obtain ⟨i, h1, h2⟩ := hpid p hp0; exact ⟨i, fun _ => ⟨h1, h2⟩⟩
        · exact ⟨i0, fun h => absurd h hp0⟩
      exact ⟨fun p => (this p).choose, fun p => (this p).choose_spec⟩
    obtain ⟨f, hf⟩ := hex
    have huniq : ∀ i ∈ i0 :: infos, ∃ p, p < μs.length ∧ f p = i := by
      intro i hi
      refine ⟨i.pid, hpl i hi, ?_⟩
      obtain ⟨h1, h2⟩ := hf _ (hpl i hi)
      exact List.inj_on_of_nodup_map v.pids h1 hi h2
    have hspan : ∀ i ∈ i0 :: infos, ((List.range μs.length).map (fun p => ((f p).start, (f p).stop)))[i.pid]? = some (i.start, i.stop) := by
      intro i hi
      obtain ⟨h1, h2⟩ := hf _ (hpl i hi)
      have hfi : f i.pid = i := List.inj_on_of_nodup_map v.pids h1 hi h2
      rw [List.getElem?_map, List.getElem?_range (hpl i hi), Option.map_some, hfi]
    refine ⟨(List.range μs.length).map (fun p => ((f p).start, (f p).stop)), ?_, ?_, ?_, ?_, ?_, (i0 :: infos).map Info.pid, ?_, ?_,
      hst.threads hQ hspan⟩
    · rw [List.forall₂_iff_get]
      refine ⟨by simp, ?_⟩
      intro p h1 h2
      simp only [List.get_eq_getElem, List.getElem_map, List.getElem_range]
      obtain ⟨hm, hpd⟩ := hf p h1
      obtain ⟨c1, c2, c3, c4, hx⟩ := v.each _ hm
      obtain ⟨μ, hx1, hx2⟩ := hR _ _ _ hx
      rw [hpd] at hx1
      have hxx : μs[p] = μ := (List.getElem?_eq_some_iff.1 hx1).2
      rw [hxx]
      exact ⟨c1, by omega, c4, hx2⟩
    · rw [List.pairwise_map]
      refine List.Pairwise.imp_of_mem ?_ (List.nodup_range (n := μs.length))
      intro p q hp' hq hpq
      rw [List.mem_range] at hp' hq
      obtain ⟨h1, h2⟩ := hf p hp'
      obtain ⟨h3, h4⟩ := hf q hq
      have hne' : f p ≠ f q := by
        intro h; rw [← h2, ← h4, h] at hpq; exact hpq rfl
      exact pairwise_disjoint v.sorted _ h1 _ h3 hne'
    · intro sp hsp
      obtain ⟨p, hp', rfl⟩ := List.mem_map.1 hsp
      rw [List.mem_range] at hp'
      obtain ⟨h1, h2⟩ := hf p hp'
      exact ⟨hmin _ h1, hmax _ h1⟩
    · obtain ⟨p, hp', hfp⟩ := huniq i0 (by simp)
      exact ⟨_, List.mem_map.2 ⟨p, List.mem_range.2 hp', rfl⟩, by rw [hfp]⟩
    · obtain ⟨p, hp', hfp⟩ := huniq last hlm
      exact ⟨_, List.mem_map.2 ⟨p, List.mem_range.2 hp', rfl⟩, by rw [hfp]⟩
    · refine (List.subperm_of_subset v.pids ?_).perm_of_length_le (by simp only [List.length_map, List.length_range]; omega)
      intro q hq
      obtain ⟨j, hj, rfl⟩ := List.mem_map.1 hq
      rw [List.mem_range]
      exact hpl j hj
    · rw [List.pairwise_map]
      refine List.Pairwise.imp_of_mem ?_ v.sorted
      intro i j hi hj hij sp sq h1 h2
      rw [hspan i hi] at h1
      rw [hspan j hj] at h2
      cases h1; cases h2
      exact hij

theorem push_fail (l : Matches) : Matches.isOk (Matches.push l matchNone) = false := by
  induction l with
  | nil => rfl
  | cons m l ih =>
    unfold Matches.push
    have : Matches.cmpProbe m matchNone = .lt := by
      unfold Matches.cmpProbe matchNone MatchResult.failed; cases m.info <;> rfl
    rw [if_pos this]
    unfold Matches.isOk at ih ⊢
    rw [List.all_cons, ih]; simp

theorem pushMissing_fail (ms0 : Matches) : ∀ (pids : List Nat) (l : Matches), Matches.isOk l = false → Matches.isOk (pushMissing ms0 pids l) = false
  | [], l, hl => hl
  | p :: ps, l, hl => by
    unfold pushMissing
    split
    · exact pushMissing_fail ms0 ps l hl
    · exact pushMissing_fail ms0 ps _ (push_fail l)

theorem pushMissing_ok (ms0 : Matches) : ∀ (pids : List Nat) (l : Matches), Matches.isOk (pushMissing ms0 pids l) = true →
    ∀ p ∈ pids, ms0.any (fun m => m.patternId == some p) = true
  | [], l, _ => by simp
  | q :: qs, l, hl => by
    intro p hp
    unfold pushMissing at hl
    split at hl
    · rename_i hq
      rcases List.mem_cons.1 hp with rfl | hp
      · exact hq
      · exact pushMissing_ok ms0 qs l hl p hp
    · rw [pushMissing_fail _ _ _ (push_fail l)] at hl; simp at hl

/-- The regular expression number `pid` of the set matches there. -/
def RxAt (ic : Bool) (rxs : List SetRx) (b : Buf) (pid s e : Nat) : Prop := ∃ rx, rxs[pid]? = some rx ∧ RegexSpec.Matches ic b rx.re s e

/-- … and binds what it captures. -/
def RxBinds (ic : Bool) (rxs : List SetRx) (b : Buf) (i : Info) (env env' : Vars) : Prop :=
  ∃ rx h cs, rxs[i.pid]? = some rx ∧ Lang ic b rx.re i.start i.stop h.caps ∧ captured b h rx.caps = some cs ∧ bindAll env cs = some env'

/-- A match of the set, searched again for what it captures. -/
theorem setMatch_find {ic : Bool} {rxs : List SetRx} {b : Buf} (hstr : ∀ r ∈ rxs, ∀ c ∈ r.caps, c.ty = .string)
    {pid s e : Nat} (hx : RxAt ic rxs b pid s e) (hs : List (Nat × Nat × Nat)) (env : Vars) :
    ∃ i vals, setMatch ic rxs b hs (pid, s, e) = .found (.rxs hs) e i vals ∧ i.start = s ∧ i.stop ≤ e ∧ i.pid = pid ∧
      RxAt ic rxs b pid s i.stop ∧ RxBinds ic rxs b i env ((bindAll env vals).getD env) := by
  obtain ⟨rx, h1, c, hc⟩ := hx
  have hmem := List.mem_of_getElem? h1
  unfold setMatch
  dsimp only
  rw [h1]
  dsimp only
  by_cases hall : (rxs.all fun r => r.caps.isEmpty) = true
  · rw [if_pos hall]
    have h0 : rx.caps = [] := by simpa using List.all_eq_true.1 hall rx hmem
    exact ⟨_, _, rfl, rfl, Nat.le_refl _, rfl, ⟨rx, h1, c, hc⟩, rx, ⟨s, e, c⟩, [], h1, hc, by rw [h0]; rfl, rfl⟩
  · rw [if_neg hall]
    cases hf : find ic rx.re b s e true with
    | none => exact absurd ⟨c, hc⟩ (find_none hf s e (Nat.le_refl _) (Nat.le_refl _) fun _ => rfl)
    | some h =>
      dsimp only
      obtain ⟨f1, f2, f3, f4, f5, _⟩ := find_some hf
      have f4 := f4 rfl
      obtain ⟨cs, hcs, _⟩ := Smart.captured_total f5 rx.caps
      rw [hcs]
      dsimp only
      have hty : ∀ c ∈ cs, c.1.ty = .string := fun c hc => hstr rx hmem _ (captured_caps hcs c hc)
      obtain ⟨e0, he0⟩ := bindAll_strings (env := Bindings.empty) hty
      obtain ⟨e1, he1⟩ := bindAll_strings (env := env) hty
      rw [if_pos (by rw [he0]; rfl)]
      rw [f4] at f5
      refine ⟨_, _, rfl, f4, f3, rfl, ⟨rx, h1, _, f5⟩, rx, h, cs, h1, ?_, hcs, by rw [he1]; rfl⟩
      dsimp only
      rw [f4]
      exact f5

/-- The visitor of a set of regular expressions whose matches are not inside one another. -/
theorem visitRx_ok {ic : Bool} {rxs : List SetRx} {b : Buf} {stop lo : Nat} (hstr : ∀ r ∈ rxs, ∀ c ∈ r.caps, c.ty = .string)
    (happ : ∀ p s e p' s' e', RxAt ic rxs b p s e → RxAt ic rxs b p' s' e' → p ≠ p' → s < s' → e' ≤ e → False)
    (hsolid : ∀ p s e, RxAt ic rxs b p s e → s ≤ e → s < e) {H : List (Nat × Nat × Nat)}
    (hall : ∀ p s e, lo ≤ s → s < e → e ≤ stop → RxAt ic rxs b p s e → (p, s, e) ∈ H)
    (hsorted : H.Pairwise (fun x y => x.2.2 ≤ y.2.2)) {env0 : Vars} :
    ∀ (hs done : List (Nat × Nat × Nat)) (start : Nat) (infos : List Info) (env : Vars) {ms : Matches} {pos : Option Nat} {env' : Vars},
      H = done ++ hs →
      (∀ x ∈ hs, lo ≤ x.2.1 ∧ x.2.1 < x.2.2 ∧ x.2.2 ≤ stop ∧ start ≤ x.2.2 ∧ x.1 < rxs.length ∧ RxAt ic rxs b x.1 x.2.1 x.2.2) →
      (∀ y ∈ done, (∃ i ∈ infos, i.pid = y.1) ∨ ∃ i ∈ infos, i.start ≤ y.2.1 ∧ y.2.1 < i.stop) →
      Recorded (RxAt ic rxs b) stop lo start infos → Steps (RxBinds ic rxs b) env0 infos env → infos.length < rxs.length →
      visitRx ic rxs b hs (infos.map .ok) env = .result ms pos env' → Matches.isOk ms = true →
      ∃ infos' e, ms = infos'.map .ok ∧ infos'.length = rxs.length ∧ Recorded (RxAt ic rxs b) stop lo e infos' ∧
        Steps (RxBinds ic rxs b) env0 infos' env' ∧ pos = some e ∧ ∃ i, infos'.getLast? = some i ∧ i.stop = e
  | [], done, start, infos, env, ms, pos, env', _, _, _, v, _, hlen, h, hok => by
    exfalso
    simp only [visitRx, DagOut.result.injEq] at h
    obtain ⟨h1, _, _⟩ := h
    rw [List.length_map, if_neg (by omega)] at h1
    rw [← h1] at hok
    have hall := pushMissing_ok _ _ _ hok
    have hsub : List.range rxs.length ⊆ infos.map Info.pid := by
      intro p hp
      have := hall p hp
      rw [List.any_eq_true] at this
      obtain ⟨m, hm, hm2⟩ := this
      obtain ⟨i, hi, rfl⟩ := List.mem_map.1 hm
      simp [MatchResult.patternId, MatchResult.ok] at hm2
      exact List.mem_map.2 ⟨i, hi, hm2⟩
    have := (List.subperm_of_subset (List.nodup_range (n := rxs.length)) hsub).length_le
    simp at this
    omega
  | x :: hs, done, start, infos, env, ms, pos, env', hH, hx, hd, v, hst, hlen, h, hok => by
    obtain ⟨pid, s, e⟩ := x
    obtain ⟨x1, x2, x3, x4, x5, x6⟩ := hx (pid, s, e) List.mem_cons_self
    dsimp only at x1 x2 x3 x4 x5 x6
    have hH' : H = (done ++ [(pid, s, e)]) ++ hs := by rw [hH]; simp
    have hso := hsorted
    rw [hH, List.pairwise_append] at hso
    have hord := (List.pairwise_cons.1 hso.2.1).1
    have hrest : ∀ y ∈ hs, lo ≤ y.2.1 ∧ y.2.1 < y.2.2 ∧ y.2.2 ≤ stop ∧ start ≤ y.2.2 ∧ y.1 < rxs.length ∧ RxAt ic rxs b y.1 y.2.1 y.2.2 :=
      fun y hy => hx y (by simp [hy])
    obtain ⟨i, vals, m2, m3, m4, m5, m6, m7⟩ := setMatch_find hstr x6 hs env
    obtain ⟨istart, istop, ipid, iline⟩ := i
    dsimp only at m3 m4 m5 m6
    have m3 := m3.symm
    have m5 := m5.symm
    subst m3 m5
    have hlt : s < istop := hsolid _ _ _ m6 (by
      obtain ⟨rx', h3, c, h4⟩ := m6
      have := Lang.le _ _ _ _ h4
      omega)
    -- a shorter match with this start was there before
    have hshort : istop < e → (∃ i ∈ infos, i.pid = pid) ∨ ∃ i ∈ infos, i.start ≤ s ∧ s < i.stop := by
      intro hlt'
      have hm := hall _ _ _ x1 hlt (by omega) m6
      rw [hH, List.mem_append] at hm
      rcases hm with hm | hm
      · exact hd _ hm
      · exfalso
        rcases List.mem_cons.1 hm with hm | hm
        · simp only [Prod.mk.injEq] at hm; omega
        · have := hord _ hm
          dsimp only at this
          omega
    unfold visitRx at h
    rw [m2] at h
    dsimp only at h
    by_cases hpid : ((infos.map MatchResult.ok).any fun m => m.patternId == some pid) = true
    · rw [if_pos hpid] at h
      refine visitRx_ok hstr happ hsolid hall hsorted hs _ start infos env hH' hrest ?_ v hst hlen h hok
      intro y hy
      rcases List.mem_append.1 hy with hy | hy
      · exact hd y hy
      · simp only [List.mem_singleton] at hy
        subst hy
        left
        rw [List.any_eq_true] at hpid
        obtain ⟨m, hm, hm2⟩ := hpid
        obtain ⟨i, hi, rfl⟩ := List.mem_map.1 hm
        simp [MatchResult.patternId, MatchResult.ok] at hm2
        exact ⟨i, hi, hm2⟩
    · rw [if_neg hpid] at h
      have hnew : ∀ i ∈ infos, i.pid ≠ pid := by
        intro i hi hip
        apply hpid
        rw [List.any_eq_true]
        exact ⟨.ok i, List.mem_map.2 ⟨i, hi, rfl⟩, by simp [MatchResult.patternId, MatchResult.ok, hip]⟩
      split at h
      · rename_i hov
        refine visitRx_ok hstr happ hsolid hall hsorted hs _ start infos env hH' hrest ?_ v hst hlen h hok
        intro y hy
        rcases List.mem_append.1 hy with hy | hy
        · exact hd y hy
        · simp only [List.mem_singleton] at hy
          subst hy
          dsimp only
          rw [List.any_eq_true] at hov
          obtain ⟨m, hm, hm2⟩ := hov
          obtain ⟨i, hi, rfl⟩ := List.mem_map.1 hm
          simp only [MatchResult.ok, Bool.or_eq_true, Rng.contains, Bool.and_eq_true, decide_eq_true_eq] at hm2
          rcases hm2 with ⟨hm2, hm3⟩ | ⟨hm2, hm3⟩
          · exact .inr ⟨i, hi, hm2, hm3⟩
          · rcases Nat.lt_or_ge istop e with hlt' | hge
            · exact hshort hlt'
            · have := (v.each i hi).2.2.1
              have hm3 : istop < i.stop := hm3
              omega
      · rename_i hov
        have hcont : ∀ i ∈ infos, ¬ (i.start ≤ s ∧ s < i.stop) := by
          intro i hi hc
          apply hov
          rw [List.any_eq_true]
          refine ⟨.ok i, List.mem_map.2 ⟨i, hi, rfl⟩, ?_⟩
          simp only [MatchResult.ok, Bool.or_eq_true, Rng.contains, Bool.and_eq_true, decide_eq_true_eq]
          exact .inl hc
        have hee : istop = e := by
          rcases Nat.lt_or_ge istop e with hlt' | hge
          · rcases hshort hlt' with ⟨i, hi, h3⟩ | ⟨i, hi, h3⟩
            · exact absurd h3 (hnew i hi)
            · exact absurd h3 (hcont i hi)
          · omega
        subst hee
        have hafter : ∀ i ∈ infos, i.stop ≤ s := by
          intro i hi
          obtain ⟨a1, a2, a3, a4, a5⟩ := v.each i hi
          by_contra hlt'
          by_cases hss : s < i.start
          · exact happ _ _ _ _ _ _ x6 a5 (hnew i hi).symm hss (by omega)
          · exact hcont i hi ⟨by omega, by omega⟩
        have hpush := litDag_mem_push (ms := infos.map .ok) (i := ⟨s, istop, pid, iline⟩) (by
          intro m hm
          obtain ⟨i, hi, rfl⟩ := List.mem_map.1 hm
          obtain ⟨a1, a2, a3, _⟩ := v.each i hi
          exact ⟨i, rfl, hafter i hi, a2⟩) x2
        rw [hpush] at h
        have hv : Recorded (RxAt ic rxs b) stop lo istop (infos ++ [⟨s, istop, pid, iline⟩]) := by
          refine ⟨by have := v.le; omega, ?_, ?_, ?_⟩
          · intro i hi
            rcases List.mem_append.1 hi with hi | hi
            · obtain ⟨a1, a2, a3, a4, a5⟩ := v.each i hi
              exact ⟨a1, a2, by omega, a4, a5⟩
            · simp only [List.mem_singleton] at hi
              subst hi
              exact ⟨x1, x2, Nat.le_refl _, x3, x6⟩
          · rw [List.pairwise_append]
            refine ⟨v.sorted, by simp, ?_⟩
            intro i hi j hj
            simp only [List.mem_singleton] at hj
            subst hj
            exact hafter i hi
          · rw [List.map_append, List.nodup_append]
            refine ⟨v.pids, by simp, ?_⟩
            intro p hp q hq hpq
            simp only [List.map_cons, List.map_nil, List.mem_singleton] at hq
            subst hpq hq
            obtain ⟨i, hi, hip⟩ := List.mem_map.1 hp
            exact hnew i hi hip
        have hst' : Steps (RxBinds ic rxs b) env0 (infos ++ [⟨s, istop, pid, iline⟩]) ((bindAll env vals).getD env) := hst.snoc m7
        have hmap : infos.map MatchResult.ok ++ [.ok ⟨s, istop, pid, iline⟩] =
            (infos ++ [(⟨s, istop, pid, iline⟩ : Info)]).map .ok := by simp
        rw [hmap] at h
        generalize hI : infos ++ [(⟨s, istop, pid, iline⟩ : Info)] = infos1 at *
        have hl1 : infos1.length = infos.length + 1 := by rw [← hI]; simp
        split at h
        · rename_i hlast
          simp only [DagOut.result.injEq] at h
          obtain ⟨rfl, rfl, rfl⟩ := h
          rw [List.length_map] at hlast
          refine ⟨infos1, istop, rfl, hlast.symm, hv, hst', rfl, ⟨s, istop, pid, iline⟩, ?_, rfl⟩
          rw [← hI]; simp
        · rename_i hlast
          rw [List.length_map] at hlast
          refine visitRx_ok hstr happ hsolid hall hsorted hs _ istop infos1 _ hH' ?_ ?_ hv hst' (by omega) h hok
          · intro y hy
            obtain ⟨y1, y2, y3, _, y5, y6⟩ := hrest y hy
            exact ⟨y1, y2, y3, hord y hy, y5, y6⟩
          · intro y hy
            rw [← hI]
            rcases List.mem_append.1 hy with hy | hy
            · rcases hd y hy with ⟨i, hi, h3⟩ | ⟨i, hi, h3⟩
              · exact .inl ⟨i, List.mem_append_left _ hi, h3⟩
              · exact .inr ⟨i, List.mem_append_left _ hi, h3⟩
            · simp only [List.mem_singleton] at hy
              subst hy
              exact .inl ⟨⟨s, istop, pid, iline⟩, by simp, rfl⟩

/-- The matches are in the order of their ends. -/
theorem setHits_sorted {ic : Bool} {rxs : List SetRx} {b : Buf} {lo hi : Nat} :
    (setHits ic rxs b lo hi).Pairwise (fun x y => x.2.2 ≤ y.2.2) := by
  unfold setHits
  rw [List.pairwise_flatMap]
  refine ⟨?_, ?_⟩
  · intro e _
    refine List.Pairwise.imp_of_mem (R := fun _ _ => True) ?_ (List.pairwise_of_forall fun _ _ => trivial)
    intro x y hx hy _
    simp only [List.mem_flatMap, List.mem_map] at hx hy
    obtain ⟨_, _, _, _, rfl⟩ := hx
    obtain ⟨_, _, _, _, rfl⟩ := hy
    exact Nat.le_refl _
  · refine List.Pairwise.imp ?_ (List.pairwise_lt_range' (s := lo) (n := hi + 1 - lo))
    intro e e' hlt x hx y hy
    simp only [List.mem_flatMap, List.mem_map] at hx hy
    obtain ⟨_, _, _, _, rfl⟩ := hx
    obtain ⟨_, _, _, _, rfl⟩ := hy
    dsimp only
    omega

/-! ## Groups -/

/-- The text of the matcher of a pattern which uses no variable: the literal, or the source of the regular expression. -/
def srcText (p : CPat) : Option Str :=
  match compact p with
  | .lit s => some s
  | .rx r => some r.src
  | _ => none

/-- No match of one pattern has a match of the other one inside, unless at its start. -/
def Apart (o : Opts) (p q : CPat) : Prop :=
  ∀ cx cx' : PatternSpec.Ctx, cx.ic = o.ignoreCase → cx.strict = o.strictWs → cx'.ic = o.ignoreCase → cx'.strict = o.strictWs →
    ∀ b env i j env' env1 i' j' env1', meaning cx p env b i j env' → meaning cx' q env1 b i' j' env1' →
      ¬ (i < i' ∧ j' ≤ j) ∧ ¬ (i' < i ∧ j ≤ j')

/-- A group of `CHECK-DAG` patterns, with regular expressions: they use no variables (but may capture
strings), are different, and no match of one has a match of another one inside. -/
structure RxGroup (o : Opts) (ps : List CPat) : Prop where
  static : StaticGroup o ps
  texts : (ps.map srcText).Nodup
  apart : ps.Pairwise (Apart o)

theorem View.text {o : Opts} {p : CPat} {pre : Prefix} (h : View o p pre) : pre.text = srcText p := by
  cases h with
  | lit h1 => simp [Prefix.text, srcText, h1]
  | rx h1 => simp [Prefix.text, srcText, h1]

theorem View.same {o : Opts} {p q : CPat} {pre pre' : Prefix} (h : View o p pre) (h' : View o q pre') (hs : pre.same pre' = true) :
    srcText p = srcText q := by
  rw [← h.text, ← h'.text]
  cases h <;> cases h' <;> simp [Prefix.same, Prefix.text] at hs ⊢ <;> exact hs.1.1

/-- Different patterns all have their own place in the set. -/
theorem collect_distinct {o : Opts} : ∀ (ls : List (CPat × Nat)) (id : Nat) (un : List (Prefix × Nat × Nat)) (sfx : List (List Sfx))
    (old : List CPat) {u : List (Prefix × Nat × Nat)} {sfx' : List (List Sfx)},
    (∀ y ∈ ls, ∃ pre, View o y.1 pre ∧ popPrefix (compact y.1) = (pre, [])) → (∀ x ∈ un, ∃ p ∈ old, View o p x.1) →
    ((old ++ ls.map Prod.fst).map srcText).Nodup → Single sfx → collect o ls id un sfx = .ok (some (u, sfx')) →
    Single sfx' ∧ u.map (fun x => (x.1, x.2.2)) = un.map (fun x => (x.1, x.2.2)) ++ ls.map fun y => ((popPrefix (compact y.1)).1, y.2)
  | [], id, un, sfx, old, u, sfx', _, _, _, hs, h => by
    simp only [collect, Except.ok.injEq, Option.some.injEq, Prod.mk.injEq] at h
    obtain ⟨rfl, rfl⟩ := h
    exact ⟨hs, by simp⟩
  | (p, ln) :: ls, id, un, sfx, old, u, sfx', hv, hun, hn, hs, h => by
    unfold collect at h
    obtain ⟨pre, hpv, hpp⟩ := hv (p, ln) (by simp)
    dsimp only at hpv hpp h
    rw [hpp] at h
    dsimp only at h
    have hnot : un.find? (fun x => x.1.same pre) = none := by
      rw [List.find?_eq_none]
      intro x hx hxe
      obtain ⟨q, hq, hqv⟩ := hun x hx
      have := hqv.same hpv hxe
      rw [List.map_append, List.nodup_append] at hn
      exact hn.2.2 _ (List.mem_map_of_mem hq) _ (by simp) this
    rw [hnot] at h
    dsimp only at h
    rw [if_neg (by cases hpv <;> simp)] at h
    simp only [compileSuffix, bind, Except.bind] at h
    have hs1 : Single (sfx ++ [[((Compiled.always : Compiled engine), ln)]]) := by
      unfold Single at hs ⊢
      rw [List.all_append, hs]
      rfl
    obtain ⟨a1, a2⟩ := collect_distinct ls _ _ _ (old ++ [p]) (fun y hy => hv y (by simp [hy])) (by
      intro x hx
      rcases List.mem_append.1 hx with hx | hx
      · obtain ⟨q, hq, h1⟩ := hun x hx
        exact ⟨q, by simp [hq], h1⟩
      · simp only [List.mem_singleton] at hx
        subst hx
        exact ⟨p, by simp, hpv⟩) (by simpa using hn) hs1 h
    refine ⟨a1, ?_⟩
    rw [a2]
    simp [hpp]

theorem RxGroup.mono {o : Opts} {ps qs : List CPat} (h : RxGroup o ps) (hs : qs.Sublist ps) : RxGroup o qs :=
  ⟨⟨fun q hq => h.static.static q (hs.subset hq), fun q hq => h.static.solid q (hs.subset hq),
    fun p hp q hq => h.static.distinct p (hs.subset hp) q (hs.subset hq)⟩,
    h.texts.sublist (hs.map _), h.apart.sublist hs⟩

theorem forall₂_getElem? {α β : Type} {R : α → β → Prop} : ∀ {l : List α} {l' : List β}, List.Forall₂ R l l' → ∀ {n : Nat} {y : β}, l'[n]? = some y →
    ∃ x, l[n]? = some x ∧ R x y
  | _, _, .nil, n, y, h => by simp at h
  | _, _, .cons h1 h2, 0, y, h => by
    simp only [List.getElem?_cons_zero, Option.some.injEq] at h
    subst h
    exact ⟨_, by simp, h1⟩
  | _, _, .cons h1 h2, n + 1, y, h => by
    simp only [List.getElem?_cons_succ] at h ⊢
    exact forall₂_getElem? h2 h

/-- A group of `CHECK-DAG` lines with regular expressions. -/
theorem rxDags_threaded {o : Opts} {ls : List (CPat × Nat)} {set : MatchSet} (hg : RxGroup o (ls.map Prod.fst)) (hne : ls ≠ [])
    (h : compileSet o ls = .ok (some set)) {cx : Nat → PatternSpec.Ctx} (hcx : CtxOf o cx) (ic : Bool) (cfs : Nat → Conf engine) (vs : Bool)
    (hic : ic = o.ignoreCase) :
    (setDag ic cfs vs set).Sound (ls.map fun y => meaning (cx y.2) y.1) := by
  have hv : ∀ y ∈ ls, ∃ pre, View o y.1 pre ∧ popPrefix (compact y.1) = (pre, []) := fun y hy => hg.static.view (List.mem_map_of_mem hy)
  unfold compileSet at h
  obtain ⟨c, h1, h2⟩ := bind_ok.1 h
  cases c with
  | none => simp at h2
  | some x =>
    obtain ⟨u, sfx⟩ := x
    dsimp only at h2
    obtain ⟨a1, a2⟩ := collect_distinct ls 0 [] [] [] hv (by simp) (by simpa using hg.texts) rfl h1
    rw [List.map_nil, List.nil_append] at a2
    have hlenu : u.length = ls.length := by simpa using congrArg List.length a2
    have hat : ∀ (n : Nat) x, u[n]? = some x → ∃ y, ls[n]? = some y ∧ y ∈ ls ∧ View o y.1 x.1 ∧ x.2.2 = y.2 := by
      intro n x hx
      have := congrArg (fun l => l[n]?) a2
      simp only [List.getElem?_map, hx, Option.map_some] at this
      obtain ⟨y, hy, hye⟩ := Option.map_eq_some_iff.1 this.symm
      have hm := List.mem_of_getElem? hy
      obtain ⟨pre, h5, h6⟩ := hv y hm
      rw [h6, Prod.mk.injEq] at hye
      exact ⟨y, hy, hm, hye.1 ▸ h5, hye.2.symm⟩
    have hsh : ∀ x ∈ u, (∃ s, x.1 = .lit s) ∨ ∃ r, x.1 = .rx r := by
      intro x hx
      obtain ⟨n, hn⟩ := List.mem_iff_getElem?.1 hx
      obtain ⟨y, _, _, h3, _⟩ := hat n x hn
      generalize x.1 = pre at h3
      cases h3 with
      | lit => exact .inl ⟨_, rfl⟩
      | rx => exact .inr ⟨_, rfl⟩
    unfold classify at h2
    have a1' : (sfx.all fun ss => ss.all fun s => isAlways s.1) = true := a1
    dsimp only at h2
    rw [a1'] at h2
    simp only [if_true] at h2
    split at h2
    · rename_i hl
      simp only [Except.ok.injEq, Option.some.injEq] at h2
      subst h2
      have hlit : ∀ (n : Nat) x, u[n]? = some x → ∃ s y, x.1 = .lit s ∧ ls[n]? = some y ∧ y ∈ ls ∧ litBytes o s = utf8 s ∧
          ∀ env b i j, Occurs o.ignoreCase (utf8 s) b i j → meaning (cx y.2) y.1 env b i j env := by
        intro n x hx
        obtain ⟨y, h3, h4, h5, _⟩ := hat n x hx
        have h6 := List.all_eq_true.1 hl x (List.mem_of_getElem? hx)
        obtain ⟨pre, n1, n2⟩ := x
        dsimp only at h5 h6
        cases h5 with
        | lit c1 c2 c3 c4 => exact ⟨_, y, rfl, h3, h4, c2, fun env b i j ho => c4 _ (hcx _).1 (hcx _).2 env b i j ho⟩
        | rx => simp [Prefix.isLit] at h6
      have hs := litDag_sound (E := Vars) ic (lits := setLits o u) ?_ ?_
      · intro b r env ms pos env' hrun hok
        simp only [setDag, dagOut] at hrun
        cases hx : (litDag (setLits o u)).run b r env with
        | none => rw [hx] at hrun; simp at hrun
        | some x =>
          obtain ⟨y1, y2, y3⟩ := x
          rw [hx] at hrun
          simp only [Option.some.injEq, Prod.mk.injEq] at hrun
          obtain ⟨rfl, rfl, rfl⟩ := hrun
          obtain ⟨s, e, c1, c2, c3, c4, c5, c6⟩ := hs b r env _ _ _ hx hok
          rw [litDag_env hx]
          refine ⟨s, e, c1, c2, c3, c4, c5, (DagMatch.mono ?_ c6.match_).threaded ?_ env⟩
          swap
          · intro m hm env0 i j env1 hm1 env2
            obtain ⟨y, hy, rfl⟩ := List.mem_map.1 hm
            obtain ⟨n, hn⟩ := List.mem_iff_getElem?.1 hy
            have hnu : n < u.length := by rw [hlenu]; exact (List.getElem?_eq_some_iff.1 hn).1
            obtain ⟨y', h3, h4, h5, _⟩ := hat n u[n] (by simp [hnu])
            rw [hn] at h3
            cases h3
            have h6 := List.all_eq_true.1 hl u[n] (List.getElem_mem hnu)
            generalize u[n] = z at h5 h6
            obtain ⟨pre, n1, n2⟩ := z
            dsimp only at h5 h6
            cases h5 with
            | lit c1 c2 c3 c4 => exact c4 _ (hcx _).1 (hcx _).2 _ _ _ _ (c3 _ (hcx _).1 (hcx _).2 _ _ _ _ _ hm1)
            | rx => simp [Prefix.isLit] at h6
          rw [List.forall₂_iff_get]
          refine ⟨by simp [setLits, hlenu], ?_⟩
          intro n g1 g2 env i j env' hm
          have hnu : n < u.length := by simpa [setLits] using g1
          obtain ⟨s, y, d1, d2, d3, d4, d5⟩ := hlit n u[n] (by simp [hnu])
          simp only [List.get_eq_getElem, List.getElem_map, setLits] at hm ⊢
          obtain ⟨_, ho⟩ := hm
          rw [d1] at ho
          simp only [Prefix.text, Option.getD_some] at ho
          rw [d4, hic] at ho
          have hyn : ls[n]'(by omega) = y := (List.getElem?_eq_some_iff.1 d2).2
          rw [hyn]
          exact ⟨env, env, d5 _ _ _ _ ho⟩
      · intro x hx
        unfold setLits at hx
        obtain ⟨z, hz, rfl⟩ := List.mem_map.1 hx
        obtain ⟨n, hn⟩ := List.mem_iff_getElem?.1 hz
        obtain ⟨s, y, d1, d2, d3, d4, d5⟩ := hlit n z hn
        dsimp only
        rw [d1]
        simp only [Prefix.text, Option.getD_some]
        rw [d4]
        intro h0
        refine hg.static.solid y.1 (List.mem_map_of_mem d3) (cx y.2) (hcx _).1 (hcx _).2 Bindings.empty [] 0 Bindings.empty (d5 _ _ _ _ ?_)
        rw [h0]
        exact ⟨rfl, by intro i x hx; simp at hx⟩
      · intro h0
        apply hne
        unfold setLits at h0
        rw [List.map_eq_nil_iff] at h0
        rw [h0] at hlenu
        exact List.length_eq_zero_iff.1 hlenu.symm
    · split at h2
      · simp at h2
      · split at h2
        · split at h2
          · simp at h2
          · rename_i rxs hm
            simp only [Except.ok.injEq, Option.some.injEq] at h2
            subst h2
            have hf := mapM_forall₂ hm
            have hlen : rxs.length = ls.length := by rw [← hf.length_eq, hlenu]
            have hrx : ∀ (n : Nat) rx, rxs[n]? = some rx → (∀ c ∈ rx.caps, c.ty = .string) ∧ ∃ y, ls[n]? = some y ∧ y ∈ ls ∧
                ∀ b i j c env env' (h : Hit), Lang o.ignoreCase b rx.re i j c → h.caps = c → ∀ cs, captured b h rx.caps = some cs →
                  bindAll env cs = some env' → meaning (cx y.2) y.1 env b i j env' := by
              intro n rx hx
              obtain ⟨x, hx1, hx2⟩ := forall₂_getElem? hf hx
              obtain ⟨y, h3, h4, h5, _⟩ := hat n x hx1
              obtain ⟨pre, n1, n2⟩ := x
              dsimp only at h5
              cases h5 with
              | lit c1 c2 c3 c4 =>
                obtain ⟨e1, e2, e3⟩ := buildSetRx_lit hx2
                refine ⟨by rw [e2]; simp, y, h3, h4, ?_⟩
                intro b i j c env env' h hc _ cs hcs hbd
                rw [e2] at hcs
                simp only [captured, Option.some.injEq] at hcs
                subst hcs
                simp only [bindAll, Option.some.injEq] at hbd
                subst hbd
                exact c4 _ (hcx _).1 (hcx _).2 _ _ _ _ ((escape_lang e1).1 hc).1
              | @rx r c1 c2 c3 c4 =>
                obtain ⟨e1, e2, e3⟩ := buildSetRx_rx hx2
                refine ⟨by rw [e2]; exact c2, y, h3, h4, ?_⟩
                intro b i j c env env' h hc hhc cs hcs hbd
                rw [e2] at hcs
                refine c4 _ (hcx _).1 (hcx _).2 _ e1 b i j c env env' h ?_ hhc cs hcs hbd
                rw [(hcx _).1]
                exact hc
            have hany : ∀ (n : Nat) rx, rxs[n]? = some rx → ∃ y, ls[n]? = some y ∧ y ∈ ls ∧ ∀ b i j, RegexSpec.Matches o.ignoreCase b rx.re i j →
                ∃ env env', meaning (cx y.2) y.1 env b i j env' := by
              intro n rx hx
              obtain ⟨hty, y, h3, h4, h5⟩ := hrx n rx hx
              refine ⟨y, h3, h4, ?_⟩
              rintro b i j ⟨c, hc⟩
              obtain ⟨cs, hcs, hmem⟩ := Smart.captured_total (h := (⟨i, j, c⟩ : Hit)) hc rx.caps
              obtain ⟨e1, he1⟩ := bindAll_strings (env := Bindings.empty) fun z hz => hty _ (hmem z hz)
              exact ⟨_, _, h5 b i j c _ _ ⟨i, j, c⟩ hc rfl cs hcs he1⟩
            intro b r env ms pos env' hrun hok
            simp only [setDag, dagOut] at hrun
            cases hvis : visitRx ic rxs b (setHits ic rxs b r.start r.stop) [] env with
            | err => rw [hvis] at hrun; simp at hrun
            | panic p => rw [hvis] at hrun; simp at hrun
            | hang => rw [hvis] at hrun; simp at hrun
            | result ms1 pos1 env1 =>
              rw [hvis] at hrun
              simp only [Option.some.injEq, Prod.mk.injEq] at hrun
              obtain ⟨rfl, rfl, rfl⟩ := hrun
              have hpos : 0 < ls.length := List.length_pos_iff.2 hne
              have happ : ∀ p s e p' s' e', RxAt ic rxs b p s e → RxAt ic rxs b p' s' e' → p ≠ p' → s < s' → e' ≤ e → False := by
                rintro p s e p' s' e' ⟨rx, h3, h4⟩ ⟨rx', h5, h6⟩ hpp hss hee
                rw [hic] at h4 h6
                obtain ⟨y, h7, h8, h9⟩ := hany _ _ h3
                obtain ⟨y', h7', h8', h9'⟩ := hany _ _ h5
                obtain ⟨_, _, m1⟩ := h9 _ _ _ h4
                obtain ⟨_, _, m2⟩ := h9' _ _ _ h6
                have hp1 : p < ls.length := (List.getElem?_eq_some_iff.1 h7).1
                have hp2 : p' < ls.length := (List.getElem?_eq_some_iff.1 h7').1
                have hap := hg.apart
                rw [List.pairwise_map, List.pairwise_iff_getElem] at hap
                rcases Nat.lt_or_gt_of_ne hpp with hlt | hlt
                · have := hap p p' hp1 hp2 hlt
                  rw [(List.getElem?_eq_some_iff.1 h7).2, (List.getElem?_eq_some_iff.1 h7').2] at this
                  exact (this _ _ (hcx _).1 (hcx _).2 (hcx _).1 (hcx _).2 _ _ _ _ _ _ _ _ _ m1 m2).1 ⟨hss, hee⟩
                · have := hap p' p hp2 hp1 hlt
                  rw [(List.getElem?_eq_some_iff.1 h7).2, (List.getElem?_eq_some_iff.1 h7').2] at this
                  exact (this _ _ (hcx _).1 (hcx _).2 (hcx _).1 (hcx _).2 _ _ _ _ _ _ _ _ _ m2 m1).2 ⟨hss, hee⟩
              have hsolid : ∀ p s e, RxAt ic rxs b p s e → s ≤ e → s < e := by
                rintro p s e ⟨rx, k4, k6⟩ hse
                rcases Nat.lt_or_ge s e with hlt | hge
                · exact hlt
                · have : s = e := by omega
                  subst this
                  rw [hic] at k6
                  obtain ⟨y, h7, h8, h9⟩ := hany _ _ k4
                  obtain ⟨_, _, m1⟩ := h9 _ _ _ k6
                  exact absurd m1 (hg.static.solid y.1 (List.mem_map_of_mem h8) (cx y.2) (hcx _).1 (hcx _).2 _ _ _ _)
              have hhits : ∀ x ∈ setHits ic rxs b r.start r.stop, r.start ≤ x.2.1 ∧ x.2.1 < x.2.2 ∧ x.2.2 ≤ r.stop ∧ r.start ≤ x.2.2 ∧
                  x.1 < rxs.length ∧ RxAt ic rxs b x.1 x.2.1 x.2.2 := by
                rintro ⟨pid, s, e⟩ hx
                obtain ⟨k1, k2, k3, rx, k4, k5⟩ := mem_setHits.1 hx
                have k6 : RxAt ic rxs b pid s e := ⟨rx, k4, hits_matches (by omega) k5⟩
                have hlt := hsolid _ _ _ k6 k2
                have k7 := (List.getElem?_eq_some_iff.1 k4).1
                exact ⟨k1, hlt, k3, by dsimp only; omega, k7, k6⟩
              have hback : ∀ p s e, r.start ≤ s → s < e → e ≤ r.stop → RxAt ic rxs b p s e → (p, s, e) ∈ setHits ic rxs b r.start r.stop := by
                rintro p s e k1 k2 k3 ⟨rx, k4, k5⟩
                exact mem_setHits.2 ⟨k1, by omega, k3, rx, k4, matches_hits k2 k3 k5⟩
              obtain ⟨infos, e, rfl, hl1, v, hst, rfl, last, hlast, rfl⟩ := visitRx_ok (ic := ic) (rxs := rxs) (b := b) (stop := r.stop)
                (lo := r.start) (fun r hr => by obtain ⟨n, hn⟩ := List.mem_iff_getElem?.1 hr; exact (hrx n r hn).1) happ hsolid hback setHits_sorted
                (setHits ic rxs b r.start r.stop) [] r.start [] env rfl hhits (by simp) ⟨Nat.le_refl _, by simp, by simp, by simp⟩ .nil
                (by simp only [List.length_nil]; omega) hvis hok
              obtain ⟨s, d1, d2, d3, d4, d5⟩ := Recorded.dag (μs := ls.map fun y => meaning (cx y.2) y.1) (b := b) (by
                  rintro pid s e ⟨rx, k1, k2⟩
                  rw [hic] at k2
                  obtain ⟨y, h7, h8, h9⟩ := hany _ _ k1
                  exact ⟨meaning (cx y.2) y.1, by rw [List.getElem?_map, h7]; rfl, h9 _ _ _ k2⟩)
                (by
                  rintro i e0 e1 ⟨rx, h, cs, k1, k2, k3, k4⟩
                  rw [hic] at k2
                  obtain ⟨_, y, h7, h8, h9⟩ := hrx _ _ k1
                  exact ⟨meaning (cx y.2) y.1, by rw [List.getElem?_map, h7]; rfl, h9 _ _ _ _ _ _ h k2 rfl cs k3 k4⟩)
                hst v (by simp [hl1, hlen]) hlast
              exact ⟨s, last.stop, d1, rfl, d2, d3, d4, d5⟩
        · rename_i hn
          exfalso
          apply hn
          rw [List.all_eq_true]
          intro x hx
          rcases hsh x hx with ⟨_, h⟩ | ⟨_, h⟩ <;> rw [h] <;> rfl

/-- A group of `CHECK-DAG` patterns for which the order and the places of the matches are as documented. -/
def DagGroup (o : Opts) (ps : List CPat) : Prop := LitGroup ps ∨ RxGroup o ps

/-- The patterns of literals mention no variables. -/
theorem dagGroup_sound {o : Opts} {ls : List (CPat × Nat)} {set : MatchSet} (hg : DagGroup o (ls.map Prod.fst)) (hne : ls ≠ [])
    (h : compileSet o ls = .ok (some set)) {cx : Nat → PatternSpec.Ctx} (hcx : CtxOf o cx) (ic : Bool) (cfs : Nat → Conf engine) (vs : Bool)
    (hic : ic = o.ignoreCase) :
    (setDag ic cfs vs set).Sound (ls.map fun y => meaning (cx y.2) y.1) := by
  rcases hg with hg | hg
  · exact dags_sound hg hne h hcx ic cfs vs hic
  · exact rxDags_threaded hg hne h hcx ic cfs vs hic

end Litcheck.Sets
