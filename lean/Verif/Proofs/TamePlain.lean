import Verif.Proofs.TameVerify
import Verif.Proofs.SetsTotal
import Verif.Proofs.FileSound

/-!
# Matchers which do not disturb the checker
-/

namespace Litcheck
open Spec
variable {E : Type}

theorem Pat.Sound.tame {p : Pat E} {μ : Meaning E} (h : p.Sound μ) : p.Tame where
  found := by
    intro b r env m env' h1 h2 h3 h4
    obtain ⟨i, k1, k2, k3, k4, _⟩ := h.found b r env m env' h1 h2 h3 h4
    exact ⟨i, k1, k2, k3, k4⟩
  related := h.related

/-- Matches in a range, in the order of their starts. -/
structure Tidy (lo hi : Nat) (infos : List Info) : Prop where
  each : ∀ i ∈ infos, lo ≤ i.start ∧ i.start ≤ i.stop ∧ i.stop ≤ hi
  sorted : infos.Pairwise (fun x y => x.start ≤ y.start)

theorem cmpInfo_lt {x y : Info} (h : Matches.cmpInfo x y = .lt) : x.start ≤ y.start := by
  unfold Matches.cmpInfo at h
  rcases Nat.lt_trichotomy x.start y.start with h1 | h1 | h1
  · omega
  · omega
  · rw [Nat.compare_eq_gt.2 h1] at h
    simp at h

theorem cmpInfo_not_lt {x y : Info} (h : Matches.cmpInfo x y ≠ .lt) : y.start ≤ x.start := by
  unfold Matches.cmpInfo at h
  rcases Nat.lt_trichotomy x.start y.start with h1 | h1 | h1
  · rw [Nat.compare_eq_lt.2 h1] at h
    simp at h
  · omega
  · omega

theorem push_ok_tidy {lo hi : Nat} {i : Info} (hi' : lo ≤ i.start ∧ i.start ≤ i.stop ∧ i.stop ≤ hi) : ∀ {infos : List Info}, Tidy lo hi infos →
    ∃ infos', Matches.push (infos.map .ok) (.ok i) = infos'.map .ok ∧ Tidy lo hi infos' ∧ ∀ x ∈ infos', x = i ∨ x ∈ infos
  | [], _ => ⟨[i], rfl, ⟨by simpa using hi', by simp⟩, by simp⟩
  | p :: ps, h => by
    have hps : Tidy lo hi ps := ⟨fun x hx => h.each x (by simp [hx]), (List.pairwise_cons.1 h.sorted).2⟩
    have hp := (List.pairwise_cons.1 h.sorted).1
    rw [List.map_cons, Matches.push]
    have hc : Matches.cmpProbe (.ok p) (.ok i) = Matches.cmpInfo p i := rfl
    rw [hc]
    split
    · rename_i hlt
      obtain ⟨infos', h1, h2, h3⟩ := push_ok_tidy hi' hps
      refine ⟨p :: infos', by rw [h1]; rfl, ⟨?_, ?_⟩, ?_⟩
      · intro x hx
        rcases List.mem_cons.1 hx with rfl | hx
        · exact h.each x (by simp)
        · exact h2.each x hx
      · refine List.pairwise_cons.2 ⟨?_, h2.sorted⟩
        intro x hx
        rcases h3 x hx with rfl | hx
        · exact cmpInfo_lt hlt
        · exact hp x hx
      · intro x hx
        rcases List.mem_cons.1 hx with rfl | hx
        · exact .inr (by simp)
        · rcases h3 x hx with rfl | hx
          · exact .inl rfl
          · exact .inr (by simp [hx])
    · rename_i hlt
      refine ⟨i :: p :: ps, rfl, ⟨?_, ?_⟩, ?_⟩
      · intro x hx
        rcases List.mem_cons.1 hx with rfl | hx
        · exact hi'
        · exact h.each x hx
      · refine List.pairwise_cons.2 ⟨?_, h.sorted⟩
        intro x hx
        have := cmpInfo_not_lt hlt
        rcases List.mem_cons.1 hx with rfl | hx
        · exact this
        · exact Nat.le_trans this (hp x hx)
      · intro x hx
        rcases List.mem_cons.1 hx with rfl | hx
        · exact .inl rfl
        · exact .inr hx

theorem push_none {r : MatchResult} (hr : r.info = none) : ∀ ms : Matches, Matches.push ms r = ms ++ [r]
  | [] => rfl
  | m :: ms => by
    have : Matches.cmpProbe m r = .lt := by unfold Matches.cmpProbe; rw [hr]
    rw [Matches.push, if_pos this, push_none hr ms]; rfl

theorem pushMissing_infos (ms0 : Matches) : ∀ (pids : List Nat) (ms : Matches),
    (pushMissing ms0 pids ms).filterMap MatchResult.info = ms.filterMap MatchResult.info
  | [], ms => rfl
  | p :: pids, ms => by
    unfold pushMissing
    split
    · exact pushMissing_infos ms0 pids ms
    · rw [pushMissing_infos ms0 pids, push_none rfl, List.filterMap_append]
      simp [matchNone, MatchResult.failed]

theorem infos_ok (infos : List Info) : (infos.map MatchResult.ok).filterMap MatchResult.info = infos := by
  induction infos with
  | nil => rfl
  | cons i infos ih => simp [MatchResult.ok] at ih ⊢; exact ih

theorem visitLoop_tidy {lits : List (Buf × Nat)} {b : Buf} {stop lo : Nat} : ∀ (fuel start : Nat) {infos : List Info} {ms : Matches} {pos : Option Nat},
    Tidy lo stop infos → lo ≤ start → visitLoop lits b stop fuel start (infos.map .ok) = some (ms, pos) →
    Tidy lo stop (ms.filterMap MatchResult.info) ∧ ∀ p, pos = some p → lo ≤ p
  | 0, start, infos, ms, pos, _, _, h => by simp [visitLoop] at h
  | fuel + 1, start, infos, ms, pos, ht, hs, h => by
    unfold visitLoop at h
    cases hf : findSet false (lits.map Prod.fst) b stop (stop - start) start with
    | none =>
      rw [hf] at h
      simp only [Option.some.injEq, Prod.mk.injEq] at h
      obtain ⟨rfl, rfl⟩ := h
      rw [pushMissing_infos, infos_ok]
      exact ⟨ht, by simp⟩
    | some x =>
      obtain ⟨pid, s, e⟩ := x
      obtain ⟨h1, h2, ⟨lit, h3, h4, h5⟩, h6, h7⟩ := findSet_some hf
      rw [hitAt_iff] at h5
      rw [hf] at h
      simp only at h
      split at h
      · exact visitLoop_tidy fuel e ht (by omega) h
      · split at h
        · exact visitLoop_tidy fuel e ht (by omega) h
        · obtain ⟨infos', g1, g2, _⟩ := push_ok_tidy (i := ⟨s, e, pid, ((lits[pid]?).map Prod.snd).getD 0⟩) (lo := lo) (hi := stop)
            (by simp only; omega) ht
          rw [g1] at h
          split at h
          · simp only [Option.some.injEq, Prod.mk.injEq] at h
            obtain ⟨rfl, rfl⟩ := h
            rw [infos_ok]
            refine ⟨g2, ?_⟩
            intro p hp
            simp only [Option.some.injEq] at hp
            omega
          · exact visitLoop_tidy fuel e g2 (by omega) h

theorem litDag_tame (lits : List (Buf × Nat)) : (litDag lits : Dag E).Tame := by
  intro b r env ms pos env' h1 h2 h
  unfold litDag at h
  simp only [Option.map_eq_some_iff] at h
  obtain ⟨⟨ms1, pos1⟩, h3, h4⟩ := h
  simp only [Prod.mk.injEq] at h4
  obtain ⟨rfl, rfl, rfl⟩ := h4
  obtain ⟨k1, k2⟩ := visitLoop_tidy (infos := []) _ _ (lo := r.start) ⟨by simp, by simp⟩ (Nat.le_refl _) h3
  exact ⟨k1.each, k1.sorted, k2⟩

namespace Sets
open Litcheck.Smart Litcheck.RegexSpec Litcheck.PatternSpec Litcheck.Pattern
open Litcheck.Regex hiding Items
open Litcheck.Lex (Part Match CPat CLine VarName Expr Op)

theorem visitRx_tidy {ic : Bool} {rxs : List SetRx} {b : Buf} (hcaps : ∀ r ∈ rxs, ∀ c ∈ r.caps, c.ty = .string) {lo hi : Nat} :
    ∀ (hs : List (Nat × Nat × Nat)) {infos : List Info} {env env' : Vars} {ms : Matches} {pos : Option Nat},
      (∀ x ∈ hs, RxAt ic rxs b x.1 x.2.1 x.2.2 ∧ lo ≤ x.2.1 ∧ x.2.1 ≤ x.2.2 ∧ x.2.2 ≤ hi) → Tidy lo hi infos →
      visitRx ic rxs b hs (infos.map .ok) env = .result ms pos env' →
      Tidy lo hi (ms.filterMap MatchResult.info) ∧ ∀ p, pos = some p → lo ≤ p
  | [], infos, env, env', ms, pos, _, ht, h => by
    simp only [visitRx, DagOut.result.injEq] at h
    obtain ⟨rfl, rfl, rfl⟩ := h
    refine ⟨?_, by simp⟩
    split
    · rw [infos_ok]; exact ht
    · rw [pushMissing_infos, infos_ok]; exact ht
  | (pid, s, e) :: hs, infos, env, env', ms, pos, hr, ht, h => by
    obtain ⟨x5, x6, x7, x8⟩ := hr _ List.mem_cons_self
    have hrest : ∀ x ∈ hs, RxAt ic rxs b x.1 x.2.1 x.2.2 ∧ lo ≤ x.2.1 ∧ x.2.1 ≤ x.2.2 ∧ x.2.2 ≤ hi := fun x hx => hr x (by simp [hx])
    unfold visitRx at h
    obtain ⟨i, vals, hsm, i1, i2, _, i4, _⟩ := setMatch_find hcaps x5 hs env
    rw [hsm] at h
    have i5 : s ≤ i.stop := by obtain ⟨rx, _, c, hc⟩ := i4; exact Lang.le _ _ _ _ hc
    dsimp only at h x6 x7 x8 i1 i2
    split at h
    · exact visitRx_tidy hcaps hs hrest ht h
    · split at h
      · exact visitRx_tidy hcaps hs hrest ht h
      · obtain ⟨infos', g1, g2, _⟩ := push_ok_tidy (i := i) (lo := lo) (hi := hi)
          ⟨by omega, by omega, by omega⟩ ht
        rw [g1] at h
        split at h
        · simp only [DagOut.result.injEq] at h
          obtain ⟨rfl, rfl, rfl⟩ := h
          rw [infos_ok]
          refine ⟨g2, ?_⟩
          intro p hp
          simp only [Option.some.injEq] at hp
          omega
        · exact visitRx_tidy hcaps hs hrest g2 h

theorem plainGroup_dag {o : Opts} {ls : List (CPat × Nat)} (hg : PlainGroup o (ls.map Prod.fst)) {set : MatchSet} (h : compileSet o ls = .ok (some set))
    (ic : Bool) (cfs : Nat → Conf engine) (vs : Bool) : (setDag ic cfs vs set).Tame := by
  obtain ⟨u, hu, ⟨hl, rfl⟩ | ⟨rxs, hf, rfl⟩⟩ := compileSet_static hg.static h
  · intro b r env ms pos env' h1 h2 hrun
    refine litDag_tame (E := Vars) (setLits o u) b r env ms pos env' h1 h2 ?_
    simp only [setDag, dagOut] at hrun
    cases hx : (litDag (setLits o u) : Dag Vars).run b r env with
    | none => rw [hx] at hrun; simp at hrun
    | some x =>
      rw [hx] at hrun
      obtain ⟨a, b, c⟩ := x
      exact hrun
  · have hcaps : ∀ rx ∈ rxs, ∀ c ∈ rx.caps, c.ty = .string := by
      intro rx hrx
      obtain ⟨n, hn⟩ := List.mem_iff_getElem?.1 hrx
      obtain ⟨x, hx1, hx2⟩ := forall₂_getElem? hf hn
      obtain ⟨y, h4, h5, _⟩ := hu.from_line x (List.mem_of_getElem? hx1)
      obtain ⟨pre, n1, n2⟩ := x
      dsimp only at h5
      cases h5 with
      | lit => rw [(buildSetRx_lit hx2).2.1]; simp
      | @rx rr c1 c2 =>
        obtain ⟨_, e2, _⟩ := buildSetRx_rx hx2
        rw [e2]
        exact c2
    intro b r env ms pos env' h1 h2 hrun
    simp only [setDag, dagOut] at hrun
    cases hx : visitRx ic rxs b (setHits ic rxs b r.start r.stop) [] env with
    | result ms1 pos1 env1 =>
      rw [hx] at hrun
      simp only [Option.some.injEq, Prod.mk.injEq] at hrun
      obtain ⟨rfl, rfl, rfl⟩ := hrun
      obtain ⟨k1, k2⟩ := visitRx_tidy (lo := r.start) (hi := r.stop) hcaps _ (infos := []) (by
        rintro ⟨pid, s, e⟩ hx
        obtain ⟨a1, a2, a3, rx, h4, h5⟩ := mem_setHits.1 hx
        exact ⟨⟨rx, h4, hits_matches (by show s ≤ r.stop; exact Nat.le_trans a2 a3) h5⟩, a1, a2, a3⟩) ⟨by simp, by simp⟩ hx
      exact ⟨k1.each, k1.sorted, k2⟩
    | _ => rw [hx] at hrun; simp at hrun

theorem plainGroup_not {o : Opts} {ls : List (CPat × Nat)} (hg : PlainGroup o (ls.map Prod.fst)) {set : MatchSet} (h : compileSet o ls = .ok (some set))
    (cfs : Nat → Conf engine) : (anyPat o.ignoreCase cfs set).Located := by
  intro b r env m env' h1 h2 h3 h4
  obtain ⟨i, hi, _⟩ := nots_sound hg.static h (cx := fun _ => ⟨weak, o.ignoreCase, o.strictWs, 0⟩) (fun _ => ⟨rfl, rfl⟩) cfs h1 h3 h4
  rw [hi]; rfl

end Sets
end Litcheck
