import Verif.Proofs.Literal

/-! # The matcher of a group of literals accounts for every pattern -/

namespace Litcheck

variable {E : Type}

theorem Matches.push_perm (ms : Matches) (r : MatchResult) : (Matches.push ms r).Perm (r :: ms) := by
  induction ms with
  | nil => exact .refl _
  | cons p ps ih =>
    unfold Matches.push
    split
    · exact (ih.cons p).trans (.swap _ _ _)
    · exact .refl _

theorem pushMissing_perm (ms0 : Matches) (pids : List Nat) (ms : Matches) :
    (pushMissing ms0 pids ms).Perm
      (List.replicate (pids.countP fun p => !ms0.any (fun m => m.patternId == some p)) matchNone ++ ms) := by
  induction pids generalizing ms with
  | nil => exact .refl _
  | cons p ps ih =>
    unfold pushMissing
    split
    · rename_i h
      rw [List.countP_cons_of_neg (by simp [h])]
      exact ih ms
    · rename_i h
      rw [List.countP_cons_of_pos (by simpa using h), List.replicate_succ']
      refine (ih _).trans ?_
      rw [List.append_assoc]
      exact (Matches.push_perm ms matchNone).append_left _

theorem countP_missing {lits : List (Buf × Nat)} {b : Buf} {stop lo start : Nat} {infos : List Info}
    (v : Visited lits b stop lo start infos) :
    infos.length + (List.range lits.length).countP (fun p => !(infos.map MatchResult.ok).any (fun m => m.patternId == some p)) =
      lits.length := by
  have hany : ∀ p, (infos.map MatchResult.ok).any (fun m => m.patternId == some p) = decide (p ∈ infos.map Info.pid) := by
    intro p
    rw [Bool.eq_iff_iff, List.any_eq_true, decide_eq_true_eq, List.mem_map]
    constructor
    · rintro ⟨m, hm, h⟩
      obtain ⟨i, hi, rfl⟩ := List.mem_map.1 hm
      exact ⟨i, hi, by simpa [MatchResult.patternId, MatchResult.ok] using h⟩
    · rintro ⟨i, hi, rfl⟩
      exact ⟨.ok i, List.mem_map.2 ⟨i, hi, rfl⟩, by simp [MatchResult.patternId, MatchResult.ok]⟩
  simp only [hany]
  have h1 := List.length_eq_countP_add_countP (fun p => decide (p ∈ infos.map Info.pid)) (l := List.range lits.length)
  have h2 : (List.range lits.length).countP (fun p => decide (p ∈ infos.map Info.pid)) = infos.length := by
    rw [List.countP_eq_length_filter]
    have hperm : ((List.range lits.length).filter fun p => decide (p ∈ infos.map Info.pid)).Perm (infos.map Info.pid) := by
      rw [List.perm_ext_iff_of_nodup (List.nodup_range.filter _) v.pids]
      intro p
      simp only [List.mem_filter, List.mem_range, decide_eq_true_eq, and_iff_right_iff_imp]
      intro hp
      obtain ⟨j, hj, rfl⟩ := List.mem_map.1 hp
      obtain ⟨_, _, _, _, x, hx, _⟩ := v.each j hj
      exact (List.getElem?_eq_some_iff.1 hx).1
    rw [hperm.length_eq, List.length_map]
  simp only [List.length_range] at h1
  rw [h2] at h1
  have h3 : (List.range lits.length).countP (fun p => !decide (p ∈ infos.map Info.pid)) =
      (List.range lits.length).countP (fun a => decide ¬ (decide (a ∈ infos.map Info.pid)) = true) := by
    apply List.countP_congr
    intro x _
    simp
  rw [h3]
  omega

theorem visitLoop_all {lits : List (Buf × Nat)} (hne : ∀ x ∈ lits, x.1 ≠ []) {b : Buf} {stop lo : Nat} :
    ∀ (fuel start : Nat) (infos : List Info),
      Visited lits b stop lo start infos → infos.length < lits.length → stop - start < fuel →
      ∃ ms pos infos' e, visitLoop lits b stop fuel start (infos.map .ok) = some (ms, pos) ∧ Visited lits b stop lo e infos' ∧
        infos'.length ≤ lits.length ∧
        ms.Perm (infos'.map .ok ++ List.replicate (lits.length - infos'.length) matchNone) := by
  intro fuel
  induction fuel with
  | zero => intro start infos v hlen h; omega
  | succ fuel ih =>
    intro start infos v hlen hfuel
    unfold visitLoop
    cases hf : findSet false (lits.map Prod.fst) b stop (stop - start) start with
    | none =>
      refine ⟨_, _, infos, start, rfl, v, Nat.le_of_lt hlen, ?_⟩
      refine (pushMissing_perm _ _ _).trans ?_
      have := countP_missing v
      rw [show (List.range lits.length).countP (fun p => !(infos.map MatchResult.ok).any (fun m => m.patternId == some p)) =
        lits.length - infos.length by omega]
      exact List.perm_append_comm
    | some x =>
      obtain ⟨pid, s, e⟩ := x
      obtain ⟨h1, h2, ⟨lit, h3, h4, h5⟩, h6, h7⟩ := findSet_some hf
      rw [hitAt_iff] at h5
      rw [List.getElem?_map, Option.map_eq_some_iff] at h3
      obtain ⟨x, hx, rfl⟩ := h3
      have hxne := hne x (List.mem_of_getElem? hx)
      have hlen0 : 0 < x.1.length := List.length_pos_iff.2 hxne
      have hse : s < e := by omega
      simp only
      split
      · exact ih _ _ (v.last (by omega)) hlen (by omega)
      · rename_i hpid
        split
        · exact ih _ _ (v.last (by omega)) hlen (by omega)
        · have hpush := litDag_mem_push (ms := infos.map .ok) (i := ⟨s, e, pid, ((lits[pid]?).map Prod.snd).getD 0⟩) (by
            intro m hm
            obtain ⟨i, hi, rfl⟩ := List.mem_map.1 hm
            obtain ⟨a1, a2, a3, _⟩ := v.each i hi
            exact ⟨i, rfl, by simp only; omega, a2⟩) hse
          rw [hpush]
          have hv : Visited lits b stop lo e (infos ++ [⟨s, e, pid, ((lits[pid]?).map Prod.snd).getD 0⟩]) := by
            refine ⟨by have := v.le; omega, ?_, ?_, ?_⟩
            · intro i hi
              rcases List.mem_append.1 hi with hi | hi
              · obtain ⟨a1, a2, a3, a4, a5⟩ := v.each i hi
                exact ⟨a1, a2, by omega, a4, a5⟩
              · simp only [List.mem_singleton] at hi
                subst hi
                have := v.le
                exact ⟨by simp only; omega, hse, Nat.le_refl _, by simp only; omega, x, hx, h4, h5.2⟩
            · rw [List.pairwise_append]
              refine ⟨v.sorted, by simp, ?_⟩
              intro i hi j hj
              simp only [List.mem_singleton] at hj
              subst hj
              obtain ⟨a1, a2, a3, _⟩ := v.each i hi
              simp only; omega
            · rw [List.map_append, List.nodup_append]
              refine ⟨v.pids, by simp, ?_⟩
              intro p hp q hq hpq
              simp only [List.map_cons, List.map_nil, List.mem_singleton] at hq
              subst hpq hq
              obtain ⟨i, hi, hip⟩ := List.mem_map.1 hp
              apply hpid
              rw [List.any_eq_true]
              exact ⟨.ok i, List.mem_map.2 ⟨i, hi, rfl⟩, by simp [MatchResult.patternId, MatchResult.ok, hip]⟩
          have hmap : infos.map MatchResult.ok ++ [.ok ⟨s, e, pid, ((lits[pid]?).map Prod.snd).getD 0⟩] =
              (infos ++ [(⟨s, e, pid, ((lits[pid]?).map Prod.snd).getD 0⟩ : Info)]).map .ok := by simp
          rw [hmap]
          generalize hI : infos ++ [(⟨s, e, pid, ((lits[pid]?).map Prod.snd).getD 0⟩ : Info)] = infos1 at *
          have hl1 : infos1.length = infos.length + 1 := by rw [← hI]; simp
          split
          · rename_i hlast
            rw [List.length_map] at hlast
            refine ⟨_, _, infos1, e, rfl, hv, by omega, ?_⟩
            rw [hlast]
            simp
          · rename_i hlast
            rw [List.length_map] at hlast
            exact ih _ _ hv (by omega) (by omega)

end Litcheck
