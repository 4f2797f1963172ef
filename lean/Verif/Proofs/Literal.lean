import Verif.Model.Literal
import Verif.Spec.Literal
import Verif.Proofs.EndToEnd
import Mathlib.Data.List.Nodup
import Mathlib.Data.List.Perm.Subperm

/-!
# The literal matchers satisfy the contracts
-/

namespace Litcheck
open Spec
variable {E : Type}

theorem asciiLower_toNat (x : UInt8) :
    (asciiLower x).toNat = if 65 ≤ x.toNat ∧ x.toNat ≤ 90 then x.toNat + 32 else x.toNat := by
  unfold asciiLower
  have h1 : (65 ≤ x ∧ x ≤ 90) ↔ (65 ≤ x.toNat ∧ x.toNat ≤ 90) := by
    rw [UInt8.le_iff_toNat_le, UInt8.le_iff_toNat_le]; rfl
  split
  · rename_i h
    rw [h1] at h
    rw [if_pos h, UInt8.toNat_add]
    have : (32 : UInt8).toNat = 32 := rfl
    rw [this]
    omega
  · rename_i h
    rw [h1] at h
    rw [if_neg h]

theorem sameByte_iff (ic : Bool) (x y : UInt8) : sameByte ic x y = true ↔ SameLetter ic x y := by
  unfold sameByte SameLetter
  cases ic with
  | false => simp
  | true =>
    have hx := asciiLower_toNat x
    have hy := asciiLower_toNat y
    simp only [if_true, beq_iff_eq, ← UInt8.toNat_inj, hx, hy, true_and]
    have := x.toNat_lt
    have := y.toNat_lt
    split_ifs <;> omega

theorem startsWith_iff (ic : Bool) (lit t : Buf) :
    startsWith ic lit t = true ↔ ∀ (i : Nat) x, lit[i]? = some x → ∃ y, t[i]? = some y ∧ SameLetter ic x y := by
  induction lit generalizing t with
  | nil => simp [startsWith]
  | cons a as ih =>
    cases t with
    | nil =>
      simp only [startsWith, Bool.false_eq_true, false_iff]
      intro h
      obtain ⟨y, hy, _⟩ := h 0 a (by simp)
      simp at hy
    | cons c cs =>
      simp only [startsWith, Bool.and_eq_true, sameByte_iff, ih]
      constructor
      · rintro ⟨h1, h2⟩ i x hx
        cases i with
        | zero => simp at hx; subst hx; exact ⟨c, by simp, h1⟩
        | succ i => simp at hx; obtain ⟨y, hy, hs⟩ := h2 i x hx; exact ⟨y, by simpa using hy, hs⟩
      · intro h
        constructor
        · obtain ⟨y, hy, hs⟩ := h 0 a (by simp); simp at hy; subst hy; exact hs
        · intro i x hx
          obtain ⟨y, hy, hs⟩ := h (i + 1) x (by simpa using hx)
          exact ⟨y, by simpa using hy, hs⟩

theorem hitAt_iff {ic : Bool} {b : Buf} {stop p : Nat} {lit : Buf} :
    hitAt ic b stop p lit = true ↔ p + lit.length ≤ stop ∧ OccursAt ic lit b p := by
  unfold hitAt OccursAt
  rw [Bool.and_eq_true, startsWith_iff, decide_eq_true_eq]
  simp only [List.getElem?_drop]

theorem longestAt_none {ic : Bool} {b : Buf} {stop p : Nat} {lits : List Buf} {k : Nat} :
    longestAt ic b stop p lits k = none ↔ ∀ lit ∈ lits, hitAt ic b stop p lit = false := by
  induction lits generalizing k with
  | nil => simp [longestAt]
  | cons l ls ih =>
    unfold longestAt
    cases hrec : longestAt ic b stop p ls (k + 1) with
    | none =>
      rw [ih] at hrec
      cases hh : hitAt ic b stop p l <;> simp [hh]
      exact hrec
    | some x =>
      have : ¬ ∀ lit ∈ ls, hitAt ic b stop p lit = false := by
        rw [← ih (k := k + 1), hrec]; simp
      obtain ⟨q, n⟩ := x
      simp only
      constructor
      · intro h; split at h <;> simp at h
      · intro h; exact absurd (fun lit hl => h lit (by simp [hl])) this

theorem longestAt_some {ic : Bool} {b : Buf} {stop p : Nat} {lits : List Buf} {k pid n : Nat}
    (h : longestAt ic b stop p lits k = some (pid, n)) :
    k ≤ pid ∧ (∃ lit, lits[pid - k]? = some lit ∧ n = lit.length ∧ hitAt ic b stop p lit = true) ∧
    ∀ lit ∈ lits, hitAt ic b stop p lit = true → lit.length ≤ n := by
  induction lits generalizing k pid n with
  | nil => simp [longestAt] at h
  | cons l ls ih =>
    unfold longestAt at h
    cases hrec : longestAt ic b stop p ls (k + 1) with
    | none =>
      rw [hrec] at h
      have hn := longestAt_none.1 hrec
      simp only at h
      split at h
      · rename_i hh
        simp only [Option.some.injEq, Prod.mk.injEq] at h
        obtain ⟨rfl, rfl⟩ := h
        refine ⟨Nat.le_refl _, ⟨l, by simp, rfl, hh⟩, ?_⟩
        intro lit hl hhl
        rcases List.mem_cons.1 hl with rfl | hl
        · exact Nat.le_refl _
        · rw [hn lit hl] at hhl; simp at hhl
      · simp at h
    | some x =>
      obtain ⟨q, m⟩ := x
      rw [hrec] at h
      obtain ⟨h1, ⟨lit, h2, h3, h4⟩, h5⟩ := ih hrec
      simp only at h
      split at h
      · rename_i hh
        rw [Bool.and_eq_true, decide_eq_true_eq] at hh
        simp only [Option.some.injEq, Prod.mk.injEq] at h
        obtain ⟨rfl, rfl⟩ := h
        refine ⟨Nat.le_refl _, ⟨l, by simp, rfl, hh.1⟩, ?_⟩
        intro lit' hl hhl
        rcases List.mem_cons.1 hl with rfl | hl
        · exact Nat.le_refl _
        · exact Nat.le_trans (h5 lit' hl hhl) hh.2
      · rename_i hh
        simp only [Option.some.injEq, Prod.mk.injEq] at h
        obtain ⟨rfl, rfl⟩ := h
        refine ⟨by omega, ⟨lit, ?_, h3, h4⟩, ?_⟩
        · have : q - k = (q - (k + 1)) + 1 := by omega
          rw [this]; simpa using h2
        · intro lit' hl hhl
          rcases List.mem_cons.1 hl with rfl | hl
          · rw [hhl] at hh; simp at hh; omega
          · exact h5 lit' hl hhl

theorem findSet_none {ic : Bool} {lits : List Buf} {b : Buf} {stop n p : Nat}
    (h : findSet ic lits b stop n p = none) :
    ∀ q, p ≤ q → q ≤ p + n → ∀ lit ∈ lits, hitAt ic b stop q lit = false := by
  induction n generalizing p with
  | zero =>
    unfold findSet at h
    split at h
    · simp at h
    · rename_i hn
      intro q h1 h2
      have : q = p := by omega
      subst this
      exact longestAt_none.1 hn
  | succ n ih =>
    unfold findSet at h
    split at h
    · simp at h
    · rename_i hn
      intro q h1 h2
      by_cases hq : q = p
      · subst hq; exact longestAt_none.1 hn
      · exact ih h q (by omega) (by omega)

theorem findSet_some {ic : Bool} {lits : List Buf} {b : Buf} {stop n p pid s e : Nat}
    (h : findSet ic lits b stop n p = some (pid, s, e)) :
    p ≤ s ∧ s ≤ p + n ∧ (∃ lit, lits[pid]? = some lit ∧ e = s + lit.length ∧ hitAt ic b stop s lit = true) ∧
    (∀ q, p ≤ q → q < s → ∀ lit ∈ lits, hitAt ic b stop q lit = false) ∧
    (∀ lit ∈ lits, hitAt ic b stop s lit = true → s + lit.length ≤ e) := by
  have hit : ∀ {p : Nat} {pid' len : Nat}, longestAt ic b stop p lits 0 = some (pid', len) →
      (pid', p, p + len) = (pid, s, e) →
      p = s ∧ (∃ lit, lits[pid]? = some lit ∧ e = s + lit.length ∧ hitAt ic b stop s lit = true) ∧
      (∀ lit ∈ lits, hitAt ic b stop s lit = true → s + lit.length ≤ e) := by
    intro p pid' len h1 h2
    simp only [Prod.mk.injEq] at h2
    obtain ⟨rfl, rfl, rfl⟩ := h2
    obtain ⟨_, ⟨lit, h3, h4, h5⟩, h6⟩ := longestAt_some h1
    refine ⟨rfl, ⟨lit, by simpa using h3, by omega, h5⟩, ?_⟩
    intro lit' hl hh
    have := h6 lit' hl hh
    omega
  induction n generalizing p with
  | zero =>
    unfold findSet at h
    split at h
    · rename_i h1
      obtain ⟨rfl, h3, h4⟩ := hit h1 (by simpa using h)
      exact ⟨Nat.le_refl _, Nat.le_refl _, h3, fun q a b => by omega, h4⟩
    · simp at h
  | succ n ih =>
    unfold findSet at h
    split at h
    · rename_i h1
      obtain ⟨rfl, h3, h4⟩ := hit h1 (by simpa using h)
      exact ⟨Nat.le_refl _, by omega, h3, fun q a b => by omega, h4⟩
    · rename_i hn
      obtain ⟨h1, h2, h3, h4, h5⟩ := ih h
      refine ⟨by omega, by omega, h3, ?_, h5⟩
      intro q hq1 hq2
      by_cases hq : q = p
      · subst hq; exact longestAt_none.1 hn
      · exact h4 q (by omega) hq2

/-- Occurrences in a range, in terms of the specification. -/
theorem not_hit {ic : Bool} {b : Buf} {stop s e : Nat} {lit : Buf} (h : hitAt ic b stop s lit = false)
    (he : e ≤ stop) : ¬ Occurs ic lit b s e := by
  rintro ⟨rfl, ho⟩
  rw [hitAt_iff.2 ⟨he, ho⟩] at h
  simp at h

theorem litPat_run {ic : Bool} {lit : Buf} {ps : Nat} (b : Buf) (r : Rng) (env : E) :
    (∃ s e, (litPat ic lit ps).run b r env = (some (.ok ⟨s, e, 0, ps⟩), env) ∧
      r.start ≤ s ∧ e ≤ r.stop ∧ Occurs ic lit b s e ∧
      ∀ s' e', r.start ≤ s' → e' ≤ r.stop → Occurs ic lit b s' e' → s ≤ s') ∨
    ((litPat ic lit ps).run b r env = (some matchNone, env) ∧
      ∀ s' e', r.start ≤ s' → s' ≤ r.stop → e' ≤ r.stop → ¬ Occurs ic lit b s' e') := by
  unfold litPat
  simp only
  cases h : findSet ic [lit] b r.stop (r.stop - r.start) r.start with
  | none =>
    right
    refine ⟨rfl, ?_⟩
    intro s' e' h1 h2 h3
    exact not_hit (findSet_none h s' h1 (by omega) lit (by simp)) h3
  | some x =>
    obtain ⟨pid, s, e⟩ := x
    obtain ⟨h1, h2, ⟨l, h3, h4, h5⟩, h6, _⟩ := findSet_some h
    have hl : l = lit := by
      cases pid with
      | zero => simpa using h3.symm
      | succ n => simp at h3
    subst hl
    rw [hitAt_iff] at h5
    left
    refine ⟨s, e, rfl, h1, by omega, ⟨h4, h5.2⟩, ?_⟩
    intro s' e' hs he ho
    by_contra hlt
    exact not_hit (h6 s' hs (by omega) l (by simp)) he ho

theorem litPat_sound (ic : Bool) (lit : Buf) (ps : Nat) : (litPat ic lit ps : Pat E).Sound (litMeaning ic lit) where
  found := by
    intro b r env m env' _ _ h hok
    rcases litPat_run (ic := ic) (lit := lit) (ps := ps) b r env with ⟨s, e, h1, h2, h3, h4, _⟩ | ⟨h1, _⟩
    · rw [h1] at h
      simp only [Prod.mk.injEq, Option.some.injEq] at h
      obtain ⟨rfl, rfl⟩ := h
      have := h4.1
      exact ⟨_, rfl, h2, by simp; omega, h3, rfl, h4⟩
    · rw [h1] at h
      simp only [Prod.mk.injEq, Option.some.injEq] at h
      obtain ⟨rfl, rfl⟩ := h
      simp [matchNone, MatchResult.failed, MatchResult.isOk, MatchType.isOk] at hok
  related := by
    intro b r env m env' f h hf
    rcases litPat_run (ic := ic) (lit := lit) (ps := ps) b r env with ⟨s, e, h1, h2, h3, h4, _⟩ | ⟨h1, _⟩
    · rw [h1] at h
      simp only [Prod.mk.injEq, Option.some.injEq] at h
      obtain ⟨rfl, rfl⟩ := h
      simp [MatchResult.ok] at hf
    · rw [h1] at h
      simp only [Prod.mk.injEq, Option.some.injEq] at h
      obtain ⟨rfl, rfl⟩ := h
      simp [matchNone, MatchResult.failed] at hf
      subst hf; rfl

/-- A literal which is not empty and has no line feed is a sound label. -/
theorem litPat_labelSound (ic : Bool) (lit : Buf) (ps : Nat) (hne : lit ≠ []) (hlf : 10 ∉ lit) :
    (litPat ic lit ps : Pat E).LabelSound (litMeaning ic lit) := by
  intro b r env m i h hi
  rcases litPat_run (ic := ic) (lit := lit) (ps := ps) b r env with ⟨s, e, h1, h2, h3, h4, _⟩ | ⟨h1, _⟩
  · rw [h1] at h
    simp only [Option.some.injEq] at h
    subst h
    simp only [MatchResult.ok, Option.some.injEq] at hi
    subst hi
    have hl : 0 < lit.length := List.length_pos_iff.2 hne
    have := h4.1
    refine ⟨h2, by simp only; omega, h3, ?_, env, rfl, h4⟩
    intro j hj1 hj2 hj
    simp only at hj1 hj2
    have hk : j - s < lit.length := by omega
    obtain ⟨y, hy, hs⟩ := h4.2 (j - s) (lit[j - s]) (by simp [hk])
    have hjs : s + (j - s) = j := by omega
    rw [hjs] at hy
    unfold IsLF at hj
    rw [hj] at hy
    simp only [Option.some.injEq] at hy
    subst hy
    rcases hs with hs | ⟨_, hs⟩
    · exact hlf (hs ▸ List.getElem_mem hk)
    · simp at hs
  · rw [h1] at h
    simp only [Option.some.injEq] at h
    subst h
    simp [matchNone, MatchResult.failed] at hi

theorem litAny_complete (ic : Bool) (lits : List (Buf × Nat)) :
    (litAny ic lits : Pat E).Complete (lits.map (fun x => litMeaning ic x.1)) := by
  intro b r env m env' h hok
  unfold litAny at h
  simp only at h
  cases hf : findSet ic (lits.map Prod.fst) b r.stop (r.stop - r.start) r.start with
  | some x =>
    obtain ⟨pid, s, e⟩ := x
    rw [hf] at h
    simp only [Prod.mk.injEq, Option.some.injEq] at h
    obtain ⟨rfl, rfl⟩ := h
    simp [MatchResult.ok, MatchResult.isOk, MatchType.isOk] at hok
  | none =>
    rw [hf] at h
    simp only [Prod.mk.injEq, Option.some.injEq] at h
    obtain ⟨rfl, rfl⟩ := h
    refine ⟨rfl, ?_⟩
    intro μ hμ
    obtain ⟨x, hx, rfl⟩ := List.mem_map.1 hμ
    intro s e h1 h2 h3 env1 env2 hm
    obtain ⟨_, ho⟩ := hm
    exact not_hit (findSet_none hf s h1 (by omega) x.1 (List.mem_map.2 ⟨x, hx, rfl⟩)) h3 ho

theorem litDag_mem_push {ms : Matches} {i : Info} (h : ∀ m ∈ ms, ∃ j, m.info = some j ∧ j.stop ≤ i.start ∧ j.start < j.stop)
    (_hi : i.start < i.stop) : Matches.push ms (.ok i) = ms ++ [.ok i] := by
  induction ms with
  | nil => rfl
  | cons m ms ih =>
    unfold Matches.push
    obtain ⟨j, hj, h1, h2⟩ := h m (by simp)
    have : Matches.cmpProbe m (.ok i) = .lt := by
      unfold Matches.cmpProbe
      rw [hj]
      simp only [MatchResult.ok]
      unfold Matches.cmpInfo
      have : compare j.start i.start = .lt := by
        rw [Nat.compare_eq_lt]; omega
      rw [this]; rfl
    rw [if_pos this, ih (fun m hm => h m (by simp [hm]))]
    rfl

/-- The matches found so far by the visitor. -/
structure Visited (lits : List (Buf × Nat)) (b : Buf) (stop lo start : Nat) (infos : List Info) : Prop where
  le : lo ≤ start
  each : ∀ i ∈ infos, lo ≤ i.start ∧ i.start < i.stop ∧ i.stop ≤ start ∧ i.stop ≤ stop ∧
    ∃ x, lits[i.pid]? = some x ∧ Occurs false x.1 b i.start i.stop
  sorted : infos.Pairwise (fun i j => i.stop ≤ j.start)
  pids : (infos.map Info.pid).Nodup

theorem Visited.last {lits : List (Buf × Nat)} {b : Buf} {stop lo start : Nat} {infos : List Info}
    (v : Visited lits b stop lo start infos) {start' : Nat} (h : start ≤ start') :
    Visited lits b stop lo start' infos :=
  ⟨Nat.le_trans v.le h, fun i hi => by obtain ⟨a, b, c, d, e⟩ := v.each i hi; exact ⟨a, b, by omega, d, e⟩, v.sorted, v.pids⟩

theorem visitLoop_ok {lits : List (Buf × Nat)} (hne : ∀ x ∈ lits, x.1 ≠ []) {b : Buf} {stop lo : Nat} :
    ∀ (fuel start : Nat) (infos : List Info) (ms : Matches) (pos : Option Nat),
      Visited lits b stop lo start infos → infos.length < lits.length →
      visitLoop lits b stop fuel start (infos.map .ok) = some (ms, pos) → Matches.isOk ms = true →
      ∃ infos' e, ms = infos'.map .ok ∧ infos'.length = lits.length ∧ Visited lits b stop lo e infos' ∧
        pos = some e ∧ ∃ i, infos'.getLast? = some i ∧ i.stop = e := by
  intro fuel
  induction fuel with
  | zero => intro start infos ms pos v hlen h; simp [visitLoop] at h
  | succ fuel ih =>
    intro start infos ms pos v hlen h hok
    unfold visitLoop at h
    cases hf : findSet false (lits.map Prod.fst) b stop (stop - start) start with
    | none =>
      rw [hf] at h
      simp only [Option.some.injEq, Prod.mk.injEq] at h
      obtain ⟨h1, _⟩ := h
      -- some pattern has no match, and a failure is pushed
      exfalso
      have hpush_fail : ∀ (l : Matches) , Matches.isOk (Matches.push l matchNone) = false := by
        intro l
        induction l with
        | nil => rfl
        | cons m l ih =>
          unfold Matches.push
          have : Matches.cmpProbe m matchNone = .lt := by
            unfold Matches.cmpProbe matchNone MatchResult.failed; cases m.info <;> rfl
          rw [if_pos this]
          unfold Matches.isOk at ih ⊢
          rw [List.all_cons, ih]; simp
      have hpm : ∀ (ms0 : Matches) (pids : List Nat) (l : Matches), Matches.isOk l = false →
          Matches.isOk (pushMissing ms0 pids l) = false := by
        intro ms0 pids
        induction pids with
        | nil => intro l hl; exact hl
        | cons p ps ih =>
          intro l hl
          unfold pushMissing
          split
          · exact ih l hl
          · exact ih _ (hpush_fail l)
      have hpm2 : ∀ (ms0 : Matches) (pids : List Nat) (l : Matches),
          Matches.isOk (pushMissing ms0 pids l) = true → ∀ p ∈ pids, ms0.any (fun m => m.patternId == some p) = true := by
        intro ms0 pids
        induction pids with
        | nil => intro l _ p hp; simp at hp
        | cons q qs ih =>
          intro l hl p hp
          unfold pushMissing at hl
          split at hl
          · rename_i hq
            rcases List.mem_cons.1 hp with rfl | hp
            · exact hq
            · exact ih l hl p hp
          · rw [hpm _ _ _ (hpush_fail l)] at hl; simp at hl
      rw [← h1] at hok
      have hall := hpm2 _ _ _ hok
      have hsub : List.range lits.length ⊆ infos.map Info.pid := by
        intro p hp
        have := hall p hp
        rw [List.any_eq_true] at this
        obtain ⟨m, hm, hm2⟩ := this
        obtain ⟨i, hi, rfl⟩ := List.mem_map.1 hm
        simp [MatchResult.patternId, MatchResult.ok] at hm2
        exact List.mem_map.2 ⟨i, hi, hm2⟩
      have := (List.subperm_of_subset (List.nodup_range (n := lits.length)) hsub).length_le
      simp at this
      omega
    | some x =>
      obtain ⟨pid, s, e⟩ := x
      rw [hf] at h
      obtain ⟨h1, h2, ⟨lit, h3, h4, h5⟩, h6, h7⟩ := findSet_some hf
      rw [hitAt_iff] at h5
      rw [List.getElem?_map, Option.map_eq_some_iff] at h3
      obtain ⟨x, hx, rfl⟩ := h3
      have hxne := hne x (List.mem_of_getElem? hx)
      have hlen0 : 0 < x.1.length := List.length_pos_iff.2 hxne
      have hse : s < e := by omega
      simp only at h
      split at h
      · exact ih _ _ _ _ (v.last (by omega)) hlen h hok
      · rename_i hpid
        split at h
        · exact ih _ _ _ _ (v.last (by omega)) hlen h hok
        · have hpush := litDag_mem_push (ms := infos.map .ok) (i := ⟨s, e, pid, ((lits[pid]?).map Prod.snd).getD 0⟩) (by
            intro m hm
            obtain ⟨i, hi, rfl⟩ := List.mem_map.1 hm
            obtain ⟨a1, a2, a3, _⟩ := v.each i hi
            exact ⟨i, rfl, by simp only; omega, a2⟩) hse
          rw [hpush] at h
          have hv : Visited lits b stop lo e (infos ++ [⟨s, e, pid, ((lits[pid]?).map Prod.snd).getD 0⟩]) := by
            refine ⟨by have := v.le; omega, ?_, ?_, ?_⟩
            · intro i hi
              rcases List.mem_append.1 hi with hi | hi
              · obtain ⟨a1, a2, a3, a4, a5⟩ := v.each i hi
                exact ⟨a1, a2, by omega, a4, a5⟩
              · simp only [List.mem_singleton] at hi
                subst hi
                have := v.le
                exact ⟨by simp only; omega, hse, Nat.le_refl _, by simp only; omega, x, hx, h4, h5.2⟩
            · rw [List.pairwise_append]
              refine ⟨v.sorted, by simp, ?_⟩
              intro i hi j hj
              simp only [List.mem_singleton] at hj
              subst hj
              obtain ⟨a1, a2, a3, _⟩ := v.each i hi
              simp only; omega
            · rw [List.map_append, List.nodup_append]
              refine ⟨v.pids, by simp, ?_⟩
              intro p hp q hq hpq
              simp only [List.map_cons, List.map_nil, List.mem_singleton] at hq
              subst hpq hq
              obtain ⟨i, hi, hip⟩ := List.mem_map.1 hp
              apply hpid
              rw [List.any_eq_true]
              exact ⟨.ok i, List.mem_map.2 ⟨i, hi, rfl⟩, by simp [MatchResult.patternId, MatchResult.ok, hip]⟩
          have hmap : infos.map MatchResult.ok ++ [.ok ⟨s, e, pid, ((lits[pid]?).map Prod.snd).getD 0⟩] =
              (infos ++ [(⟨s, e, pid, ((lits[pid]?).map Prod.snd).getD 0⟩ : Info)]).map .ok := by simp
          rw [hmap] at h
          generalize hI : infos ++ [(⟨s, e, pid, ((lits[pid]?).map Prod.snd).getD 0⟩ : Info)] = infos1 at *
          have hl1 : infos1.length = infos.length + 1 := by rw [← hI]; simp
          split at h
          · rename_i hlast
            simp only [Option.some.injEq, Prod.mk.injEq] at h
            obtain ⟨rfl, rfl⟩ := h
            rw [List.length_map] at hlast
            refine ⟨infos1, e, rfl, hlast.symm, hv, rfl, ⟨s, e, pid, ((lits[pid]?).map Prod.snd).getD 0⟩, ?_, rfl⟩
            rw [← hI]; simp
          · rename_i hlast
            rw [List.length_map] at hlast
            exact ih _ _ _ _ hv (by omega) h hok

theorem range_ok_map {i : Info} {infos : List Info} (hs : (i :: infos).Pairwise (fun i j => i.stop ≤ j.start))
    (hp : ∀ j ∈ i :: infos, j.start ≤ j.stop) {l : Info} (hl : (i :: infos).getLast? = some l) :
    Matches.range ((i :: infos).map .ok) = .ok (some ⟨i.start, l.stop⟩) := by
  cases infos with
  | nil =>
    simp at hl; subst hl
    rfl
  | cons j js =>
    unfold Matches.range
    simp only [List.map_cons]
    have hlast : ∀ h, ((MatchResult.ok j :: js.map MatchResult.ok).getLast h) = .ok l := by
      intro h
      have : (MatchResult.ok j :: js.map MatchResult.ok).getLast? = some (.ok l) := by
        rw [← List.map_cons, List.getLast?_map]
        have : (j :: js).getLast? = some l := by simpa using hl
        rw [this]; rfl
      rw [List.getLast?_eq_some_getLast h] at this
      exact Option.some.inj this
    rw [hlast]
    have hle : i.start ≤ l.stop := by
      have hmem : l ∈ j :: js := List.mem_of_getLast? (by simpa using hl)
      have h1 := (List.pairwise_cons.1 hs).1 l hmem
      have h2 := hp i (by simp)
      have h3 := hp l (by simp [List.mem_cons.1 hmem])
      omega
    simp only [MatchResult.ok, MatchResult.isOk, MatchType.isOk, Rng.new, if_pos hle]
    rfl

theorem occurs_ic {ic : Bool} {lit b : Buf} {s e : Nat} (h : Occurs false lit b s e) : Occurs ic lit b s e := by
  refine ⟨h.1, ?_⟩
  intro i x hx
  obtain ⟨y, hy, hs⟩ := h.2 i x hx
  refine ⟨y, hy, ?_⟩
  rcases hs with hs | ⟨hs, _⟩
  · exact Or.inl hs
  · simp at hs

theorem litDag_env {lits : List (Buf × Nat)} {b : Buf} {r : Rng} {env env' : E} {ms : Matches} {pos : Option Nat}
    (h : (litDag lits : Dag E).run b r env = some (ms, pos, env')) : env' = env := by
  unfold litDag at h
  simp only [Option.map_eq_some_iff, Prod.mk.injEq] at h
  obtain ⟨_, _, _, _, h⟩ := h
  exact h.symm

/-- The `CHECK-DAG` matcher of a set of non-empty literals is sound. -/
theorem litDag_sound (ic : Bool) {lits : List (Buf × Nat)} (hne : ∀ x ∈ lits, x.1 ≠ []) (hl : lits ≠ []) :
    (litDag lits : Dag E).Sound (lits.map (fun x => litMeaning ic x.1)) := by
  intro b r env ms pos env' h hok
  unfold litDag at h
  simp only [Option.map_eq_some_iff] at h
  obtain ⟨⟨ms1, pos1⟩, h1, h2⟩ := h
  simp only [Prod.mk.injEq] at h2
  obtain ⟨rfl, rfl, rfl⟩ := h2
  have hpos : 0 < lits.length := List.length_pos_iff.2 hl
  obtain ⟨infos, e, rfl, hlen, v, rfl, last, hlast, rfl⟩ := visitLoop_ok hne (lo := r.start) _ _ [] _ _
    ⟨Nat.le_refl _, by simp, by simp, by simp⟩ (by simpa using hpos) (by simpa using h1) hok
  cases infos with
  | nil => simp at hlen; omega
  | cons i0 infos =>
    have hp : ∀ j ∈ i0 :: infos, j.start ≤ j.stop := fun j hj => by obtain ⟨_, h, _⟩ := v.each j hj; omega
    have hrange := range_ok_map v.sorted hp hlast
    have hlm : last ∈ i0 :: infos := List.mem_of_getLast? hlast
    obtain ⟨a1, a2, a3, a4, a5⟩ := v.each last hlm
    obtain ⟨b1, b2, b3, b4, b5⟩ := v.each i0 (by simp)
    have hmin : ∀ j ∈ i0 :: infos, i0.start ≤ j.start := by
      intro j hj
      rcases List.mem_cons.1 hj with rfl | hj'
      · exact Nat.le_refl _
      · have := (List.pairwise_cons.1 v.sorted).1 j hj'; omega
    have hmax : ∀ j ∈ i0 :: infos, j.stop ≤ last.stop := fun j hj => (v.each j hj).2.2.1
    refine ⟨i0.start, last.stop, hrange, rfl, b1, by omega, a4, DagMatch.threaded ?_ (by
      intro m hm env i j env' h env2
      obtain ⟨x, _, rfl⟩ := List.mem_map.1 hm
      exact ⟨rfl, h.2⟩) env⟩
    -- one span per pattern
    have hpid : ∀ p, p < lits.length → ∃ i ∈ i0 :: infos, i.pid = p := by
      intro p hpl
      have hsub : (i0 :: infos).map Info.pid ⊆ List.range lits.length := by
        intro q hq
        obtain ⟨j, hj, rfl⟩ := List.mem_map.1 hq
        obtain ⟨_, _, _, _, x, hx, _⟩ := v.each j hj
        rw [List.mem_range]
        exact (List.getElem?_eq_some_iff.1 hx).1
      have hperm : ((i0 :: infos).map Info.pid).Perm (List.range lits.length) :=
        (List.subperm_of_subset v.pids hsub).perm_of_length_le (by simp only [List.length_map, List.length_range]; omega)
      have : p ∈ (i0 :: infos).map Info.pid := hperm.mem_iff.2 (List.mem_range.2 hpl)
      obtain ⟨i, hi, rfl⟩ := List.mem_map.1 this
      exact ⟨i, hi, rfl⟩
    have hex : ∃ f : Nat → Info, ∀ p, p < lits.length → f p ∈ i0 :: infos ∧ (f p).pid = p := by
      have : ∀ p, ∃ i, p < lits.length → i ∈ i0 :: infos ∧ i.pid = p := by
        intro p
        by_cases hpl : p < lits.length
        · obtain ⟨i, h1, h2⟩ := hpid p hpl; exact ⟨i, fun _ => ⟨h1, h2⟩⟩
        · exact ⟨i0, fun h => absurd h hpl⟩
      exact ⟨fun p => (this p).choose, fun p => (this p).choose_spec⟩
    obtain ⟨f, hf⟩ := hex
    have huniq : ∀ i ∈ i0 :: infos, ∃ p, p < lits.length ∧ f p = i := by
      intro i hi
      obtain ⟨_, _, _, _, x, hx, _⟩ := v.each i hi
      have hpl := (List.getElem?_eq_some_iff.1 hx).1
      refine ⟨i.pid, hpl, ?_⟩
      obtain ⟨h1, h2⟩ := hf _ hpl
      exact List.inj_on_of_nodup_map v.pids h1 hi h2
    refine ⟨(List.range lits.length).map (fun p => ((f p).start, (f p).stop)), ?_, ?_, ?_, ?_, ?_⟩
    · rw [List.forall₂_iff_get]
      refine ⟨by simp, ?_⟩
      intro p h1 h2
      simp only [List.get_eq_getElem, List.getElem_map, List.getElem_range]
      have hpl : p < lits.length := by simpa using h1
      obtain ⟨hm, hpd⟩ := hf p hpl
      obtain ⟨c1, c2, c3, c4, x, hx, ho⟩ := v.each _ hm
      rw [hpd] at hx
      have hxx : lits[p] = x := (List.getElem?_eq_some_iff.1 hx).2
      exact ⟨c1, by omega, c4, env, env, rfl, hxx ▸ occurs_ic ho⟩
    · rw [List.pairwise_map]
      refine List.Pairwise.imp_of_mem ?_ (List.nodup_range (n := lits.length))
      intro p q hp' hq hpq
      rw [List.mem_range] at hp' hq
      obtain ⟨h1, h2⟩ := hf p hp'
      obtain ⟨h3, h4⟩ := hf q hq
      have hne' : f p ≠ f q := by
        intro h; rw [← h2, ← h4, h] at hpq; exact hpq rfl
      have : ∀ (l : List Info), l.Pairwise (fun i j => i.stop ≤ j.start) → ∀ x ∈ l, ∀ y ∈ l, x ≠ y →
          x.stop ≤ y.start ∨ y.stop ≤ x.start := by
        intro l hpl
        induction hpl with
        | nil => intro x hx; simp at hx
        | cons h1 h2 ih =>
          intro x hx y hy hxy
          rcases List.mem_cons.1 hx with rfl | hx'
          · rcases List.mem_cons.1 hy with rfl | hy'
            · exact absurd rfl hxy
            · exact Or.inl (h1 y hy')
          · rcases List.mem_cons.1 hy with rfl | hy'
            · exact Or.inr (h1 x hx')
            · exact ih x hx' y hy' hxy
      exact this _ v.sorted _ h1 _ h3 hne'
    · intro sp hsp
      obtain ⟨p, hp', rfl⟩ := List.mem_map.1 hsp
      rw [List.mem_range] at hp'
      obtain ⟨h1, h2⟩ := hf p hp'
      exact ⟨hmin _ h1, hmax _ h1⟩
    · obtain ⟨p, hp', hfp⟩ := huniq i0 (by simp)
      exact ⟨_, List.mem_map.2 ⟨p, List.mem_range.2 hp', rfl⟩, by rw [hfp]⟩
    · obtain ⟨p, hp', hfp⟩ := huniq last hlm
      exact ⟨_, List.mem_map.2 ⟨p, List.mem_range.2 hp', rfl⟩, by rw [hfp]⟩

/-- Compiling lines whose literals are distinct keeps all of them. -/
theorem dedupe_nodup (ls : List (Line E)) : ∀ (id : Nat) (u : List (Buf × Nat × Nat)) (r : List (Buf × Nat)),
    (u.map Prod.fst ++ ls.map Line.src).Nodup → dedupeLoop ls id u = .ok (some r) →
    r.map Prod.fst = u.map Prod.fst ++ ls.map Line.src ∧ ∀ l ∈ ls, l.src ≠ [] := by
  induction ls with
  | nil =>
    intro id u r _ h
    simp only [dedupeLoop, Except.ok.injEq, Option.some.injEq] at h
    subst h
    simp [List.map_map, Function.comp_def]
  | cons l ls ih =>
    intro id u r hn h
    unfold dedupeLoop at h
    have hnot : u.find? (fun x => x.1 == l.src) = none := by
      rw [List.find?_eq_none]
      intro x hx hxe
      simp only [beq_iff_eq] at hxe
      rw [List.nodup_append] at hn
      exact hn.2.2 x.1 (List.mem_map.2 ⟨x, hx, rfl⟩) l.src (by simp) hxe
    rw [hnot] at h
    simp only at h
    split at h
    · simp at h
    · rename_i hne
      have := ih _ _ _ (by simpa using hn) h
      refine ⟨by simpa using this.1, ?_⟩
      intro x hx
      rcases List.mem_cons.1 hx with rfl | hx
      · simpa using hne
      · exact this.2 x hx

/-- Whatever the duplicates, compiling keeps every literal at least once. -/
theorem dedupe_mem (ls : List (Line E)) : ∀ (id : Nat) (u : List (Buf × Nat × Nat)) (r : List (Buf × Nat)),
    dedupeLoop ls id u = .ok (some r) →
    (∀ x ∈ u, x.1 ∈ r.map Prod.fst) ∧ ∀ l ∈ ls, l.src ∈ r.map Prod.fst := by
  induction ls with
  | nil =>
    intro id u r h
    simp only [dedupeLoop, Except.ok.injEq, Option.some.injEq] at h
    subst h
    refine ⟨?_, by simp⟩
    intro x hx
    exact List.mem_map.2 ⟨_, List.mem_map.2 ⟨x, hx, rfl⟩, rfl⟩
  | cons l ls ih =>
    intro id u r h
    unfold dedupeLoop at h
    split at h
    · rename_i x hx
      split at h
      · obtain ⟨h1, h2⟩ := ih _ _ _ h
        refine ⟨h1, ?_⟩
        intro y hy
        rcases List.mem_cons.1 hy with rfl | hy
        · have := h1 x (List.mem_of_find?_eq_some hx)
          have he := List.find?_some hx
          simp only [beq_iff_eq] at he
          rwa [he] at this
        · exact h2 y hy
      · simp at h
    · split at h
      · simp at h
      · obtain ⟨h1, h2⟩ := ih _ _ _ h
        refine ⟨fun x hx => h1 x (by simp [hx]), ?_⟩
        intro y hy
        rcases List.mem_cons.1 hy with rfl | hy
        · exact h1 (y.src, y.pat.pspan, id) (by simp)
        · exact h2 y hy

/-- A check file of literals: every pattern is a literal, and the literals of a group of `CHECK-DAG` lines
are distinct. -/
structure LitGood (ic : Bool) (ls : List (Line E)) : Prop where
  lit : ∀ l ∈ ls, l.kind ≠ .empty → l.pat = litPat ic l.src l.pat.pspan
  dags : ∀ a b c, ls = a ++ b ++ c → (∀ l ∈ b, l.kind = .dag) → (b.map Line.src).Nodup

/-- The meaning of a line of a check file of literals. -/
def litMean (ic : Bool) (l : Line E) : Meaning E := litMeaning ic l.src

theorem lit_contracts (ic : Bool) : Contracts (litSet ic) (litMean ic : Line E → Meaning E) (LitGood ic) where
  ofInfix := by
    intro a b c h
    refine ⟨fun l hl => h.lit l (by simp [hl]), ?_⟩
    rintro a' b' c' rfl hk
    exact h.dags (a ++ a') b' (c' ++ c) (by simp) hk
  pat := by
    intro l h hk
    rw [h.lit l (by simp) hk]
    exact litPat_sound _ _ _
  nots := by
    intro ls p h hk hp
    unfold litSet at hp
    simp only at hp
    obtain ⟨u, hu, h2⟩ := bind_ok.1 hp
    simp only [Except.ok.injEq, Option.map_eq_some_iff] at h2
    obtain ⟨r, rfl, rfl⟩ := h2
    have hm := (dedupe_mem ls _ _ _ hu).2
    intro b rg env m env' hrun hok
    obtain ⟨h3, h4⟩ := litAny_complete ic r b rg env m env' hrun hok
    refine ⟨h3, ?_⟩
    intro μ hμ
    obtain ⟨l, hl, rfl⟩ := List.mem_map.1 hμ
    obtain ⟨x, hx, hxe⟩ := List.mem_map.1 (hm l hl)
    have := h4 (litMeaning ic x.1) (List.mem_map.2 ⟨x, hx, rfl⟩)
    unfold litMean
    rw [← hxe]
    exact this
  dags := by
    intro ls d hls h hk hd
    unfold litSet at hd
    simp only at hd
    obtain ⟨u, hu, h2⟩ := bind_ok.1 hd
    simp only [Except.ok.injEq, Option.map_eq_some_iff] at h2
    obtain ⟨r, rfl, rfl⟩ := h2
    have hn := h.dags [] ls [] (by simp) hk
    obtain ⟨hr, hne⟩ := dedupe_nodup ls _ _ _ (by simpa using hn) hu
    simp only [List.map_nil, List.nil_append] at hr
    have hmap : ls.map (litMean ic) = r.map (fun x => (litMeaning ic x.1 : Meaning E)) := by
      have h1 : ls.map (litMean ic) = (ls.map Line.src).map (fun x => (litMeaning ic x : Meaning E)) := by
        rw [List.map_map]; rfl
      rw [h1, ← hr, List.map_map]; rfl
    rw [hmap]
    refine litDag_sound ic ?_ ?_
    · intro x hx
      have : x.1 ∈ ls.map Line.src := by rw [← hr]; exact List.mem_map.2 ⟨x, hx, rfl⟩
      obtain ⟨l, hl, hle⟩ := List.mem_map.1 this
      rw [← hle]; exact hne l hl
    · intro h0
      subst h0
      simp at hr
      exact hls hr

end Litcheck
