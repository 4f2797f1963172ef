import Verif.Spec.Matching
import Verif.Proofs.Placement
import Verif.Proofs.EndToEnd
import Verif.Model.Filecheck

/-!
# A satisfied input has a layout
-/

namespace Litcheck
open Spec
variable {E : Type}

/-- The layout of consecutive blocks: the directives of block `k` are `dss[k]`, its label (for `k ≥ 1`) is
`ms[k - 1]`. -/
structure Laid (b : Buf) (enter : E → E) (env0 : E) (dss : List (List (Directive E))) (ms : List (Meaning E))
    (region lab : Nat → Nat × Nat) (place : Nat → Nat → Nat × Nat) (envs : Nat → Nat → E) : Prop where
  ok : ∀ k ds, dss[k]? = some ds → (region k).1 ≤ (region k).2 ∧ (region k).2 ≤ b.length
  placed : ∀ k ds, dss[k]? = some ds → ∃ env, Placed b (region k).1 (region k).2 ds (enter env) (place k) (envs k)
  label : ∀ k m, ms[k]? = some m → LabelAt m env0 b (region k).1 (lab (k + 1)).1 (lab (k + 1)).2 ∧
    LineEnd b (lab (k + 1)).1 (region (k + 1)).1 ∧ PrevLineEnd b (lab (k + 1)).1 (region k).2
  last : (region ms.length).2 = b.length
  chain : ∀ k ds ds', dss[k]? = some ds → dss[k + 1]? = some ds' → envs (k + 1) 0 = enter (envs k ds.length)

theorem Spec.PrevLineEnd.le' {b : Buf} {s e : Nat} (h : PrevLineEnd b s e) : e ≤ s := by
  rcases h with ⟨h, _⟩ | ⟨_, h⟩ <;> omega

theorem Spec.Blocks.laid {b : Buf} {enter : E → E} {env0 : E} {lo : Nat} {env : E} {ds : List (Directive E)}
    {rest : List (Meaning E × List (Directive E))} (h : Blocks b enter env0 lo env ds rest) (hlo : lo ≤ b.length) :
    ∃ region lab place envs, (region 0).1 = lo ∧ (∃ ev, Placed b lo (region 0).2 ds (enter env) (place 0) ev ∧ envs 0 = ev) ∧
      Laid b enter env0 (ds :: rest.map Prod.snd) (rest.map Prod.fst) region lab place envs := by
  induction h with
  | @last lo env ds pos' env' hr =>
    obtain ⟨place, envs, hp, _⟩ := hr.placed hlo
    refine ⟨fun _ => (lo, b.length), fun _ => (0, 0), fun _ => place, fun _ => envs, rfl, ⟨envs, hp, rfl⟩, ⟨?_, ?_, ?_, ?_, ?_⟩⟩
    · intro k ds' hk; exact ⟨hlo, Nat.le_refl _⟩
    · intro k ds' hk
      cases k with
      | zero => simp at hk; subst hk; exact ⟨env, hp⟩
      | succ k => simp at hk
    · intro k m hk; simp at hk
    · rfl
    · intro k ds ds' _ hk; simp at hk
  | @label lo env ds m ds' rest s e hi eol pos' env' hl hpe hle hr hle2 hb ih =>
    obtain ⟨l1, l2, l3, l4, l5⟩ := hl
    have heol := hle2.le (by omega : s ≤ b.length)
    obtain ⟨region, lab, place, envs, h0, ⟨ev', hpl', hev'⟩, hla⟩ := ih heol.2
    have hhi : hi ≤ b.length := by have := hpe.le'; omega
    obtain ⟨pl, ev, hp, hend, _⟩ := hr.placed hle
    refine ⟨glue 1 (fun _ => (lo, hi)) region, glue 2 (fun _ => (s, e)) (fun i => lab (i + 1)), glue 1 (fun _ => pl) place,
      glue 1 (fun _ => ev) envs, rfl, ⟨ev, hp, rfl⟩, ⟨?_, ?_, ?_, ?_, ?_⟩⟩
    · intro k ds'' hk
      cases k with
      | zero => exact ⟨hle, hhi⟩
      | succ k => rw [Nat.add_comm, glue_add]; exact hla.ok k ds'' (by simpa using hk)
    · intro k ds'' hk
      cases k with
      | zero => simp at hk; subst hk; exact ⟨env, hp⟩
      | succ k =>
        rw [Nat.add_comm, glue_add, glue_add, glue_add]
        exact hla.placed k ds'' (by simpa using hk)
    · intro k m' hk
      cases k with
      | zero =>
        simp at hk; subst hk
        refine ⟨⟨l1, l2, l3, l4, l5⟩, ?_, hpe⟩
        show LineEnd b s (region 0).1
        rw [h0]; exact hle2
      | succ k =>
        have := hla.label k m' (by simpa using hk)
        have e1 : glue 1 (fun _ => (lo, hi)) region (k + 1) = region k := by rw [Nat.add_comm]; exact glue_add
        have e2 : glue 1 (fun _ => (lo, hi)) region (k + 1 + 1) = region (k + 1) := by
          rw [Nat.add_comm]; exact glue_add
        have e3 : glue 2 (fun _ => (s, e)) (fun i => lab (i + 1)) (k + 1 + 1) = lab (k + 1) := by
          rw [show k + 1 + 1 = 2 + k by omega]; exact glue_add
        rw [e1, e2, e3]; exact this
    · have := hla.last
      simp only [List.map_cons, List.length_cons]
      rw [show ((rest.map Prod.fst).length + 1) = 1 + (rest.map Prod.fst).length by omega, glue_add]
      exact this
    · intro k d1 d2 hd1 hd2
      cases k with
      | zero =>
        simp at hd1; subst hd1
        show envs 0 0 = enter (ev ds.length)
        rw [hev', hpl'.start, hend]
      | succ k =>
        have := hla.chain k d1 d2 (by simpa using hd1) (by simpa using hd2)
        have e1 : glue 1 (fun _ => ev) envs (k + 1 + 1) = envs (k + 1) := by rw [Nat.add_comm]; exact glue_add
        have e2 : glue 1 (fun _ => ev) envs (k + 1) = envs k := by rw [Nat.add_comm]; exact glue_add
        rw [e1, e2]; exact this

theorem Laid.step {b : Buf} {enter : E → E} {env0 : E} {dss : List (List (Directive E))} {ms : List (Meaning E)}
    {region lab : Nat → Nat × Nat} {place : Nat → Nat → Nat × Nat} {envs : Nat → Nat → E}
    (h : Laid b enter env0 dss ms region lab place envs) {k : Nat} (hk : k < ms.length) :
    (region k).2 ≤ (region (k + 1)).1 := by
  obtain ⟨h1, h2, h3⟩ := h.label k ms[k] (by simp [hk])
  have := h3.le'
  have := h2.le (by have := h1.2.1; have := h1.2.2.1; omega)
  omega

theorem Laid.apart {b : Buf} {enter : E → E} {env0 : E} {dss : List (List (Directive E))} {ms : List (Meaning E)}
    {region lab : Nat → Nat × Nat} {place : Nat → Nat → Nat × Nat} {envs : Nat → Nat → E}
    (h : Laid b enter env0 dss ms region lab place envs) (hlen : dss.length = ms.length + 1) {k k' : Nat} (hk : k < k')
    (hk' : k' < dss.length) : (region k).2 ≤ (region k').1 := by
  induction k' with
  | zero => omega
  | succ k' ih =>
    have h1 := h.step (k := k') (by omega)
    by_cases hkk : k = k'
    · subst hkk; exact h1
    · have h2 := ih (by omega) (by omega)
      have h3 := h.ok k' dss[k'] (by simp [show k' < dss.length by omega])
      omega

/-- The layout of a whole check file. -/
structure FileLaid (mean : Line E → Meaning E) (b : Buf) (enter : E → E) (env0 : E)
    (blocks : List (Option (Line E) × List (Line E)))
    (region lab : Nat → Nat × Nat) (place : Nat → Nat → Nat × Nat) (envs : Nat → Nat → E) : Prop where
  ok : ∀ k blk, blocks[k]? = some blk → (region k).1 ≤ (region k).2 ∧ (region k).2 ≤ b.length
  apart : ∀ k k', k < k' → k' < blocks.length → (region k).2 ≤ (region k').1
  placed : ∀ k blk, blocks[k]? = some blk →
    ∃ env, Placed b (region k).1 (region k).2 (blk.2.map (Line.directive mean)) (enter env) (place k) (envs k)
  label : ∀ k l ls, blocks[k]? = some (some l, ls) → LabelAt (mean l) env0 b 0 (lab k).1 (lab k).2 ∧
    LineEnd b (lab k).1 (region k).1
  prev : ∀ k l ls, blocks[k + 1]? = some (some l, ls) → PrevLineEnd b (lab (k + 1)).1 (region k).2 ∧
    (region k).1 ≤ (lab (k + 1)).1
  first : ∀ ls, blocks[0]? = some (none, ls) → (region 0).1 = 0
  last : ∀ k, k + 1 = blocks.length → (region k).2 = b.length
  entry : envs 0 0 = enter env0
  chain : ∀ k blk blk', blocks[k]? = some blk → blocks[k + 1]? = some blk' → envs (k + 1) 0 = enter (envs k blk.2.length)

theorem satisfied_laid {mean : Line E → Meaning E} {b : Buf} {enter : E → E} {env0 : E} {imp : Option (Line E)}
    {lines : List (Line E)}
    (h : Satisfied b enter env0 ((headLines imp lines).map (Line.directive mean))
      ((splitLabels lines).2.map (fun x => (mean x.1, (imp.toList ++ x.2).map (Line.directive mean))))) :
    ∃ region lab place envs, FileLaid mean b enter env0 (fileBlocks imp lines) region lab place envs := by
  unfold fileBlocks
  generalize (splitLabels lines).2 = lb at *
  generalize headLines imp lines = hd at *
  generalize hD : hd.map (Line.directive mean) = D at *
  generalize hR : lb.map (fun x => (mean x.1, (imp.toList ++ x.2).map (Line.directive mean))) = R at *
  cases h with
  | head hne hb =>
    have hhd : headBlocks hd = [(none, hd)] := by
      cases hd with
      | nil => simp at hD; exact absurd hD hne
      | cons a as => rfl
    obtain ⟨region, lab, place, envs, h0, ⟨ev, hpl, hev⟩, hla⟩ := hb.laid (Nat.zero_le _)
    refine ⟨region, lab, place, envs, ?_⟩
    rw [hhd]
    have hlenR : R.length = lb.length := by rw [← hR]; simp
    have hget : ∀ (k : Nat) (blk : Option (Line E) × List (Line E)), ([(none, hd)] ++ lb.map (fun x => (some x.1, imp.toList ++ x.2)))[k]? = some blk →
        (D :: R.map Prod.snd)[k]? = some (blk.2.map (Line.directive mean)) := by
      intro k blk hk
      cases k with
      | zero => simp at hk; subst hk; simp [hD]
      | succ k =>
        simp only [List.singleton_append, List.getElem?_cons_succ, List.getElem?_map, Option.map_eq_some_iff] at hk
        obtain ⟨x, hx, rfl⟩ := hk
        simp [← hR, hx]
    have hgetl : ∀ k l ls, ([((none : Option (Line E)), hd)] ++ lb.map (fun x => (some x.1, imp.toList ++ x.2)))[k + 1]? = some (some l, ls) →
        (R.map Prod.fst)[k]? = some (mean l) := by
      intro k l ls hk
      simp only [List.singleton_append, List.getElem?_cons_succ, List.getElem?_map, Option.map_eq_some_iff] at hk
      obtain ⟨x, hx, hx2⟩ := hk
      simp only [Prod.mk.injEq, Option.some.injEq] at hx2
      simp [← hR, hx, hx2.1]
    refine ⟨?_, ?_, ?_, ?_, ?_, ?_, ?_, ?_, ?_⟩
    · intro k blk hk; exact hla.ok k _ (hget k blk hk)
    · intro k k' h1 h2
      refine hla.apart (by simp) h1 ?_
      simp at h2 ⊢; omega
    · intro k blk hk; exact hla.placed k _ (hget k blk hk)
    · intro k l ls hk
      cases k with
      | zero => simp at hk
      | succ k =>
        obtain ⟨h1, h2, h3⟩ := hla.label k _ (hgetl k l ls hk)
        exact ⟨⟨Nat.zero_le _, h1.2⟩, h2⟩
    · intro k l ls hk
      obtain ⟨h1, h2, h3⟩ := hla.label k _ (hgetl k l ls hk)
      exact ⟨h3, h1.1⟩
    · intro ls _; exact h0
    · intro k hk
      have h3 := hla.last
      have : k = R.length := by simp at hk; omega
      rw [this]; simpa using h3
    · rw [hev, hpl.start]
    · intro k blk blk' hk hk'
      have := hla.chain k _ _ (hget k blk hk) (hget (k + 1) blk' hk')
      rwa [List.length_map] at this
  | @noHead m ds rest s e eol hl hle hb =>
    have hhd : headBlocks hd = [] := by
      cases hd with
      | nil => rfl
      | cons a as => simp at hD
    have heol := hle.le (by have := hl.2.1; have := hl.2.2.1; omega)
    obtain ⟨region, lab, place, envs, h0, ⟨ev, hpl, hev⟩, hla⟩ := hb.laid heol.2
    cases lb with
    | nil => simp at hR
    | cons x xs =>
      simp only [List.map_cons, List.cons.injEq, Prod.mk.injEq] at hR
      obtain ⟨⟨hm, hds⟩, hrest⟩ := hR
      have hlenR : rest.length = xs.length := by rw [← hrest]; simp
      have hget : ∀ (k : Nat) (blk : Option (Line E) × List (Line E)), (([] : List (Option (Line E) × List (Line E))) ++ (x :: xs).map (fun x => (some x.1, imp.toList ++ x.2)))[k]? = some blk →
          (ds :: rest.map Prod.snd)[k]? = some (blk.2.map (Line.directive mean)) := by
        intro k blk hk
        cases k with
        | zero =>
          simp only [List.nil_append, List.map_cons, List.getElem?_cons_zero, Option.some.injEq] at hk
          subst hk; simp only [List.getElem?_cons_zero, Option.some.injEq]; exact hds.symm
        | succ k =>
          simp only [List.nil_append, List.map_cons, List.getElem?_cons_succ, List.getElem?_map, Option.map_eq_some_iff] at hk
          obtain ⟨x, hx, rfl⟩ := hk
          simp [← hrest, hx]
      have hgetl : ∀ k l ls, (([] : List (Option (Line E) × List (Line E))) ++ (x :: xs).map (fun x => (some x.1, imp.toList ++ x.2)))[k + 1]? = some (some l, ls) →
          (rest.map Prod.fst)[k]? = some (mean l) := by
        intro k l ls hk
        simp only [List.nil_append, List.map_cons, List.getElem?_cons_succ, List.getElem?_map, Option.map_eq_some_iff] at hk
        obtain ⟨x, hx, hx2⟩ := hk
        simp only [Prod.mk.injEq, Option.some.injEq] at hx2
        simp [← hrest, hx, hx2.1]
      refine ⟨region, fun k => if k = 0 then (s, e) else lab k, place, envs, ?_⟩
      rw [hhd]
      refine ⟨?_, ?_, ?_, ?_, ?_, ?_, ?_, ?_, ?_⟩
      · intro k blk hk; exact hla.ok k _ (hget k blk hk)
      · intro k k' h1 h2
        refine hla.apart (by simp) h1 ?_
        simp at h2 ⊢; omega
      · intro k blk hk; exact hla.placed k _ (hget k blk hk)
      · intro k l ls hk
        cases k with
        | zero =>
          simp only [List.nil_append, List.map_cons, List.getElem?_cons_zero, Option.some.injEq, Prod.mk.injEq] at hk
          rw [← hk.1, hm]
          exact ⟨hl, by rw [h0]; exact hle⟩
        | succ k =>
          obtain ⟨h1, h2, h3⟩ := hla.label k _ (hgetl k l ls hk)
          exact ⟨⟨Nat.zero_le _, h1.2⟩, h2⟩
      · intro k l ls hk
        obtain ⟨h1, h2, h3⟩ := hla.label k _ (hgetl k l ls hk)
        exact ⟨h3, h1.1⟩
      · intro ls hk; simp at hk
      · intro k hk
        have h3 := hla.last
        have : k = rest.length := by simp at hk; omega
        rw [this]; simpa using h3
      · rw [hev, hpl.start]
      · intro k blk blk' hk hk'
        have := hla.chain k _ _ (hget k blk hk) (hget (k + 1) blk' hk')
        rwa [List.length_map] at this

theorem Spec.Chain.mono {m : Meaning E} {b : Buf} {hi hi' n pos : Nat} {env env' : E} {s e : Nat} (h : Chain m b hi n pos env s e env')
    (hh : hi ≤ hi') : ∀ pos', pos' ≤ pos → Chain m b hi' n pos' env s e env' := by
  induction h with
  | one h1 h2 h3 h4 => intro p hp; exact .one (by omega) h2 (by omega) h4
  | more h1 h2 h3 h4 h5 ih => intro p hp; exact .more (by omega) h2 (by omega) h4 (ih _ (Nat.le_refl _))

theorem pos_directive {mean : Line E → Meaning E} {ls : List (Line E)} {i : Nat} :
    Positive (ls.map (Line.directive mean)) i ↔ Pos ls i := by
  unfold Positive Pos
  simp only [List.getElem?_map, Option.map_eq_some_iff]
  constructor
  · rintro ⟨d, ⟨l, h1, rfl⟩, h2⟩; exact ⟨l, h1, h2⟩
  · rintro ⟨l, h1, h2⟩; exact ⟨_, ⟨l, h1, rfl⟩, h2⟩

theorem dagRun_directive {mean : Line E → Meaning E} {ls : List (Line E)} {i j : Nat} :
    SameDagGroup (ls.map (Line.directive mean)) i j ↔ DagRun ls i j := by
  unfold SameDagGroup DagRun
  simp only [List.getElem?_map, Option.map_eq_some_iff]
  constructor
  · intro h k h1 h2
    obtain ⟨d, ⟨l, h3, rfl⟩, h4⟩ := h k h1 h2
    exact ⟨l, h3, h4⟩
  · intro h k h1 h2
    obtain ⟨l, h3, h4⟩ := h k h1 h2
    exact ⟨_, ⟨l, h3, rfl⟩, h4⟩

theorem FileLaid.dags {mean : Line E → Meaning E} {b : Buf} {enter : E → E} {env0 : E} {blocks : List (Option (Line E) × List (Line E))}
    {region lab : Nat → Nat × Nat} {place : Nat → Nat → Nat × Nat} {envs : Nat → Nat → E}
    (hl : FileLaid mean b enter env0 blocks region lab place envs) (k : Nat) (blk : Option (Line E) × List (Line E)) (i : Nat) (l : Line E)
    (hk : blocks[k]? = some blk) (hi : blk.2[i]? = some l) (hn : l.kind = .dag)
    (hb : ∀ j l', blk.2[j]? = some l' → SameDags blk.2 i j → BindsNothing (mean l')) : envs k (i + 1) = envs k i := by
  obtain ⟨e0, hpl⟩ := hl.placed k blk hk
  refine hpl.dags i (l.directive mean) (by simp [hi]) hn fun j d hj ht => ?_
  rw [List.getElem?_map, Option.map_eq_some_iff] at hj
  obtain ⟨l', h1, rfl⟩ := hj
  refine hb j l' h1 ?_
  rcases ht with ⟨h2, h3⟩ | ⟨h2, h3⟩
  · exact .inl ⟨h2, dagRun_directive.1 h3⟩
  · exact .inr ⟨h2, dagRun_directive.1 h3⟩

theorem wholeDags_directive {mean : Line E → Meaning E} {ls : List (Line E)} {i n : Nat} (h : WholeGroup ls i n) :
    WholeDags (ls.map (Line.directive mean)) i n := by
  obtain ⟨h1, h2, h3⟩ := h
  refine ⟨fun k hk => ?_, fun j d hj hd => ?_, fun d hd => ?_⟩
  · obtain ⟨l, h4, h5⟩ := h1 k hk
    exact ⟨l.directive mean, by simp [h4], h5⟩
  · rw [List.getElem?_map, Option.map_eq_some_iff] at hd
    obtain ⟨l, h4, rfl⟩ := hd
    exact h2 j l hj h4
  · rw [List.getElem?_map, Option.map_eq_some_iff] at hd
    obtain ⟨l, h4, rfl⟩ := hd
    exact h3 l h4

theorem FileLaid.groups {mean : Line E → Meaning E} {b : Buf} {enter : E → E} {env0 : E} {blocks : List (Option (Line E) × List (Line E))}
    {region lab : Nat → Nat × Nat} {place : Nat → Nat → Nat × Nat} {envs : Nat → Nat → E}
    (hl : FileLaid mean b enter env0 blocks region lab place envs) (k : Nat) (blk : Option (Line E) × List (Line E)) (i n : Nat)
    (hk : blocks[k]? = some blk) (hw : WholeGroup blk.2 i n) : ∃ order : List Nat, order.Perm (List.range' i n) ∧
      order.Pairwise (fun p q => (place k p).2 ≤ (place k q).1) ∧
      InTurn (blk.2.map mean) b (place k) order (envs k i) (envs k (i + n)) := by
  obtain ⟨e0, hpl⟩ := hl.placed k blk hk
  have := hpl.groups i n (wholeDags_directive hw)
  rwa [List.map_map, show (Directive.mean ∘ Line.directive mean) = mean from rfl] at this

theorem endBefore_directive {mean : Line E → Meaning E} {ls : List (Line E)} {place : Nat → Nat × Nat} {lo i p : Nat}
    (h : EndBefore ls place lo i p) : PrevEnd (ls.map (Line.directive mean)) place lo i p := by
  obtain ⟨h1, h2, h3⟩ := h
  refine ⟨h1, fun j hj hp => h2 j hj (pos_directive.1 hp), ?_⟩
  rcases h3 with h | ⟨j, h4, h5, h6⟩
  · exact .inl h
  · exact .inr ⟨j, h4, pos_directive.2 h5, h6⟩

theorem startAfter_directive {mean : Line E → Meaning E} {ls : List (Line E)} {place : Nat → Nat × Nat} {hi i n : Nat}
    (h : StartAfter ls place hi i n) : NextStart (ls.map (Line.directive mean)) place hi i n := by
  obtain ⟨h1, h2, h3⟩ := h
  refine ⟨h1, fun j hj hp => h2 j hj (pos_directive.1 hp), ?_⟩
  rcases h3 with h | ⟨j, h4, h5, h6⟩
  · exact .inl h
  · exact .inr ⟨j, h4, pos_directive.2 h5, h6⟩

/-- There is always an end of what was matched before a line. -/
theorem endBefore_exists (ls : List (Line E)) (place : Nat → Nat × Nat) (lo i : Nat) : ∃ p, EndBefore ls place lo i p := by
  classical
  induction i with
  | zero => exact ⟨lo, Nat.le_refl _, by intro j hj; omega, .inl rfl⟩
  | succ i ih =>
    obtain ⟨p, h1, h2, h3⟩ := ih
    by_cases hp : Pos ls i
    · by_cases hpp : (place i).2 ≤ p
      · refine ⟨p, h1, fun j hj hpj => ?_, ?_⟩
        · by_cases hji : j = i
          · subst hji; exact hpp
          · exact h2 j (by omega) hpj
        · rcases h3 with h | ⟨j, h4, h5, h6⟩
          · exact .inl h
          · exact .inr ⟨j, by omega, h5, h6⟩
      · refine ⟨(place i).2, by omega, fun j hj hpj => ?_, .inr ⟨i, by omega, hp, rfl⟩⟩
        by_cases hji : j = i
        · subst hji; exact Nat.le_refl _
        · have := h2 j (by omega) hpj; omega
    · refine ⟨p, h1, fun j hj hpj => ?_, ?_⟩
      · by_cases hji : j = i
        · subst hji; exact absurd hpj hp
        · exact h2 j (by omega) hpj
      · rcases h3 with h | ⟨j, h4, h5, h6⟩
        · exact .inl h
        · exact .inr ⟨j, by omega, h5, h6⟩

theorem FileLaid.matching {mean : Line E → Meaning E} {b : Buf} {enter : E → E} {env0 : E}
    {blocks : List (Option (Line E) × List (Line E))}
    {region lab : Nat → Nat × Nat} {place : Nat → Nat → Nat × Nat} {envs : Nat → Nat → E}
    (h : FileLaid mean b enter env0 blocks region lab place envs) : Matching mean b blocks region place := by
  refine ⟨h.ok, h.apart, ?_, ?_⟩
  · intro k blk i hk hp
    obtain ⟨env, hpl⟩ := h.placed k blk hk
    exact hpl.inside i (pos_directive.2 hp)
  · intro k blk i l hk hl hn he
    obtain ⟨env, hpl⟩ := h.placed k blk hk
    obtain ⟨p, hp⟩ := endBefore_exists blk.2 (place k) (region k).1 i
    have hf := hpl.fits i (l.directive mean) p (by simp [hl]) (endBefore_directive hp)
    unfold Fits Line.directive at hf
    unfold Hit
    dsimp only at hf
    generalize l.kind = kk at *
    cases kk <;> simp only at hf ⊢
    · exact ⟨_, _, hf⟩
    · exact ⟨_, _, hf.1⟩
    · exact ⟨_, _, hf.1⟩
    · exact absurd rfl hn
    · exact hf
    · exact ⟨_, _, hf.mono (h.ok k blk hk).2 _ (Nat.zero_le _)⟩
    · exact absurd rfl he

end Litcheck
