import Verif.Proofs.ExactLiteral
import Verif.Props.Compile

/-!
# When a check file without `CHECK-DAG` compiles
-/

namespace Litcheck
open Spec
variable {E : Type}

/-- Every run of `CHECK-NOT` lines can be compiled. -/
def NotsCompile (sc : SetCompiler E) (ls : List (Line E)) : Prop :=
  ∀ x y z, ls = x ++ y ++ z → y ≠ [] → (∀ l ∈ y, l.kind = .not) → ∃ p, sc.nots y = .ok (some p)

theorem NotsCompile.suffix {sc : SetCompiler E} {x y : List (Line E)} (h : NotsCompile sc (x ++ y)) : NotsCompile sc y := by
  rintro a b c rfl
  exact h (x ++ a) b c (by simp)

theorem takeWhile_kind {ls : List (Line E)} : ∀ l ∈ ls.takeWhile Line.isNot, l.kind = .not := by
  intro l hl
  have := List.all_eq_true.1 (List.all_takeWhile (p := Line.isNot) (l := ls)) l hl
  simpa [Line.isNot] using this

theorem compileBody_total {sc : SetCompiler E} : ∀ (n : Nat) (ls : List (Line E)) (gs : List (Group E)) (p : Pending E),
    ls.length ≤ n → NotsCompile sc ls → (∀ l ∈ ls, l.kind ≠ .dag) → (p.isSome → ∃ l ls', ls = l :: ls' ∧ l.kind ≠ .not) →
    ∃ gs', compileBody sc n ls gs p = .ok (.ok (gs', none)) := by
  intro n
  induction n with
  | zero =>
    intro ls gs p hn hc hd hp
    cases ls with
    | nil =>
      cases p with
      | none => exact ⟨gs, by simp [compileBody]⟩
      | some x => obtain ⟨l, ls', h, _⟩ := hp rfl; simp at h
    | cons l ls => simp at hn
  | succ n ih =>
    intro ls gs p hn hc hd hp
    cases ls with
    | nil =>
      cases p with
      | none => exact ⟨gs, by simp [compileBody]⟩
      | some x => obtain ⟨l, ls', h, _⟩ := hp rfl; simp at h
    | cons l ls =>
      simp only [List.length_cons] at hn
      have hpos : ∀ (rest : List (Line E)) gs', rest <:+ ls → ∃ gs'', compileBody sc n rest gs' none = .ok (.ok (gs'', none)) := by
        rintro rest gs' ⟨pre, rfl⟩
        refine ih rest gs' none (by simp at hn; omega) (NotsCompile.suffix (x := l :: pre) (by simpa using hc)) ?_ (by simp)
        intro x hx
        exact hd x (by simp [hx])
      unfold compileBody
      cases hk : l.kind with
      | not =>
        have hpn : p.isSome = false := by
          cases p with
          | none => rfl
          | some x =>
            obtain ⟨l', ls', h, h2⟩ := hp rfl
            simp at h
            rw [← h.1] at h2
            exact absurd hk h2
        obtain ⟨m, hm⟩ := hc [] (l :: ls.takeWhile Line.isNot) (ls.dropWhile Line.isNot) (by simp [List.takeWhile_append_dropWhile]) (by simp) (by
          intro x hx
          rcases List.mem_cons.1 hx with rfl | hx
          · exact hk
          · exact takeWhile_kind x hx)
        simp only [hpn, hm, Bool.false_eq_true, if_false]
        split
        · rename_i hre
          cases hpl : (popLeft gs).2 with
          | none => exact hpos _ _ (List.dropWhile_suffix _)
          | some t => exact hpos _ _ (List.dropWhile_suffix _)
        · rename_i hre
          obtain ⟨pre, hpre⟩ := List.dropWhile_suffix Line.isNot (l := ls)
          have hlen : (ls.dropWhile Line.isNot).length ≤ n := by
            have := congrArg List.length hpre
            simp at this; omega
          refine ih _ _ _ hlen (NotsCompile.suffix (x := l :: pre) (by simpa [hpre] using hc)) ?_ ?_
          · intro x hx
            exact hd x (List.mem_cons_of_mem _ ((List.dropWhile_suffix _).subset hx))
          · intro _
            cases hdw : ls.dropWhile Line.isNot with
            | nil => rw [hdw] at hre; simp at hre
            | cons y ys =>
              refine ⟨y, ys, rfl, ?_⟩
              have h2 := List.head?_dropWhile_not Line.isNot ls
              rw [hdw] at h2
              simpa [Line.isNot] using h2
      | dag => exact absurd hk (hd l (by simp))
      | count k => exact hpos _ _ (List.suffix_refl _)
      | plain => exact hpos _ _ (List.dropWhile_suffix _)
      | next => exact hpos _ _ (List.dropWhile_suffix _)
      | same => exact hpos _ _ (List.dropWhile_suffix _)
      | empty => exact hpos _ _ (List.dropWhile_suffix _)
      | label => exact hpos _ _ (List.dropWhile_suffix _)

theorem compileBlocks_total {sc : SetCompiler E} : ∀ (bs : List (LBlock E)),
    (∀ x ∈ bs, NotsCompile sc x.2) → (∀ x ∈ bs, ∀ l ∈ x.2, l.kind ≠ .dag) → ∃ prog, compileBlocks sc bs = .ok (.ok prog) := by
  intro bs
  induction bs with
  | nil => intro _ _; exact ⟨[], rfl⟩
  | cons x bs ih =>
    intro h1 h2
    obtain ⟨prog, hp⟩ := ih (fun y hy => h1 y (by simp [hy])) (fun y hy => h2 y (by simp [hy]))
    obtain ⟨gs, hg⟩ := compileBody_total x.2.length x.2 [] none (Nat.le_refl _) (h1 x (by simp)) (h2 x (by simp)) (by simp)
    obtain ⟨lab, body⟩ := x
    simp only [compileBlocks, hg, hp, bind, Except.bind]
    cases lab with
    | none => exact ⟨_, rfl⟩
    | some l => exact ⟨_, rfl⟩

/-- A check file without `CHECK-DAG` whose runs of `CHECK-NOT` compile is compiled, unless it is empty or a
relative check comes first. -/
theorem compile_total {sc : SetCompiler E} {lines : List (Line E)}
    (hn : NotsCompile sc lines) (hd : ∀ l ∈ lines, l.kind ≠ .dag) :
    (∃ prog, compile sc none lines = .ok (.ok prog)) ↔ lines ≠ [] ∧ ¬ RelativeFirst lines := by
  have h17 := C17_relative_first (sc := sc) (imp := none) (by simp) lines
  constructor
  · rintro ⟨prog, hp⟩
    refine ⟨?_, ?_⟩
    · rintro rfl
      simp [compile] at hp
    · rw [← h17, hp]; simp
  · rintro ⟨h1, h2⟩
    rw [← h17] at h2
    unfold compile at h2 ⊢
    rw [if_neg (by simp [h1])] at h2 ⊢
    have hloop := loop_error (imp := none) (by simp) lines [] []
    cases hc : compileLines none lines with
    | error e =>
      have he := hloop.1 ⟨e, hc⟩
      unfold compileLines at hc
      rw [show ((none : Option (Line E)).toList) = [] from rfl, he] at hc
      simp only [Except.error.injEq] at hc
      subst hc
      unfold compileLines at h2
      rw [show ((none : Option (Line E)).toList) = [] from rfl, he] at h2
      simp at h2
    | ok blocks =>
      have hb := compileLines_eq hc
      obtain ⟨⟨t, ht⟩, h3⟩ := splitLabels_infix lines
      have hmem : ∀ x ∈ blocks, ∃ s u, lines = s ++ x.2 ++ u := by
        intro x hx
        rw [hb, headLines_none] at hx
        rcases List.mem_append.1 hx with hx | hx
        · unfold headBlocks at hx
          split at hx
          · simp at hx
          · simp at hx; subst hx
            exact ⟨[], t, by simpa using ht⟩
        · obtain ⟨y, hy, rfl⟩ := List.mem_map.1 hx
          obtain ⟨s, u, h4⟩ := h3 y hy
          exact ⟨s ++ [y.1], u, by simpa using h4⟩
      apply compileBlocks_total
      · intro x hx
        obtain ⟨s, u, h4⟩ := hmem x hx
        rintro a y c hy
        exact hn (s ++ a) y (c ++ u) (by rw [h4, hy]; simp)
      · intro x hx l hl
        obtain ⟨s, u, h4⟩ := hmem x hx
        exact hd l (by rw [h4]; simp [hl])

/-- Distinct literals can be compiled. -/
theorem dedupe_total (ls : List (Line E)) : ∀ (id : Nat) (u : List (Buf × Nat × Nat)),
    (u.map Prod.fst ++ ls.map Line.src).Nodup → (∀ l ∈ ls, l.src ≠ []) → ∃ r, dedupeLoop ls id u = .ok (some r) := by
  induction ls with
  | nil => intro id u _ _; exact ⟨_, rfl⟩
  | cons l ls ih =>
    intro id u hn hne
    unfold dedupeLoop
    have hnot : u.find? (fun x => x.1 == l.src) = none := by
      rw [List.find?_eq_none]
      intro x hx hxe
      simp only [beq_iff_eq] at hxe
      rw [List.nodup_append] at hn
      exact hn.2.2 x.1 (List.mem_map.2 ⟨x, hx, rfl⟩) l.src (by simp) hxe
    rw [hnot]
    simp only
    have := hne l (by simp)
    rw [if_neg (by simpa using this)]
    exact ih _ _ (by simpa using hn) (fun x hx => hne x (by simp [hx]))

end Litcheck
