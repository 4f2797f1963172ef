import Verif.Spec.Check

/-! Groups of `CHECK-DAG` lines and the variables. -/

namespace Litcheck.Spec
variable {E : Type}

theorem Threads.snoc {ms : List (Meaning E)} {spans : List (Nat × Nat)} {b : Buf} {ps : List Nat} {p : Nat} {m : Meaning E}
    {sp : Nat × Nat} {env env1 env2 : E} (h : Threads ms spans b ps env env1) (h1 : ms[p]? = some m) (h2 : spans[p]? = some sp)
    (h3 : m env1 b sp.1 sp.2 env2) : Threads ms spans b (ps ++ [p]) env env2 := by
  induction h with
  | nil => exact .cons h1 h2 h3 .nil
  | cons a1 a2 a3 _ ih => exact .cons a1 a2 a3 (ih h3)

theorem Threads.keeps {ms : List (Meaning E)} {spans : List (Nat × Nat)} {b : Buf} {ps : List Nat} {env env' : E}
    (h : Threads ms spans b ps env env') (hb : ∀ m ∈ ms, BindsNothing m) : env' = env := by
  induction h with
  | nil => rfl
  | cons a1 _ a3 _ ih => rw [ih, hb _ (List.mem_of_getElem? a1) _ _ _ _ _ a3]

theorem DagThreaded.match_ {ms : List (Meaning E)} {b : Buf} {hi pos s e : Nat} {env env' : E} (h : DagThreaded ms b hi pos s e env env') :
    DagMatch ms b hi pos s e := by
  obtain ⟨spans, h1, h2, h3, h4, h5, _⟩ := h
  exact ⟨spans, h1, h2, h3, h4, h5⟩

theorem DagThreaded.keeps {ms : List (Meaning E)} {b : Buf} {hi pos s e : Nat} {env env' : E} (h : DagThreaded ms b hi pos s e env env')
    (hb : ∀ m ∈ ms, BindsNothing m) : env' = env := by
  obtain ⟨_, _, _, _, _, _, _, _, _, h⟩ := h
  exact h.keeps hb

theorem DagThreaded.mono {ms ms' : List (Meaning E)} {b : Buf} {hi pos s e : Nat} {env env' : E} (h : DagThreaded ms b hi pos s e env env')
    (hm : List.Forall₂ (fun m m' => ∀ env i j env', m env b i j env' → m' env b i j env') ms ms') : DagThreaded ms' b hi pos s e env env' := by
  obtain ⟨spans, h1, h2, h3, h4, h5, order, h6, h7, h8⟩ := h
  have hlen := hm.length_eq
  rw [List.forall₂_iff_get] at hm h1
  refine ⟨spans, ?_, h2, h3, h4, h5, order, hlen ▸ h6, h7, ?_⟩
  · rw [List.forall₂_iff_get]
    refine ⟨hlen ▸ h1.1, fun i g1 g2 => ?_⟩
    obtain ⟨a1, a2, a3, env, env', a4⟩ := h1.2 i (hlen ▸ g1) g2
    exact ⟨a1, a2, a3, env, env', hm.2 i (hlen ▸ g1) g1 _ _ _ _ a4⟩
  · clear h6 h7
    induction h8 with
    | nil => exact .nil
    | @cons p ps m sp env env1 env2 a1 a2 a3 _ ih =>
      obtain ⟨hp, rfl⟩ := List.getElem?_eq_some_iff.1 a1
      exact .cons (List.getElem?_eq_getElem (hlen ▸ hp)) a2 (hm.2 p hp (hlen ▸ hp) _ _ _ _ a3) ih

/-- If the variables do not matter to the lines, they are as they were. -/
theorem DagMatch.threaded {ms : List (Meaning E)} {b : Buf} {hi pos s e : Nat} (h : DagMatch ms b hi pos s e)
    (hk : ∀ m ∈ ms, ∀ env i j env', m env b i j env' → ∀ env2, m env2 b i j env2) (env : E) : DagThreaded ms b hi pos s e env env := by
  obtain ⟨spans, h1, h2, h3, h4, h5⟩ := h
  have hlen := h1.length_eq
  let key : Nat → Nat × Nat := fun p => spans[p]?.getD (0, 0)
  let le : Nat → Nat → Bool := fun p q => decide ((key p).1 < (key q).1 ∨ ((key p).1 = (key q).1 ∧ (key p).2 ≤ (key q).2))
  have hperm := List.mergeSort_perm (List.range ms.length) le
  rw [List.forall₂_iff_get] at h1
  refine ⟨spans, by rw [List.forall₂_iff_get]; exact h1, h2, h3, h4, h5, (List.range ms.length).mergeSort le, hperm, ?_, ?_⟩
  · have hs := List.pairwise_mergeSort (le := le)
      (by intro a b c hab hbc; simp only [le, decide_eq_true_eq] at hab hbc ⊢; omega)
      (by intro a b; simp only [le, Bool.or_eq_true, decide_eq_true_eq]; omega) (List.range ms.length)
    have hn : ((List.range ms.length).mergeSort le).Nodup := hperm.nodup_iff.2 List.nodup_range
    refine (List.pairwise_and_iff.2 ⟨hs, hn⟩).imp ?_
    rintro p q ⟨hle, hne⟩ sp sq hp hq
    simp only [le, key, hp, hq, Option.getD_some, decide_eq_true_eq] at hle
    obtain ⟨gp, rfl⟩ := List.getElem?_eq_some_iff.1 hp
    obtain ⟨gq, rfl⟩ := List.getElem?_eq_some_iff.1 hq
    have bp := (h1.2 p (hlen ▸ gp) gp).2.1
    have bq := (h1.2 q (hlen ▸ gq) gq).2.1
    simp only [List.get_eq_getElem] at bp bq
    rw [List.pairwise_iff_getElem] at h2
    have hd : Disjoint spans[p] spans[q] := by
      rcases Nat.lt_or_gt_of_ne hne with hlt | hlt
      · exact h2 p q gp gq hlt
      · exact (h2 q p gq gp hlt).symm
    unfold Disjoint at hd
    omega
  · have : ∀ ps : List Nat, (∀ p ∈ ps, p < ms.length) → Threads ms spans b ps env env := by
      intro ps
      induction ps with
      | nil => intro _; exact .nil
      | cons p ps ih =>
        intro hp
        have gp := hp p (by simp)
        obtain ⟨_, _, _, e1, e2, h6⟩ := h1.2 p gp (hlen ▸ gp)
        exact .cons (List.getElem?_eq_getElem gp) (List.getElem?_eq_getElem (hlen ▸ gp)) (hk _ (List.getElem_mem gp) _ _ _ _ h6 env)
          (ih fun x hx => hp x (by simp [hx]))
    exact this _ fun p hp => List.mem_range.1 ((hperm.mem_iff).1 hp)

end Litcheck.Spec
