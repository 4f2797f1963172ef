import Verif.Proofs.LinelessCompile
import Verif.Proofs.TameInput

/-!
# A FileCheck run ends without a panic
-/

namespace Litcheck
open Spec
variable {E : Type}

theorem compileBlocks_tame {sc : SetCompiler E} : ∀ (ys : List (Line E × List (Line E))), (∀ x ∈ ys, x.1.pat.OneLine) →
    (∀ pre x post, ys = pre ++ x :: post → BlockTame sc post.isEmpty true x.2) →
    ∃ r, compileBlocks sc (ys.map fun x => (some x.1, x.2)) = .ok r ∧ ∀ ss, r = .ok ss →
      ∃ cs : List (Pat E × List (Group E)), ss = cs.map blockSection ∧ cs.isEmpty = ys.isEmpty ∧ (∀ x ∈ cs, x.1.OneLine) ∧
        ∀ pre x post, cs = pre ++ x :: post → ∀ g ∈ x.2, g.Harmless post.isEmpty true
  | [], _, _ => ⟨.ok [], rfl, fun ss h => ⟨[], by simp at h; simp [h], rfl, by simp, by simp⟩⟩
  | y :: ys, hl, hb => by
    obtain ⟨r, hr, hr2⟩ := compileBody_tame (hb [] y ys rfl) y.2.length y.2 [] none [] rfl (Nat.le_refl _) (by simp)
      (fun _ t ht => by simp [popLeft] at ht)
    obtain ⟨r', hr', hr2'⟩ := compileBlocks_tame ys (fun x hx => hl x (by simp [hx]))
      (fun pre x post he => hb (y :: pre) x post (by rw [he]; rfl))
    simp only [List.map_cons, compileBlocks, hr, bind, Except.bind]
    rcases r with e | ⟨gs, p⟩
    · exact ⟨_, rfl, by simp⟩
    · obtain ⟨rfl, hgs⟩ := hr2 gs p rfl
      simp only [hr']
      rcases r' with e | rest
      · exact ⟨_, rfl, by simp⟩
      · obtain ⟨cs, k1, k2, k3, k4⟩ := hr2' rest rfl
        refine ⟨_, rfl, ?_⟩
        intro ss hss
        simp only [Except.ok.injEq] at hss
        refine ⟨(y.1.pat, gs) :: cs, by rw [← hss, k1]; rfl, rfl, ?_, ?_⟩
        · intro x hx
          rcases List.mem_cons.1 hx with rfl | hx
          · exact hl y (by simp)
          · exact k3 x hx
        · intro pre x post he
          cases pre with
          | nil =>
            simp only [List.nil_append, List.cons.injEq] at he
            obtain ⟨rfl, rfl⟩ := he
            rw [k2]; exact hgs
          | cons z pre =>
            simp only [List.cons_append, List.cons.injEq] at he
            exact k4 pre x post he.2

/-- What is asked of a check file. -/
structure FileTame (sc : SetCompiler E) (imp : Option (Line E)) (lines : List (Line E)) : Prop where
  labels : ∀ l ∈ lines, l.kind = .label → l.pat.OneLine
  head : BlockTame sc (splitLabels lines).2.isEmpty (splitLabels lines).2.isEmpty (headLines imp lines)
  blocks : ∀ pre x post, (splitLabels lines).2 = pre ++ x :: post → BlockTame sc post.isEmpty true (imp.toList ++ x.2)

theorem verify_total {sc : SetCompiler E} {o : CheckOpts} {clear : E → E} {imp : Option (Line E)} {lines : List (Line E)}
    (h : FileTame sc imp lines) (himp : ∀ l ∈ imp, l.kind = .not) (env : E) {b : Buf} (hlf : Readable (lines.map Line.kind) b) : ∃ v, verify sc o clear imp lines env b = .ok v := by
  have hmap : (splitLabels lines).2.map (fun x => (some x.1, imp.toList ++ x.2)) =
      ((splitLabels lines).2.map (fun x => (x.1, imp.toList ++ x.2))).map (fun x => (some x.1, x.2)) := by
    rw [List.map_map]; rfl
  obtain ⟨r, hr, hr2⟩ := compileBlocks_tame (sc := sc) ((splitLabels lines).2.map (fun x => (x.1, imp.toList ++ x.2)))
    (by
      intro x hx
      obtain ⟨y, hy, rfl⟩ := List.mem_map.1 hx
      have := (splitLabels_mem (l := y.1)).2 y hy
      exact h.labels _ this.1.1 this.1.2)
    (by
      intro pre x post he
      obtain ⟨l1, l2, h1, h2, h3⟩ := List.map_eq_append_iff.1 he
      obtain ⟨a, l3, rfl, h4, h5⟩ := List.map_eq_cons_iff.1 h3
      have := h.blocks l1 a l3 h1
      rw [← h4, ← h5]
      simpa using this)
  rw [← hmap] at hr
  have hc : ∃ r, compile sc imp lines = .ok r ∧ ∀ prog, r = .ok prog → (LFMode b ∨ Lineless prog) → ∃ tr, checkInput o clear prog env b = .ok tr := by
    unfold compile
    split
    · exact ⟨_, rfl, by simp⟩
    · split
      · exact ⟨_, rfl, by simp⟩
      · rename_i blocks hbl
        rw [compileLines_eq hbl]
        by_cases hh : headLines imp lines = []
        · rw [hh]
          simp only [headBlocks, List.isEmpty_nil, if_true, List.nil_append, hr]
          refine ⟨_, rfl, ?_⟩
          intro prog hp hlf
          obtain ⟨cs, k1, k2, k3, k4⟩ := hr2 prog hp
          rw [k1] at hlf ⊢
          exact checkInput_tame (gs := []) (by simp) k3 k4 env hlf
        · have hhb : headBlocks (headLines imp lines) = [(none, headLines imp lines)] := by
            unfold headBlocks
            rw [if_neg (by simpa using hh)]
          obtain ⟨q, hq, hq2⟩ := compileBody_tame h.head (headLines imp lines).length (headLines imp lines) [] none [] rfl (Nat.le_refl _) (by simp)
            (fun _ t ht => by simp [popLeft] at ht)
          rw [hhb]
          simp only [List.singleton_append, compileBlocks, hq, hr, bind, Except.bind]
          rcases q with e | ⟨gs, p⟩
          · exact ⟨_, rfl, by simp⟩
          · obtain ⟨rfl, hgs⟩ := hq2 gs p rfl
            rcases r with e | rest
            · exact ⟨_, rfl, by simp⟩
            · refine ⟨_, rfl, ?_⟩
              intro prog hp hlf
              simp only [Except.ok.injEq] at hp
              obtain ⟨cs, k1, k2, k3, k4⟩ := hr2 rest rfl
              rw [← hp, k1] at hlf ⊢
              refine checkInput_tame ?_ k3 k4 env hlf
              rw [k2]
              simpa using hgs
  obtain ⟨r, hc1, hc2⟩ := hc
  unfold verify filecheck
  simp only [hc1, bind, Except.bind]
  rcases r with e | prog
  · exact ⟨_, rfl⟩
  · obtain ⟨tr, htr⟩ := hc2 prog rfl (hlf.prog himp hc1)
    simp only [htr]
    exact ⟨_, rfl⟩

end Litcheck
