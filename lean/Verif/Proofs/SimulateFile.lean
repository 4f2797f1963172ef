import Verif.Proofs.SimulateCompile
import Verif.Proofs.FileSound

/-!
# Two runs which agree: from the lines of check files
-/

namespace Litcheck.Simulate
open Litcheck.Smart Litcheck.Pattern Litcheck.Sets
open Litcheck.Lex (CPat CLine)

section
variable {R : Vars → Vars → Prop} {b b' : Buf} {run : Run} {imp : List Str}

/-- Lines which are used in the same way. -/
structure CLineSim (R : Vars → Vars → Prop) (b b' : Buf) (run : Run) (G : Kind → CPat → Prop) (l l' : CLine) : Prop where
  kind : l'.kind = l.kind
  set : l.kind = .not ∨ l.kind = .dag → l'.pattern = l.pattern ∧ G l.kind l.pattern
  line : ∀ n, RelP (OptSim (fun x x' : Line Vars => x'.kind = x.kind ∧ PatSim R b b' x.pat x'.pat)) (compileLine run l n) (compileLine run l' n)

/-- The patterns of sets are the same, and good. -/
def SetQ (G : Kind → CPat → Prop) (pats pats' : List CPat) (x x' : Line Vars) : Prop :=
  x.kind = .not ∨ x.kind = .dag → x'.pat.pspan = x.pat.pspan ∧ patAt pats' x' = patAt pats x ∧ G x.kind (patAt pats x)

theorem none_sim {n : Nat} : PatSim R b b' (nonePat n) (nonePat n) := ⟨fun _ _ _ h => ⟨rfl, h⟩, rfl, rfl⟩

theorem compileAll_sim {G : Kind → CPat → Prop} : ∀ {ls ls' : List CLine}, List.Forall₂ (CLineSim R b b' run G) ls ls' → ∀ n : Nat,
    RelP (OptSim (List.Forall₂ (fun x x' : Line Vars => x'.kind = x.kind ∧ PatSim R b b' x.pat x'.pat)))
      (compileAll run ls n) (compileAll run ls' n)
  | _, _, .nil, n => .nil
  | _, _, .cons h hs, n => by
    unfold compileAll
    refine RelP.bind (h.line n) ?_
    intro u v huv
    rcases u with _ | x <;> rcases v with _ | x' <;> simp only [OptSim] at huv <;> dsimp only
    · exact trivial
    · refine RelP.bind (compileAll_sim hs (n + 1)) ?_
      intro u v huv2
      rcases u with _ | r <;> rcases v with _ | r' <;> simp only [OptSim] at huv2 <;> dsimp only
      · exact trivial
      · exact .cons huv huv2

/-- The verdicts are the same. -/
theorem verifyLines_sim (hb : SameLines b b') {G : Kind → CPat → Prop}
    (hnot : ∀ ps set, (∀ x ∈ ps, G .not x.1) → compileSet run.opts ps = .ok (some set) →
      PatSim R b b' (anyPat run.opts.ignoreCase run.conf set) (anyPat run.opts.ignoreCase run.conf set))
    (hdag : ∀ ps set, (∀ x ∈ ps, G .dag x.1) → compileSet run.opts ps = .ok (some set) →
      DagSim R b b' (setDag run.opts.ignoreCase run.conf run.check.enableVarScope set)
        (setDag run.opts.ignoreCase run.conf run.check.enableVarScope set))
    (hclear : ∀ e e', R e e' → R (Bindings.clear e) (Bindings.clear e'))
    (himp : imp.isEmpty = false → G .not (.regex (implicitSrc imp)))
    {ls ls' : List CLine} (hls : List.Forall₂ (CLineSim R b b' run G) ls ls') {e e' : Vars} (he : R e e') :
    verifyLines run imp ls' e' b' = verifyLines run imp ls e b := by
  symm
  refine RelP.eq ?_
  unfold verifyLines
  have hall := compileAll_sim hls 0
  have hlen := hls.length_eq
  cases hu : compileAll run ls 0 with
  | error p =>
    cases hv : compileAll run ls' 0 with
    | error q => rw [hu, hv] at hall; exact hall
    | ok v => rw [hu, hv] at hall; exact hall.elim
  | ok u =>
    cases hv : compileAll run ls' 0 with
    | error q => rw [hu, hv] at hall; exact hall.elim
    | ok v =>
      rw [hu, hv] at hall
      rcases u with _ | u <;> rcases v with _ | v <;> simp only [RelP, OptSim] at hall
      · exact rfl
      · show RelP Eq (verify (fileSet run (patsOf ls imp)) run.check Bindings.clear (implicitLine ls imp) u e b)
          (verify (fileSet run (patsOf ls' imp)) run.check Bindings.clear (implicitLine ls' imp) v e' b')
        have hn := compileAll_numbered hu
        have hn' := compileAll_numbered hv
        have hq : List.Forall₂ (LineSim (SetQ G (patsOf ls imp) (patsOf ls' imp)) R b b') u v := by
          rw [List.forall₂_iff_get]
          refine ⟨hall.length_eq, ?_⟩
          intro i h1 h2
          obtain ⟨hk, hp⟩ := List.Forall₂.get hall h1 h2
          refine ⟨hk, hp, ?_⟩
          intro hkk
          obtain ⟨l, a1, a2, a3⟩ := hn.line i (u.get ⟨i, h1⟩) (by simp)
          obtain ⟨l', c1, c2, c3⟩ := hn'.line i (v.get ⟨i, h2⟩) (by simp)
          obtain ⟨i1, hi1⟩ := List.getElem?_eq_some_iff.1 a1
          obtain ⟨i2, hi2⟩ := List.getElem?_eq_some_iff.1 c1
          have hl := List.Forall₂.get hls i1 i2
          simp only [List.get_eq_getElem] at hl
          rw [hi1, hi2] at hl
          rw [patAt_line a1 a3, patAt_line c1 c3, a3, c3, a2]
          rw [a2] at hkk
          exact ⟨rfl, (hl.set hkk).1, (hl.set hkk).2⟩
        have himp' : OptSim (LineSim (SetQ G (patsOf ls imp) (patsOf ls' imp)) R b b') (implicitLine ls imp) (implicitLine ls' imp) := by
          by_cases hi : imp.isEmpty = true
          · unfold implicitLine; rw [if_pos hi, if_pos hi]; exact trivial
          · have e1 : implicitLine ls imp = some ⟨.not, nonePat ls.length, []⟩ := by unfold implicitLine; rw [if_neg hi]
            have e2 : implicitLine ls' imp = some ⟨.not, nonePat ls'.length, []⟩ := by unfold implicitLine; rw [if_neg hi]
            obtain ⟨_, _, g1, _⟩ := patAt_implicit e1
            obtain ⟨_, _, g2, _⟩ := patAt_implicit e2
            rw [e1, e2]
            refine ⟨rfl, by rw [hlen]; exact none_sim, ?_⟩
            intro _
            rw [g1, g2]
            exact ⟨hlen.symm, rfl, himp (by simpa using hi)⟩
        have hset : ∀ {k : Kind} (_ : k = .not ∨ k = .dag) {xs xs' : List (Line Vars)},
            List.Forall₂ (LineSim (SetQ G (patsOf ls imp) (patsOf ls' imp)) R b b') xs xs' → (∀ l ∈ xs, l.kind = k) →
            (xs'.map fun l => (((patsOf ls' imp)[l.pat.pspan]?).getD .empty, l.pat.pspan)) =
              (xs.map fun l => (((patsOf ls imp)[l.pat.pspan]?).getD .empty, l.pat.pspan)) ∧
            ∀ x ∈ (xs.map fun l => (((patsOf ls imp)[l.pat.pspan]?).getD .empty, l.pat.pspan)), G k x.1 := by
          intro k hk xs xs' h
          induction h with
          | nil => intro _; exact ⟨rfl, by simp⟩
          | @cons x x' xs xs' h hs ih =>
            intro ha
            obtain ⟨i1, i2⟩ := ih (fun l hl => ha l (by simp [hl]))
            have hkx := ha x (by simp)
            obtain ⟨q1, q2, q3⟩ := h.extra (by rw [hkx]; exact hk)
            refine ⟨?_, ?_⟩
            · rw [List.map_cons, List.map_cons, i1]
              congr 1
              refine Prod.ext ?_ q1
              exact q2
            · intro y hy
              rcases List.mem_cons.1 hy with rfl | hy
              · rw [hkx] at q3; exact q3
              · exact i2 y hy
        rw [verify_sim hb (sc := fileSet run (patsOf ls imp)) (sc' := fileSet run (patsOf ls' imp)) ⟨?_, ?_⟩ hclear himp' hq he]
        · exact RelP.self _ fun _ => rfl
        · intro xs xs' h hk
          obtain ⟨h1, h2⟩ := hset (k := .not) (.inl rfl) h hk
          unfold fileSet
          dsimp only
          rw [h1]
          cases hc : compileSet run.opts (xs.map fun l => (((patsOf ls imp)[l.pat.pspan]?).getD .empty, l.pat.pspan)) with
          | error p => exact rfl
          | ok o =>
            cases o with
            | none => exact trivial
            | some set => exact hnot _ set h2 hc
        · intro xs xs' h hk
          obtain ⟨h1, h2⟩ := hset (k := .dag) (.inr rfl) h hk
          unfold fileSet
          dsimp only
          rw [h1]
          cases hc : compileSet run.opts (xs.map fun l => (((patsOf ls imp)[l.pat.pspan]?).getD .empty, l.pat.pspan)) with
          | error p => exact rfl
          | ok o =>
            cases o with
            | none => exact trivial
            | some set => exact hdag _ set h2 hc

end
end Litcheck.Simulate
