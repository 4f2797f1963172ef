import Verif.Proofs.IgnoreCaseFile
import Verif.Proofs.SpaceSets

/-!
# `--ignore-case`: groups of `CHECK-NOT` lines whose texts change case
-/

namespace Litcheck.NoCase
open Spec Simulate PatternSpec
open Litcheck.Regex (Re engine)
open Litcheck.Smart Litcheck.Pattern Litcheck.Sets
open Litcheck.Lex (Part Match CPat CLine)

/-- Groups of texts which differ in case are compiled to sets of texts which differ in case. -/
theorem set_case {T : Str → Str → Prop} (hT : ∀ s t s' t', T s t → T s' t' → (s = s' ↔ t = t')) (hc : ∀ s t, T s t → SameText s t)
    {o : Opts} {ls ls' : List (CPat × Nat)} (h : List.Forall₂ (Spaces.SameText T) ls ls') :
    RelP (OptSim fun x y => ∃ u v : List (Buf × Nat), x = .literal u ∧ y = .literal v ∧
      List.Forall₂ (fun a c => Same a.1 c.1 ∧ c.2 = a.2) u v) (compileSet o ls) (compileSet o ls') := by
  have hcol := Spaces.collect_space hT o h 0 [] (u := []) (u' := []) .nil
  unfold compileSet
  generalize collect o ls 0 [] [] = x at hcol
  generalize collect o ls' 0 [] [] = y at hcol
  rcases x with p | _ | ⟨u, s⟩ <;> rcases y with q | _ | ⟨u', s'⟩ <;> simp only [Spaces.SameCollect] at hcol
  · subst hcol; exact rfl
  · exact trivial
  · obtain ⟨h1, rfl⟩ := hcol
    have a0 : List.Forall₂ (fun a c : Buf × Nat => Same a.1 c.1 ∧ c.2 = a.2) (setLits o u) (setLits o u') := by
      unfold setLits
      induction h1 with
      | nil => exact .nil
      | cons h _ ih =>
        obtain ⟨e1, a, c, e2, e3, e4⟩ := h
        refine .cons ?_ ih
        dsimp only
        rw [e1, e2, e3]
        exact ⟨litBytes_same (hc _ _ e4) o, rfl⟩
    have a1 : (u.all fun x => x.1.isLit) = true := by
      clear a0
      induction h1 with
      | nil => rfl
      | cons h _ ih => obtain ⟨_, a, c, e2, _⟩ := h; rw [List.all_cons, ih, e2]; rfl
    have a2 : (u'.all fun x => x.1.isLit) = true := by
      clear a0 a1
      induction h1 with
      | nil => rfl
      | cons h _ ih => obtain ⟨_, a, c, _, e3, _⟩ := h; rw [List.all_cons, ih, e3]; rfl
    simp only [bind, Except.bind, classify, a1, a2, if_true]
    split_ifs
    · exact ⟨_, _, rfl, rfl, a0⟩
    · exact rfl

/-- A search for texts which differ in case. -/
theorem any_case {b b' : Buf} (hb : Same b b') {u v : List (Buf × Nat)} (h : List.Forall₂ (fun a c => Same a.1 c.1 ∧ c.2 = a.2) u v)
    (cfs : Nat → Conf engine) : PatSim Eq b b' (anyPat true cfs (.literal u)) (anyPat true cfs (.literal v)) := by
  have h1 : List.Forall₂ Same (u.map Prod.fst) (v.map Prod.fst) := by
    rw [List.forall₂_map_left_iff, List.forall₂_map_right_iff]
    exact List.Forall₂.imp (fun _ _ h => h.1) h
  have h2 : v.map Prod.snd = u.map Prod.snd := by
    clear h1
    induction h with
    | nil => rfl
    | cons h _ ih => rw [List.map_cons, List.map_cons, ih, h.2]
  refine run_sim ?_ ?_ ?_
  · intro r e
    have key : anyOut true cfs (.literal v) b' r e = anyOut true cfs (.literal u) b r e := by
      unfold anyOut litAny
      dsimp only
      rw [findSet_same hb h1]
      have h3 : ∀ i : Nat, (v[i]?).map Prod.snd = (u[i]?).map Prod.snd := by
        intro i
        rw [← List.getElem?_map, h2, List.getElem?_map]
      cases findSet true (u.map Prod.fst) b r.stop (r.stop - r.start) r.start with
      | none => rfl
      | some x => obtain ⟨pid, s, e⟩ := x; dsimp only; rw [h3]
    unfold anyPat
    dsimp only
    rw [key]
  · show v.length = u.length
    exact h.length_eq.symm
  · rfl

/-! ## Check files -/

/-- What is known about the lines of groups. -/
def GroupQ (D : Kind → CPat → CPat → Prop) (pats pats' : List CPat) (x x' : Line Vars) : Prop :=
  x.kind = .not ∨ x.kind = .dag → x'.pat.pspan = x.pat.pspan ∧ D x.kind (patAt pats x) (patAt pats' x')

/-- Lines which are used in the same way; those of groups are related. -/
structure GLineSim (b b' : Buf) (run : Run) (D : Kind → CPat → CPat → Prop) (l l' : CLine) : Prop where
  kind : l'.kind = l.kind
  set : l.kind = .not ∨ l.kind = .dag → D l.kind l.pattern l'.pattern
  line : ∀ n, RelP (OptSim (fun x x' : Line Vars => x'.kind = x.kind ∧ PatSim Eq b b' x.pat x'.pat)) (compileLine run l n) (compileLine run l' n)

theorem compileAll_g {b b' : Buf} {run : Run} {D : Kind → CPat → CPat → Prop} : ∀ {ls ls' : List CLine},
    List.Forall₂ (GLineSim b b' run D) ls ls' → ∀ n : Nat,
    RelP (OptSim (List.Forall₂ (fun x x' : Line Vars => x'.kind = x.kind ∧ PatSim Eq b b' x.pat x'.pat)))
      (compileAll run ls n) (compileAll run ls' n)
  | _, _, .nil, n => .nil
  | _, _, .cons h hs, n => by
    unfold compileAll
    refine RelP.bind (h.line n) ?_
    intro u v huv
    rcases u with _ | x <;> rcases v with _ | x' <;> simp only [OptSim] at huv <;> dsimp only
    · exact trivial
    · refine RelP.bind (compileAll_g hs (n + 1)) ?_
      intro u v huv2
      rcases u with _ | r <;> rcases v with _ | r' <;> simp only [OptSim] at huv2 <;> dsimp only
      · exact trivial
      · exact .cons huv huv2

/-- The verdicts are the same, if related groups are compiled to sets with the same results. -/
theorem verifyLines_rel {run : Run} {imp : List Str} {b b' : Buf} (hb : SameLines b b') {D : Kind → CPat → CPat → Prop}
    (hnot : ∀ xs xs' : List (CPat × Nat), List.Forall₂ (fun x x' => x'.2 = x.2 ∧ D .not x.1 x'.1) xs xs' →
      RelP (OptSim fun s s' => PatSim Eq b b' (anyPat run.opts.ignoreCase run.conf s) (anyPat run.opts.ignoreCase run.conf s'))
        (compileSet run.opts xs) (compileSet run.opts xs'))
    (hdag : ∀ xs xs' : List (CPat × Nat), List.Forall₂ (fun x x' => x'.2 = x.2 ∧ D .dag x.1 x'.1) xs xs' →
      RelP (OptSim fun s s' => DagSim Eq b b' (setDag run.opts.ignoreCase run.conf run.check.enableVarScope s)
        (setDag run.opts.ignoreCase run.conf run.check.enableVarScope s')) (compileSet run.opts xs) (compileSet run.opts xs'))
    (himp : imp.isEmpty = false → D .not (.regex (implicitSrc imp)) (.regex (implicitSrc imp)))
    {ls ls' : List CLine} (hls : List.Forall₂ (GLineSim b b' run D) ls ls') (env : Vars) :
    verifyLines run imp ls' env b' = verifyLines run imp ls env b := by
  symm
  refine RelP.eq ?_
  unfold verifyLines
  have hall := compileAll_g hls 0
  have hlen := hls.length_eq
  cases hu : compileAll run ls 0 with
  | error p =>
    cases hv : compileAll run ls' 0 with
    | error q => rw [hu, hv] at hall; exact hall
    | ok v => rw [hu, hv] at hall; exact hall.elim
  | ok u =>
    cases hv : compileAll run ls' 0 with
    | error q => rw [hu, hv] at hall; exact hall.elim
    | ok v =>
      rw [hu, hv] at hall
      rcases u with _ | u <;> rcases v with _ | v <;> simp only [RelP, OptSim] at hall
      · exact rfl
      · show RelP Eq (verify (fileSet run (patsOf ls imp)) run.check Bindings.clear (implicitLine ls imp) u env b)
          (verify (fileSet run (patsOf ls' imp)) run.check Bindings.clear (implicitLine ls' imp) v env b')
        have hn := compileAll_numbered hu
        have hn' := compileAll_numbered hv
        have hq : List.Forall₂ (LineSim (GroupQ D (patsOf ls imp) (patsOf ls' imp)) Eq b b') u v := by
          rw [List.forall₂_iff_get]
          refine ⟨hall.length_eq, ?_⟩
          intro i h1 h2
          obtain ⟨hk, hp⟩ := List.Forall₂.get hall h1 h2
          refine ⟨hk, hp, ?_⟩
          intro hkk
          obtain ⟨l, a1, a2, a3⟩ := hn.line i (u.get ⟨i, h1⟩) (by simp)
          obtain ⟨l', c1, c2, c3⟩ := hn'.line i (v.get ⟨i, h2⟩) (by simp)
          obtain ⟨i1, hi1⟩ := List.getElem?_eq_some_iff.1 a1
          obtain ⟨i2, hi2⟩ := List.getElem?_eq_some_iff.1 c1
          have hl := List.Forall₂.get hls i1 i2
          simp only [List.get_eq_getElem] at hl
          rw [hi1, hi2] at hl
          rw [patAt_line a1 a3, patAt_line c1 c3, a3, c3, a2]
          rw [a2] at hkk
          exact ⟨rfl, hl.set hkk⟩
        have himp' : OptSim (LineSim (GroupQ D (patsOf ls imp) (patsOf ls' imp)) Eq b b') (implicitLine ls imp) (implicitLine ls' imp) := by
          by_cases hi : imp.isEmpty = true
          · unfold implicitLine; rw [if_pos hi, if_pos hi]; exact trivial
          · have e1 : implicitLine ls imp = some ⟨.not, nonePat ls.length, []⟩ := by unfold implicitLine; rw [if_neg hi]
            have e2 : implicitLine ls' imp = some ⟨.not, nonePat ls'.length, []⟩ := by unfold implicitLine; rw [if_neg hi]
            obtain ⟨_, _, g1, _⟩ := patAt_implicit e1
            obtain ⟨_, _, g2, _⟩ := patAt_implicit e2
            rw [e1, e2]
            refine ⟨rfl, by rw [hlen]; exact none_sim, ?_⟩
            intro _
            rw [g1, g2]
            exact ⟨hlen.symm, himp (by simpa using hi)⟩
        have hpairs : ∀ {k : Kind} (_ : k = .not ∨ k = .dag) {xs xs' : List (Line Vars)},
            List.Forall₂ (LineSim (GroupQ D (patsOf ls imp) (patsOf ls' imp)) Eq b b') xs xs' → (∀ l ∈ xs, l.kind = k) →
            List.Forall₂ (fun x x' : CPat × Nat => x'.2 = x.2 ∧ D k x.1 x'.1)
              (xs.map fun l => (((patsOf ls imp)[l.pat.pspan]?).getD .empty, l.pat.pspan))
              (xs'.map fun l => (((patsOf ls' imp)[l.pat.pspan]?).getD .empty, l.pat.pspan)) := by
          intro k hk xs xs' h
          induction h with
          | nil => intro _; exact .nil
          | @cons x x' xs xs' h hs ih =>
            intro ha
            have hkx := ha x (by simp)
            obtain ⟨q1, q2⟩ := h.extra (by rw [hkx]; exact hk)
            rw [hkx] at q2
            exact .cons ⟨q1, q2⟩ (ih fun l hl => ha l (by simp [hl]))
        rw [verify_sim hb (sc := fileSet run (patsOf ls imp)) (sc' := fileSet run (patsOf ls' imp)) ⟨?_, ?_⟩
          (by rintro e _ rfl; rfl) himp' hq rfl]
        · exact RelP.self _ fun _ => rfl
        · intro xs xs' h hk
          unfold fileSet
          dsimp only
          have := hnot _ _ (hpairs (.inl rfl) h hk)
          revert this
          generalize compileSet run.opts (xs.map _) = p
          generalize compileSet run.opts (xs'.map _) = q
          intro this
          rcases p with p | _ | p <;> rcases q with q | _ | q <;> first | exact this | exact this.elim
        · intro xs xs' h hk
          unfold fileSet
          dsimp only
          have := hdag _ _ (hpairs (.inr rfl) h hk)
          revert this
          generalize compileSet run.opts (xs.map _) = p
          generalize compileSet run.opts (xs'.map _) = q
          intro this
          rcases p with p | _ | p <;> rcases q with q | _ | q <;> first | exact this | exact this.elim

/-- `--ignore-case`: the verdict does not depend on the case of letters, also of the texts of `CHECK-NOT` lines. -/
theorem groups_same {run : Run} (ho : run.opts.ignoreCase = true) {b b' : Buf} (hb : Same b b') {ls ls' : List CLine} {imp : List Str}
    (hf : ∀ l ∈ ls, CaseFree l) (hs : List.Forall₂ (fun l l' => SameCheck l l' ∨ SameNot l l') ls ls') (hn : KeepsApart .not imp ls ls')
    (env : Vars) : verifyLines run imp ls' env b' = verifyLines run imp ls env b := by
  have hrefl : ∀ s : Str, SameText s s := fun s => List.forall₂_same.2 fun _ _ => .inl rfl
  rcases hn with hn | ⟨himp, hlit, hap⟩
  · refine lines_same ho hb hf ?_ imp env
    rw [List.forall₂_iff_get] at hs ⊢
    refine ⟨hs.1, fun i h1 h2 => ?_⟩
    rcases hs.2 i h1 h2 with h | h
    · exact h
    · exact .inl (hn i _ _ (by simp) (by simp) h.2.2.1)
  · have himp := himp rfl
    subst himp
    have hpl : ∀ (i : Nat) (l l' : CLine), ls[i]? = some l → ls'[i]? = some l' → l.kind = .not →
        ∃ s t, l.pattern = .literal s ∧ l'.pattern = .literal t ∧ SameText s t := by
      intro i l l' h1 h2 hk
      obtain ⟨i1, hi1⟩ := List.getElem?_eq_some_iff.1 h1
      obtain ⟨i2, hi2⟩ := List.getElem?_eq_some_iff.1 h2
      have hl := List.Forall₂.get hs i1 i2
      simp only [List.get_eq_getElem] at hl
      rw [hi1, hi2] at hl
      rcases hl with (rfl | hl) | hl
      · obtain ⟨s, e⟩ := hlit _ (List.mem_of_getElem? h1) hk
        exact ⟨s, s, e, e, hrefl s⟩
      · exact absurd hk hl.2.2.1
      · exact hl.2.2.2
    refine verifyLines_rel (D := fun k p p' => (k = .dag → p' = p ∧ SetOk .dag p) ∧
      (k = .not → ∃ s t, p = .literal s ∧ p' = .literal t ∧ Spaces.Places .not ls ls' s t)) (same_lines hb) ?_ ?_ (by simp) ?_ env
    · intro xs xs' hx
      have := set_case (T := Spaces.Places .not ls ls') (o := run.opts) ?_ ?_ (List.Forall₂.imp (fun x x' h => ⟨h.1, h.2.2 rfl⟩) hx)
      · revert this
        generalize compileSet run.opts xs = p
        generalize compileSet run.opts xs' = q
        intro this
        rcases p with p | _ | p <;> rcases q with q | _ | q <;> try exact this
        obtain ⟨u, v, rfl, rfl, h⟩ := this
        rw [ho]
        exact any_case hb h _
      · rintro s t s' t' ⟨i, l, l', h1, h2, h6, h7, h8⟩ ⟨j, m, m', g1, g2, g6, g7, g8⟩
        have := hap i j l l' m m' h1 h2 g1 g2 h6 g6
        rw [h7, h8, g7, g8] at this
        simpa using this
      · rintro s t ⟨i, l, l', h1, h2, h6, h7, h8⟩
        obtain ⟨a, c, g1, g2, g3⟩ := hpl i l l' h1 h2 h6
        rw [h7] at g1
        rw [h8] at g2
        simp only [CPat.literal.injEq] at g1 g2
        subst g1 g2
        exact g3
    · intro xs xs' hx
      have e : xs' = xs := by
        induction hx with
        | nil => rfl
        | cons h _ ih => rw [ih]; congr 1; exact Prod.ext (h.2.1 rfl).1 h.1
      subst e
      have hok : ∀ x ∈ xs', SetOk .dag x.1 := by
        intro x hx'
        obtain ⟨y, hy, h⟩ := forall_mem hx hx'
        have := (h.2.1 rfl)
        rw [this.1]
        exact this.2
      cases hc : compileSet run.opts xs' with
      | error p => exact rfl
      | ok o =>
        cases o with
        | none => exact trivial
        | some set =>
          show DagSim _ _ _ _ _
          rw [ho]
          exact dag_set hb (fun x hx => plain_of (hok x hx).1) (fun x hx => compact_regex (hok x hx).1 ((hok x hx).2 rfl)) hc _ _
    · rw [List.forall₂_iff_get]
      refine ⟨hs.length_eq, fun i h1 h2 => ?_⟩
      have hl := List.Forall₂.get hs h1 h2
      have ha : ls[i]? = some (ls.get ⟨i, h1⟩) := by simp
      have hc : ls'[i]? = some (ls'.get ⟨i, h2⟩) := by simp
      have hfi := hf _ (List.get_mem ls ⟨i, h1⟩)
      have hp : (ls.get ⟨i, h1⟩).kind = .not → ∃ s t, (ls.get ⟨i, h1⟩).pattern = .literal s ∧ (ls'.get ⟨i, h2⟩).pattern = .literal t ∧
          Spaces.Places .not ls ls' s t := by
        intro hk
        obtain ⟨s, t, e1, e2, _⟩ := hpl i _ _ ha hc hk
        exact ⟨s, t, e1, e2, i, _, _, ha, hc, hk, e1, e2⟩
      generalize ls.get ⟨i, h1⟩ = l at *
      generalize ls'.get ⟨i, h2⟩ = l' at *
      rcases hl with hl | hl
      · have hcs := cline_sim ho hb hfi hl
        refine ⟨hcs.kind, fun hk => ⟨fun hd => ?_, hp⟩, hcs.line⟩
        have := hcs.set hk
        rw [hd] at this
        exact this
      · refine ⟨hl.1, fun _ => ⟨fun hd => ?_, hp⟩, fun n => ?_⟩
        · rw [hl.2.2.1] at hd; simp at hd
        · unfold compileLine
          rw [hl.1, hl.2.2.1]
          exact ⟨rfl, none_sim⟩

end Litcheck.NoCase
