import Verif.Proofs.Spaces

/-!
# Horizontal white space in `CHECK-NOT` and `CHECK-DAG` lines
-/

namespace Litcheck.Spaces
open Spec Simulate
open Litcheck.Smart Litcheck.Pattern Litcheck.Sets
open Litcheck.Regex (engine)
open Litcheck.Lex (Part Match CPat CLine)

/-- The same prefix, but for white space. -/
def SameLit (T : Str → Str → Prop) (x x' : Prefix × Nat × Nat) : Prop := x'.2 = x.2 ∧ ∃ s t, x.1 = .lit s ∧ x'.1 = .lit t ∧ T s t

/-- The same line, but for white space. -/
def SameText (T : Str → Str → Prop) (x x' : CPat × Nat) : Prop := x'.2 = x.2 ∧ ∃ s t, x.1 = .literal s ∧ x'.1 = .literal t ∧ T s t

/-- The same result of `collect`, but for white space. -/
def SameCollect (T : Str → Str → Prop) : P (Option (List (Prefix × Nat × Nat) × List (List Sfx))) →
    P (Option (List (Prefix × Nat × Nat) × List (List Sfx))) → Prop
  | .ok (some (u, s)), .ok (some (u', s')) => List.Forall₂ (SameLit T) u u' ∧ s' = s
  | .ok none, .ok none => True
  | .error p, .error p' => p' = p
  | _, _ => False

section
variable {T : Str → Str → Prop} (hT : ∀ s t s' t', T s t → T s' t' → (s = s' ↔ t = t'))
include hT

theorem find_space {s t : Str} (hst : T s t) : ∀ {u u' : List (Prefix × Nat × Nat)}, List.Forall₂ (SameLit T) u u' →
    (u'.find? fun x => x.1.same (.lit t)).map Prod.snd = (u.find? fun x => x.1.same (.lit s)).map Prod.snd
  | _, _, .nil => rfl
  | x :: u, x' :: u', .cons h hs => by
    have ih := find_space hst hs
    obtain ⟨h1, a, c, h2, h3, h4⟩ := h
    obtain ⟨p, n⟩ := x
    obtain ⟨p', n'⟩ := x'
    dsimp only at h1 h2 h3
    subst h1 h2 h3
    have key : (Prefix.lit c).same (.lit t) = (Prefix.lit a).same (.lit s) := by
      simp only [Prefix.same, Prefix.text, Prefix.caps, List.length_nil, List.zip_nil_left, List.all_nil, Bool.and_true, beq_self_eq_true]
      by_cases h : a = s
      · rw [beq_iff_eq.2 h, beq_iff_eq.2 ((hT _ _ _ _ h4 hst).1 h)]
      · have h' : c ≠ t := fun e => h ((hT _ _ _ _ h4 hst).2 e)
        rw [beq_false_of_ne h, beq_false_of_ne h']
    rw [List.find?_cons, List.find?_cons]
    dsimp only
    rw [key]
    cases (Prefix.lit a).same (.lit s) with
    | true => rfl
    | false => exact ih

theorem collect_space (o : Opts) : ∀ {ls ls' : List (CPat × Nat)}, List.Forall₂ (SameText T) ls ls' → ∀ (id : Nat)
    {u u' : List (Prefix × Nat × Nat)} (sfx : List (List Sfx)), List.Forall₂ (SameLit T) u u' →
    SameCollect T (collect o ls id u sfx) (collect o ls' id u' sfx)
  | _, _, .nil, id, u, u', sfx, hu => ⟨hu, rfl⟩
  | x :: ls, x' :: ls', .cons h hs, id, u, u', sfx, hu => by
    obtain ⟨h1, s, t, h2, h3, h4⟩ := h
    obtain ⟨p, n⟩ := x
    obtain ⟨p', n'⟩ := x'
    dsimp only at h1 h2 h3
    subst h1 h2 h3
    have hf := find_space hT h4 hu
    simp only [collect, compact, popPrefix, compileSuffix, bind, Except.bind]
    cases hx : u.find? fun x => x.1.same (.lit s) with
    | none =>
      rw [hx] at hf
      cases hx' : u'.find? fun x => x.1.same (.lit t) with
      | some y => rw [hx'] at hf; simp at hf
      | none =>
        dsimp only
        exact collect_space o hs (id + 1) _ (fa_append hu (.cons ⟨rfl, s, t, rfl, rfl, h4⟩ .nil))
    | some y =>
      rw [hx] at hf
      cases hx' : u'.find? fun x => x.1.same (.lit t) with
      | none => rw [hx'] at hf; simp at hf
      | some y' =>
        rw [hx'] at hf
        simp only [Option.map_some, Option.some.injEq] at hf
        dsimp only
        rw [hf]
        cases pushAt sfx y.2.1 ((Compiled.always : Compiled engine), n') with
        | none => exact rfl
        | some sfx' => exact collect_space o hs (id + 1) _ hu

/-- Groups of texts which differ only in white space are compiled to the same set. -/
theorem set_space (hsp : ∀ s t, T s t → SameUpToSpace s t) {o : Opts} (ho : o.strictWs = false) {ls ls' : List (CPat × Nat)}
    (h : List.Forall₂ (SameText T) ls ls') : compileSet o ls' = compileSet o ls := by
  have hc := collect_space hT o h 0 [] (u := []) (u' := []) .nil
  unfold compileSet
  generalize collect o ls 0 [] [] = x at hc
  generalize collect o ls' 0 [] [] = y at hc
  rcases x with p | _ | ⟨u, s⟩ <;> rcases y with q | _ | ⟨u', s'⟩ <;> simp only [SameCollect] at hc
  · rw [hc]
  · rfl
  · obtain ⟨h1, rfl⟩ := hc
    have hl : setLits o u' = setLits o u := by
      unfold setLits
      induction h1 with
      | nil => rfl
      | cons h _ ih =>
        obtain ⟨e1, a, c, e2, e3, e4⟩ := h
        rw [List.map_cons, List.map_cons, ih, e1, e2, e3]
        simp only [Prefix.text, Option.getD_some]
        rw [space_bytes (hsp _ _ e4) ho]
    have a1 : (u.all fun x => x.1.isLit) = true := by
      clear hl
      induction h1 with
      | nil => rfl
      | cons h _ ih => obtain ⟨_, a, c, e2, _⟩ := h; rw [List.all_cons, ih, e2]; rfl
    have a2 : (u'.all fun x => x.1.isLit) = true := by
      clear hl a1
      induction h1 with
      | nil => rfl
      | cons h _ ih => obtain ⟨_, a, c, _, e3, _⟩ := h; rw [List.all_cons, ih, e3]; rfl
    simp only [bind, Except.bind, classify, a1, a2, hl, if_true]
end

/-! ## Check files -/

/-- Patterns at the same place of a line of the kind `k`. -/
def Places (k : Kind) (ls ls' : List CLine) (s t : Str) : Prop :=
  ∃ (i : Nat) (l l' : CLine), ls[i]? = some l ∧ ls'[i]? = some l' ∧ l.kind = k ∧ l.pattern = .literal s ∧ l'.pattern = .literal t

/-- What is known about the lines of groups. -/
def GroupQ (pats pats' : List CPat) (k0 : Kind → CPat → CPat → Prop) (x x' : Line Vars) : Prop :=
  x.kind = .not ∨ x.kind = .dag → x'.pat.pspan = x.pat.pspan ∧ k0 x.kind (patAt pats x) (patAt pats' x')

theorem verifyLines_groups {run : Run} {imp : List Str} {ls ls' : List CLine}
    (hls : List.Forall₂ (fun (l l' : CLine) => l'.kind = l.kind ∧ ∀ n, compileLine run l' n = compileLine run l n) ls ls')
    (D : Kind → CPat → CPat → Prop)
    (hD : ∀ (i : Nat) (l l' : CLine), ls[i]? = some l → ls'[i]? = some l' → l.kind = .not ∨ l.kind = .dag → D l.kind l.pattern l'.pattern)
    (himp : imp.isEmpty = false → D .not (.regex (implicitSrc imp)) (.regex (implicitSrc imp)))
    (hset : ∀ k, k = .not ∨ k = .dag → ∀ xs xs' : List (CPat × Nat),
      List.Forall₂ (fun x x' => x'.2 = x.2 ∧ D k x.1 x'.1) xs xs' → compileSet run.opts xs' = compileSet run.opts xs)
    (env : Vars) (b : Buf) : verifyLines run imp ls' env b = verifyLines run imp ls env b := by
  symm
  refine RelP.eq ?_
  unfold verifyLines
  have hall : ∀ n, compileAll run ls' n = compileAll run ls n := by
    clear hD himp hset
    induction hls with
    | nil => intro n; rfl
    | cons h _ ih => intro n; unfold compileAll; rw [h.2 n, ih (n + 1)]
  have hlen := hls.length_eq
  rw [hall 0]
  cases hu : compileAll run ls 0 with
  | error p => exact rfl
  | ok u =>
    rcases u with _ | u
    · exact rfl
    · show RelP Eq (verify (fileSet run (patsOf ls imp)) run.check Bindings.clear (implicitLine ls imp) u env b)
          (verify (fileSet run (patsOf ls' imp)) run.check Bindings.clear (implicitLine ls' imp) u env b)
      have hn := compileAll_numbered hu
      have hn' : Numbered ls' u := compileAll_numbered (by rw [hall 0]; exact hu)
      have hq : List.Forall₂ (LineSim (GroupQ (patsOf ls imp) (patsOf ls' imp) D) Eq b b) u u := by
        rw [List.forall₂_iff_get]
        refine ⟨rfl, fun i h1 h2 => ⟨rfl, pat_refl _, fun hkk => ?_⟩⟩
        obtain ⟨l, a1, a2, a3⟩ := hn.line i (u.get ⟨i, h1⟩) (by simp)
        obtain ⟨l', c1, c2, c3⟩ := hn'.line i (u.get ⟨i, h2⟩) (by simp)
        rw [patAt_line a1 a3, patAt_line c1 c3, a2]
        rw [a2] at hkk
        exact ⟨rfl, hD i l l' a1 c1 hkk⟩
      have himp' : OptSim (LineSim (GroupQ (patsOf ls imp) (patsOf ls' imp) D) Eq b b) (implicitLine ls imp) (implicitLine ls' imp) := by
        by_cases hi : imp.isEmpty = true
        · unfold implicitLine; rw [if_pos hi, if_pos hi]; exact trivial
        · have e1 : implicitLine ls imp = some ⟨.not, nonePat ls.length, []⟩ := by unfold implicitLine; rw [if_neg hi]
          have e2 : implicitLine ls' imp = some ⟨.not, nonePat ls'.length, []⟩ := by unfold implicitLine; rw [if_neg hi]
          obtain ⟨_, _, g1, _⟩ := patAt_implicit e1
          obtain ⟨_, _, g2, _⟩ := patAt_implicit e2
          rw [e1, e2]
          refine ⟨rfl, by rw [hlen]; exact none_sim, ?_⟩
          intro _
          rw [g1, g2]
          exact ⟨hlen.symm, himp (by simpa using hi)⟩
      have hpairs : ∀ {k : Kind} (_ : k = .not ∨ k = .dag) {xs xs' : List (Line Vars)},
          List.Forall₂ (LineSim (GroupQ (patsOf ls imp) (patsOf ls' imp) D) Eq b b) xs xs' → (∀ l ∈ xs, l.kind = k) →
          List.Forall₂ (fun x x' : CPat × Nat => x'.2 = x.2 ∧ D k x.1 x'.1)
            (xs.map fun l => (((patsOf ls imp)[l.pat.pspan]?).getD .empty, l.pat.pspan))
            (xs'.map fun l => (((patsOf ls' imp)[l.pat.pspan]?).getD .empty, l.pat.pspan)) := by
        intro k hk xs xs' h
        induction h with
        | nil => intro _; exact .nil
        | @cons x x' xs xs' h hs ih =>
          intro ha
          have hkx := ha x (by simp)
          obtain ⟨q1, q2⟩ := h.extra (by rw [hkx]; exact hk)
          rw [hkx] at q2
          exact .cons ⟨q1, q2⟩ (ih fun l hl => ha l (by simp [hl]))
      rw [verify_sim lines_refl (sc := fileSet run (patsOf ls imp)) (sc' := fileSet run (patsOf ls' imp)) ⟨?_, ?_⟩
        (by rintro e _ rfl; rfl) himp' hq rfl]
      · exact RelP.self _ fun _ => rfl
      · intro xs xs' h hk
        unfold fileSet
        dsimp only
        rw [hset .not (.inl rfl) _ _ (hpairs (.inl rfl) h hk)]
        refine RelP.self _ fun o => ?_
        cases o with
        | none => exact trivial
        | some p => exact pat_refl _
      · intro xs xs' h hk
        unfold fileSet
        dsimp only
        rw [hset .dag (.inr rfl) _ _ (hpairs (.inr rfl) h hk)]
        refine RelP.self _ fun o => ?_
        cases o with
        | none => exact trivial
        | some p => exact dag_refl _

/-- Check files which differ only in white space, also that of `CHECK-NOT` and `CHECK-DAG` lines. -/
theorem file_space {run : Run} (ho : run.opts.strictWs = false) {ls ls' : List CLine} {imp : List Str}
    (h : List.Forall₂ (fun l l' => SpaceCheck l l' ∨ SpaceSet l l') ls ls') (hnot : KeepsApart .not imp ls ls') (hdag : KeepsApart .dag imp ls ls')
    (env : Vars) (b : Buf) : verifyLines run imp ls' env b = verifyLines run imp ls env b := by
  have hkeep : ∀ k, k = .not ∨ k = .dag → KeepsApart k imp ls ls' := by rintro k (rfl | rfl); exact hnot; exact hdag
  have hpat : ∀ (i : Nat) (l l' : CLine), ls[i]? = some l → ls'[i]? = some l' → l.kind = .not ∨ l.kind = .dag →
      l'.pattern = l.pattern ∨ ∃ s t, l.pattern = .literal s ∧ l'.pattern = .literal t ∧ SameUpToSpace s t := by
    intro i l l' h1 h2 hk
    obtain ⟨i1, hi1⟩ := List.getElem?_eq_some_iff.1 h1
    obtain ⟨i2, hi2⟩ := List.getElem?_eq_some_iff.1 h2
    have hl := List.Forall₂.get h i1 i2
    simp only [List.get_eq_getElem] at hl
    rw [hi1, hi2] at hl
    rcases hl with hl | hl
    · exact .inl ((line_space ho hl).2.1 hk)
    · exact .inr hl.2.2.2
  refine verifyLines_groups (D := fun k p p' =>
    ((∀ (i : Nat) (l l' : CLine), ls[i]? = some l → ls'[i]? = some l' → l.kind = k → l' = l) → p' = p) ∧
      (¬ (∀ (i : Nat) (l l' : CLine), ls[i]? = some l → ls'[i]? = some l' → l.kind = k → l' = l) →
        ∃ s t, p = .literal s ∧ p' = .literal t ∧ Places k ls ls' s t)) ?_ ?_ ?_ ?_ env b
  · refine List.Forall₂.imp ?_ h
    rintro l l' (hl | ⟨h1, h2, h3, _⟩)
    · exact ⟨(line_space ho hl).1, (line_space ho hl).2.2⟩
    · refine ⟨h1, fun n => ?_⟩
      unfold compileLine
      rw [h1]
      rcases h3 with h3 | h3 <;> rw [h3]
  · intro i l l' h1 h2 hk
    refine ⟨fun hu => by rw [hu i l l' h1 h2 rfl], fun hu => ?_⟩
    rcases hkeep _ hk with h3 | ⟨_, h4, _⟩
    · exact absurd h3 hu
    · obtain ⟨s, hs⟩ := h4 l (List.mem_of_getElem? h1) rfl
      rcases hpat i l l' h1 h2 hk with h5 | ⟨a, t, h5, h6, _⟩
      · exact ⟨s, s, hs, h5.trans hs, i, l, l', h1, h2, rfl, hs, h5.trans hs⟩
      · exact ⟨a, t, h5, h6, i, l, l', h1, h2, rfl, h5, h6⟩
  · intro hi
    refine ⟨fun _ => rfl, fun hu => ?_⟩
    rcases hnot with h3 | ⟨h4, _⟩
    · exact absurd h3 hu
    · rw [h4 rfl] at hi
      simp at hi
  · intro k hk xs xs' hx
    by_cases hu : ∀ (i : Nat) (l l' : CLine), ls[i]? = some l → ls'[i]? = some l' → l.kind = k → l' = l
    · have : xs' = xs := by
        induction hx with
        | nil => rfl
        | cons h _ ih => rw [ih]; congr 1; exact Prod.ext (h.2.1 hu) h.1
      rw [this]
    · rcases hkeep k hk with h3 | ⟨_, _, h5⟩
      · exact absurd h3 hu
      · refine set_space (T := Places k ls ls') ?_ ?_ ho (List.Forall₂.imp (fun x x' h => ⟨h.1, h.2.2 hu⟩) hx)
        · rintro s t s' t' ⟨i, l, l', h1, h2, h6, h7, h8⟩ ⟨j, m, m', g1, g2, g6, g7, g8⟩
          have := h5 i j l l' m m' h1 h2 g1 g2 h6 g6
          rw [h7, h8, g7, g8] at this
          simpa using this
        · rintro s t ⟨i, l, l', h1, h2, h6, h7, h8⟩
          rcases hpat i l l' h1 h2 (by rw [h6]; exact hk) with h9 | ⟨a, c, g1, g2, g3⟩
          · rw [h7, h8] at h9
            simp only [CPat.literal.injEq] at h9
            subst h9
            exact List.forall₂_same.2 fun _ _ => .inl rfl
          · rw [h7] at g1
            rw [h8] at g2
            simp only [CPat.literal.injEq] at g1 g2
            subst g1 g2
            exact g3

/-! ## A test of `KeepsApart` -/

def litText : CPat → Option Str
  | .literal s => some s
  | _ => none

theorem litText_iff {p q : CPat} (hp : (litText p).isSome = true) (hq : (litText q).isSome = true) : p = q ↔ litText p = litText q := by
  cases p <;> cases q <;> simp_all [litText]

def apartB (k : Kind) (imp : List Str) (ls ls' : List CLine) : Bool :=
  (k != .not || imp.isEmpty) &&
    (ls.zip ls').all fun x => x.1.kind != k || ((litText x.1.pattern).isSome && (litText x.2.pattern).isSome &&
      (ls.zip ls').all fun y => y.1.kind != k || (decide (litText x.1.pattern = litText y.1.pattern) == decide (litText x.2.pattern = litText y.2.pattern)))

theorem apartB_sound {k : Kind} {imp : List Str} {ls ls' : List CLine} (hl : ls'.length = ls.length) (h : apartB k imp ls ls' = true) :
    KeepsApart k imp ls ls' := by
  simp only [apartB, Bool.and_eq_true, Bool.or_eq_true, bne_iff_ne, ne_eq, List.isEmpty_iff, List.all_eq_true, beq_iff_eq, decide_eq_decide] at h
  obtain ⟨h1, h2⟩ := h
  have hz : ∀ (i : Nat) (l l' : CLine), ls[i]? = some l → ls'[i]? = some l' → (l, l') ∈ ls.zip ls' := by
    intro i l l' a b
    refine List.mem_of_getElem? (i := i) ?_
    rw [List.getElem?_zip_eq_some]
    exact ⟨a, b⟩
  refine .inr ⟨fun hk => h1.resolve_left fun h => h hk, fun l hl1 hk => ?_, fun i j l l' m m' a1 a2 a3 a4 a5 a6 => ?_⟩
  · obtain ⟨i, hi, rfl⟩ := List.mem_iff_getElem.1 hl1
    have := ((h2 _ (hz i _ _ (List.getElem?_eq_getElem hi) (List.getElem?_eq_getElem (hl ▸ hi)))).resolve_left fun h => h hk).1.1
    dsimp only at this
    cases hp : ls[i].pattern <;> rw [hp] at this <;> simp [litText] at this
    exact ⟨_, rfl⟩
  · have x := (h2 _ (hz i _ _ a1 a2)).resolve_left fun h => h a5
    have y := (h2 _ (hz j _ _ a3 a4)).resolve_left fun h => h a6
    have z := (x.2 _ (hz j _ _ a3 a4)).resolve_left fun h => h a6
    rw [litText_iff x.1.1 y.1.1, litText_iff x.1.2 y.1.2]
    exact z

end Litcheck.Spaces
