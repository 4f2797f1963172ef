import Verif.Proofs.Program
import Verif.Proofs.Blocks
import Verif.Spec.Program

/-!
# From the lines of a check file to the verdict
-/

namespace Litcheck
open Spec
variable {E : Type}

/-- What `compile_lines` does, in closed form, from an intermediate state. -/
theorem compileLinesLoop_eq (imp : Option (Line E)) (lines : List (Line E)) :
    (∀ label block blocks r, compileLinesLoop imp lines (some label) block blocks = .ok r →
      r = blocks ++ ((some label, block ++ (splitLabels lines).1) ::
        (splitLabels lines).2.map (fun x => (some x.1, imp.toList ++ x.2)))) ∧
    (∀ block blocks r, compileLinesLoop imp lines none block blocks = .ok r →
      (imp.isSome → block ≠ []) →
      r = blocks ++ (headBlocks (block ++ (splitLabels lines).1.flatMap (withImplicit imp)) ++
        (splitLabels lines).2.map (fun x => (some x.1, imp.toList ++ x.2)))) := by
  induction lines with
  | nil =>
    constructor
    · intro label block blocks r h
      simp [compileLinesLoop] at h
      simp [splitLabels, ← h]
    · intro block blocks r h _
      simp only [compileLinesLoop, Option.isSome_none, Bool.false_or] at h
      cases block with
      | nil => simp at h; simp [splitLabels, headBlocks, ← h]
      | cons x xs => simp at h; simp [splitLabels, headBlocks, ← h]
  | cons l ls ih =>
    obtain ⟨ih1, ih2⟩ := ih
    constructor
    · intro label block blocks r h
      rw [compileLinesLoop] at h
      by_cases hk : l.kind = .label
      · simp only [hk, if_true, Option.isSome_some, Bool.true_or] at h
        have := ih1 _ _ _ _ h
        rw [this]
        simp [splitLabels, hk]
      · simp only [hk, if_false, Option.isSome_some, if_true] at h
        have := ih1 _ _ _ _ h
        rw [this]
        simp [splitLabels, hk]
    · intro block blocks r h himp
      rw [compileLinesLoop] at h
      by_cases hk : l.kind = .label
      · simp only [hk, if_true, Option.isSome_none, Bool.false_or] at h
        cases block with
        | nil =>
          simp only [List.isEmpty_nil, Bool.not_true, Bool.false_eq_true, if_false] at h
          have hin : imp = none := by
            cases imp with
            | none => rfl
            | some x => exact absurd rfl (himp rfl)
          subst hin
          have := ih1 _ _ _ _ h
          rw [this]
          simp [splitLabels, hk, headBlocks]
        | cons x xs =>
          simp only [List.isEmpty_cons, Bool.not_false, if_true] at h
          have := ih1 _ _ _ _ h
          rw [this]
          simp [splitLabels, hk, headBlocks]
      · simp only [hk, if_false, Option.isSome_none, Bool.false_eq_true] at h
        have hkeep : ∀ extra, withImplicit imp l = extra →
            compileLinesLoop imp ls none (block ++ extra) blocks = .ok r →
            r = blocks ++ (headBlocks (block ++ (splitLabels (l :: ls)).1.flatMap (withImplicit imp)) ++
              (splitLabels (l :: ls)).2.map (fun x => (some x.1, imp.toList ++ x.2))) := by
          intro extra he h
          have := ih2 _ _ _ h (by intro _; subst he; unfold withImplicit; split <;> simp)
          rw [this]
          simp [splitLabels, hk, he]
        cases hkk : l.kind with
        | label => exact absurd hkk hk
        | not => rw [hkk] at h; exact hkeep [l] (by simp [withImplicit, hkk]) h
        | plain => rw [hkk] at h; exact hkeep ([l] ++ imp.toList) (by simp [withImplicit, hkk]) (by simpa using h)
        | dag => rw [hkk] at h; exact hkeep ([l] ++ imp.toList) (by simp [withImplicit, hkk]) (by simpa using h)
        | count n => rw [hkk] at h; exact hkeep ([l] ++ imp.toList) (by simp [withImplicit, hkk]) (by simpa using h)
        | next =>
          rw [hkk] at h; dsimp only at h
          split at h
          · exact hkeep ([l] ++ imp.toList) (by simp [withImplicit, hkk]) (by simpa using h)
          · simp at h
        | same =>
          rw [hkk] at h; dsimp only at h
          split at h
          · exact hkeep ([l] ++ imp.toList) (by simp [withImplicit, hkk]) (by simpa using h)
          · simp at h
        | empty =>
          rw [hkk] at h; dsimp only at h
          split at h
          · exact hkeep ([l] ++ imp.toList) (by simp [withImplicit, hkk]) (by simpa using h)
          · simp at h

theorem compileLines_eq {imp : Option (Line E)} {lines : List (Line E)} {blocks : List (LBlock E)}
    (h : compileLines imp lines = .ok blocks) :
    blocks = headBlocks (headLines imp lines) ++
      (splitLabels lines).2.map (fun x => (some x.1, imp.toList ++ x.2)) := by
  have := (compileLinesLoop_eq imp lines).2 _ _ _ h (by cases imp <;> simp)
  simpa [headLines] using this

/-- Is the directive one on which relative checks can build? -/
def Anchor (k : Kind) : Bool :=
  match k with
  | .label | .plain | .count _ | .dag => true
  | _ => false

theorem canInsert_none (block : List (Line E)) :
    canInsertDependent block none = block.any (fun l => Anchor l.kind) := by
  unfold canInsertDependent Anchor
  simp only [Option.isSome_none, Bool.false_eq_true, if_false]
  congr 1

/-- The lines before the first label: a relative check is preceded by an anchor. -/
def RelativeOk (block : List (Line E)) : Prop :=
  ∀ pre l post, block = pre ++ l :: post → l.kind = .next ∨ l.kind = .same ∨ l.kind = .empty →
    pre.any (fun l => Anchor l.kind) = true

theorem compileLinesLoop_relative {imp : Option (Line E)} (himp : ∀ l ∈ imp, l.kind = .not) (lines : List (Line E)) :
    ∀ block blocks r, compileLinesLoop imp lines none block blocks = .ok r → RelativeOk block →
      RelativeOk (block ++ (splitLabels lines).1.flatMap (withImplicit imp)) := by
  have hadd : ∀ (block extra : List (Line E)), RelativeOk block →
      (∀ l ∈ extra, (l.kind = .next ∨ l.kind = .same ∨ l.kind = .empty) → block.any (fun l => Anchor l.kind) = true) →
      RelativeOk (block ++ extra) := by
    intro block extra hb he pre l post heq hk
    rcases List.append_eq_append_iff.1 heq with ⟨as, h1, h2⟩ | ⟨bs, h1, h2⟩
    · -- the line lies in `extra`
      have hl : l ∈ extra := by rw [h2]; simp
      have := he l hl hk
      rw [h1, List.any_append, this]; simp
    · cases bs with
      | nil =>
        simp at h1 h2
        have hl : l ∈ extra := by rw [← h2]; simp
        have := he l hl hk
        rw [← h1]; exact this
      | cons y ys =>
        simp at h2
        exact hb pre l ys (by rw [h1, h2.1]) hk
  have himpok : ∀ (l' : Line E), l' ∈ imp.toList → ¬ (l'.kind = .next ∨ l'.kind = .same ∨ l'.kind = .empty) := by
    intro l' hl'
    have := himp l' (by cases imp <;> simp_all)
    rw [this]; simp
  induction lines with
  | nil => intro block blocks r h hb; simpa [splitLabels] using hb
  | cons l ls ih =>
    intro block blocks r h hb
    rw [compileLinesLoop] at h
    by_cases hk : l.kind = .label
    · simp [splitLabels, hk]; exact hb
    · simp only [hk, if_false, Option.isSome_none, Bool.false_eq_true] at h
      have hgo : ∀ extra, withImplicit imp l = extra → RelativeOk (block ++ extra) →
          compileLinesLoop imp ls none (block ++ extra) blocks = .ok r →
          RelativeOk (block ++ (splitLabels (l :: ls)).1.flatMap (withImplicit imp)) := by
        intro extra he hr h
        have := ih _ _ _ h hr
        simpa [splitLabels, hk, he] using this
      have hplain : l.kind ≠ .next → l.kind ≠ .same → l.kind ≠ .empty → RelativeOk (block ++ ([l] ++ imp.toList)) := by
        intro h1 h2 h3
        refine hadd _ _ hb ?_
        intro x hx hkx
        rcases List.mem_append.1 hx with hx | hx
        · simp at hx; subst hx; tauto
        · exact absurd hkx (himpok x hx)
      have hrel : canInsertDependent block none = true → RelativeOk (block ++ ([l] ++ imp.toList)) := by
        intro hc
        refine hadd _ _ hb ?_
        intro x hx hkx
        rw [← canInsert_none]; exact hc
      cases hkk : l.kind with
      | label => exact absurd hkk hk
      | not =>
        rw [hkk] at h
        refine hgo [l] (by simp [withImplicit, hkk]) ?_ h
        refine hadd _ _ hb ?_
        intro x hx hkx
        simp at hx; subst hx; rw [hkk] at hkx; simp at hkx
      | plain => rw [hkk] at h; exact hgo ([l] ++ imp.toList) (by simp [withImplicit, hkk]) (hplain (by simp [hkk]) (by simp [hkk]) (by simp [hkk])) (by simpa using h)
      | dag => rw [hkk] at h; exact hgo ([l] ++ imp.toList) (by simp [withImplicit, hkk]) (hplain (by simp [hkk]) (by simp [hkk]) (by simp [hkk])) (by simpa using h)
      | count n => rw [hkk] at h; exact hgo ([l] ++ imp.toList) (by simp [withImplicit, hkk]) (hplain (by simp [hkk]) (by simp [hkk]) (by simp [hkk])) (by simpa using h)
      | next =>
        rw [hkk] at h; dsimp only at h
        split at h
        · rename_i hc; exact hgo ([l] ++ imp.toList) (by simp [withImplicit, hkk]) (hrel hc) (by simpa using h)
        · simp at h
      | same =>
        rw [hkk] at h; dsimp only at h
        split at h
        · rename_i hc; exact hgo ([l] ++ imp.toList) (by simp [withImplicit, hkk]) (hrel hc) (by simpa using h)
        · simp at h
      | empty =>
        rw [hkk] at h; dsimp only at h
        split at h
        · rename_i hc; exact hgo ([l] ++ imp.toList) (by simp [withImplicit, hkk]) (hrel hc) (by simpa using h)
        · simp at h

theorem headLines_relative {imp : Option (Line E)} (himp : ∀ l ∈ imp, l.kind = .not) {lines : List (Line E)}
    {blocks : List (LBlock E)} (h : compileLines imp lines = .ok blocks) : RelativeOk (headLines imp lines) := by
  refine compileLinesLoop_relative himp lines _ _ _ h ?_
  intro pre l post heq hk
  have hm : l ∈ imp.toList := by rw [heq]; simp
  have := himp l (Option.mem_toList.1 hm)
  rw [this] at hk; simp at hk

theorem RelativeOk.firstAbsolute {mean : Line E → Meaning E} {block : List (Line E)} (h : RelativeOk block)
    (hl : ∀ l ∈ block, l.kind ≠ .label) : FirstAbsolute (block.map (Line.directive mean)) := by
  have : ∀ pre rest : List (Line E), block = pre ++ rest → (∀ l ∈ pre, l.kind = .not) →
      FirstAbsolute (rest.map (Line.directive mean)) := by
    intro pre rest
    induction rest generalizing pre with
    | nil => intro _ _; trivial
    | cons l ls ih =>
      intro heq hp
      rw [List.map_cons]
      unfold FirstAbsolute
      have hnl := hl l (by rw [heq]; simp)
      have hrel := h pre l ls heq
      have hany : pre.any (fun l => Anchor l.kind) = false := by
        rw [List.any_eq_false]
        intro x hx
        rw [hp x hx]; simp [Anchor]
      have hih : l.kind = .not → FirstAbsolute (ls.map (Line.directive mean)) := by
        intro hk
        refine ih (pre ++ [l]) (by rw [heq]; simp) ?_
        intro x hx
        rcases List.mem_append.1 hx with hx | hx
        · exact hp x hx
        · simp at hx; subst hx; exact hk
      rw [hany] at hrel
      simp only [Line.directive]
      cases hk : l.kind with
      | not => exact hih hk
      | label => exact absurd hk hnl
      | next => exact absurd (hrel (by simp [hk])) (by simp)
      | same => exact absurd (hrel (by simp [hk])) (by simp)
      | empty => exact absurd (hrel (by simp [hk])) (by simp)
      | plain => trivial
      | dag => trivial
      | count n => trivial
  exact this [] block rfl (by simp)

theorem splitLabels_mem {lines : List (Line E)} {l : Line E} :
    (l ∈ (splitLabels lines).1 → l ∈ lines ∧ l.kind ≠ .label) ∧
    (∀ x ∈ (splitLabels lines).2, (x.1 ∈ lines ∧ x.1.kind = .label) ∧ ∀ y ∈ x.2, y ∈ lines ∧ y.kind ≠ .label) := by
  induction lines generalizing l with
  | nil => simp [splitLabels]
  | cons a ls ih =>
    unfold splitLabels
    by_cases hk : a.kind = .label
    · simp only [hk, if_true]
      refine ⟨by simp, ?_⟩
      intro x hx
      rcases List.mem_cons.1 hx with rfl | hx
      · refine ⟨⟨by simp, hk⟩, ?_⟩
        intro y hy
        have := (ih (l := y)).1 hy
        exact ⟨by simp [this.1], this.2⟩
      · obtain ⟨⟨h1, h2⟩, h3⟩ := (ih (l := a)).2 x hx
        exact ⟨⟨by simp [h1], h2⟩, fun y hy => ⟨by simp [(h3 y hy).1], (h3 y hy).2⟩⟩
    · simp only [hk, if_false]
      constructor
      · intro hl
        rcases List.mem_cons.1 hl with rfl | hl
        · exact ⟨by simp, hk⟩
        · have := (ih (l := l)).1 hl
          exact ⟨by simp [this.1], this.2⟩
      · intro x hx
        obtain ⟨⟨h1, h2⟩, h3⟩ := (ih (l := a)).2 x hx
        exact ⟨⟨by simp [h1], h2⟩, fun y hy => ⟨by simp [(h3 y hy).1], (h3 y hy).2⟩⟩

theorem compileBlocks_labelled {sc : SetCompiler E} {mean : Line E → Meaning E} {good : List (Line E) → Prop} (hc : Contracts sc mean good)
    (bs : List (Line E × List (Line E))) {prog : List (Section E)}
    (hlab : ∀ x ∈ bs, x.1.pat.LabelSound (mean x.1))
    (hgood : ∀ x ∈ bs, good x.2)
    (hbody : ∀ x ∈ bs, ∀ l ∈ x.2, l.kind ≠ .label ∧ l.kind ≠ .count 0)
    (h : compileBlocks sc (bs.map (fun x => (some x.1, x.2))) = .ok (.ok prog)) :
    ∃ cs, prog = cs.map blockSection ∧
      List.Forall₂ BlockDen cs (bs.map (fun x => (mean x.1, x.2.map (Line.directive mean)))) := by
  induction bs generalizing prog with
  | nil => simp [compileBlocks] at h; exact ⟨[], by simp [h], .nil⟩
  | cons x bs ih =>
    rw [List.map_cons, compileBlocks] at h
    obtain ⟨r, hr, h1⟩ := bind_ok.1 h
    split at h1
    · simp at h1
    · simp at h1
    · rename_i gs
      obtain ⟨rest, hrest, h2⟩ := bind_ok.1 h1
      split at h2
      · simp at h2
      · rename_i rest'
        simp only [Except.ok.injEq] at h2
        obtain ⟨cs, hcs, hden⟩ := ih (fun x hx => hlab x (by simp [hx])) (fun x hx => hgood x (by simp [hx])) (fun x hx => hbody x (by simp [hx])) hrest
        have hb := compileBody_den hc _ _ _ _ [] _ _ (hgood x (by simp)) (fun l hl => (hbody x (by simp) l hl).1)
          (fun l hl => (hbody x (by simp) l hl).2) (show PendDen [] none [] from GroupsDen.nil) hr
        simp only [List.nil_append] at hb
        refine ⟨(x.1.pat, gs) :: cs, by rw [← h2, hcs]; rfl, ?_⟩
        exact .cons ⟨hlab x (by simp), hb⟩ hden

/-- Soundness of compiling and checking: if the result has no errors, the input satisfies the lines. -/
theorem compile_check_sound {sc : SetCompiler E} {mean : Line E → Meaning E} {good : List (Line E) → Prop} (hc : Contracts sc mean good)
    {imp : Option (Line E)} (himp : ∀ l ∈ imp, l.kind = .not) {lines : List (Line E)}
    (hgh : good (headLines imp lines)) (hgb : ∀ x ∈ (splitLabels lines).2, good (imp.toList ++ x.2))
    (hcz : ∀ l ∈ lines, l.kind ≠ .count 0)
    (hlab : ∀ l ∈ lines, l.kind = .label → l.pat.LabelSound (mean l))
    (hne : (splitLabels lines).2 ≠ [] → ∀ l ∈ headLines imp lines, l.kind ≠ .empty → l.kind ≠ .not →
      ∀ env b s e env', mean l env b s e env' → s < e)
    {prog : List (Section E)} (hcomp : compile sc imp lines = .ok (.ok prog))
    {o : CheckOpts} {clear : E → E} {env : E} {b : Buf} (hlf : LFMode b ∨ Lineless prog) {tr : TestResult}
    (h : checkInput o clear prog env b = .ok tr) (hok : tr.errors = []) :
    (o.allowEmpty = true ∨ b ≠ []) ∧
    Satisfied b (enterEnv o clear) env ((headLines imp lines).map (Line.directive mean))
      ((splitLabels lines).2.map (fun x => (mean x.1, (imp.toList ++ x.2).map (Line.directive mean)))) := by
  unfold compile at hcomp
  split at hcomp
  · simp at hcomp
  · rename_i hnonempty
    split at hcomp
    · simp at hcomp
    · rename_i blocks hbl
      have hblocks := compileLines_eq hbl
      have hheadk : ∀ l ∈ headLines imp lines, l.kind ≠ .label ∧ l.kind ≠ .count 0 := by
        intro l hl
        unfold headLines at hl
        have himp' : l ∈ imp.toList → l.kind ≠ .label ∧ l.kind ≠ .count 0 := by
          intro hl
          rw [himp l (by cases imp <;> simp_all)]; simp
        rcases List.mem_append.1 hl with hl | hl
        · exact himp' hl
        · obtain ⟨x, hx, hlx⟩ := List.mem_flatMap.1 hl
          have hxm := (splitLabels_mem (l := x)).1 hx
          unfold withImplicit at hlx
          split at hlx
          · simp at hlx; subst hlx; exact ⟨hxm.2, hcz _ hxm.1⟩
          · rcases List.mem_cons.1 hlx with rfl | hlx
            · exact ⟨hxm.2, hcz _ hxm.1⟩
            · exact himp' hlx
      have hbodyk : ∀ x ∈ (splitLabels lines).2.map (fun x => (x.1, imp.toList ++ x.2)), ∀ l ∈ x.2,
          l.kind ≠ .label ∧ l.kind ≠ .count 0 := by
        intro x hx l hl
        obtain ⟨y, hy, rfl⟩ := List.mem_map.1 hx
        have := (splitLabels_mem (l := y.1)).2 y hy
        rcases List.mem_append.1 hl with hl | hl
        · rw [himp l (by cases imp <;> simp_all)]; simp
        · exact ⟨(this.2 l hl).2, hcz l (this.2 l hl).1⟩
      have hlabk : ∀ x ∈ (splitLabels lines).2.map (fun x => (x.1, imp.toList ++ x.2)), x.1.pat.LabelSound (mean x.1) := by
        intro x hx
        obtain ⟨y, hy, rfl⟩ := List.mem_map.1 hx
        have := (splitLabels_mem (l := y.1)).2 y hy
        exact hlab _ this.1.1 this.1.2
      have hmap : (splitLabels lines).2.map (fun x => (some x.1, imp.toList ++ x.2)) =
          ((splitLabels lines).2.map (fun x => (x.1, imp.toList ++ x.2))).map (fun x => (some x.1, x.2)) := by
        rw [List.map_map]; rfl
      have hmap2 : (splitLabels lines).2.map (fun x => (mean x.1, (imp.toList ++ x.2).map (Line.directive mean))) =
          ((splitLabels lines).2.map (fun x => (x.1, imp.toList ++ x.2))).map
            (fun x => (mean x.1, x.2.map (Line.directive mean))) := by
        rw [List.map_map]; rfl
      rw [hmap2]
      have hgb' : ∀ x ∈ (splitLabels lines).2.map (fun x => (x.1, imp.toList ++ x.2)), good x.2 := by
        intro x hx
        obtain ⟨y, hy, rfl⟩ := List.mem_map.1 hx
        exact hgb y hy
      -- the head groups and the labelled blocks of the program
      have hstruct : ∃ gs cs, prog = gs.map .group ++ cs.map blockSection ∧
          GroupsDen gs ((headLines imp lines).map (Line.directive mean)) ∧
          (headLines imp lines = [] → gs = []) ∧
          List.Forall₂ BlockDen cs (((splitLabels lines).2.map (fun x => (x.1, imp.toList ++ x.2))).map
            (fun x => (mean x.1, x.2.map (Line.directive mean)))) := by
        rw [hblocks, hmap] at hcomp
        by_cases hh : headLines imp lines = []
        · rw [hh] at hcomp
          simp only [headBlocks, List.isEmpty_nil, if_true, List.nil_append] at hcomp
          obtain ⟨cs, h1, h2⟩ := compileBlocks_labelled hc _ hlabk hgb' hbodyk hcomp
          exact ⟨[], cs, by simp [h1], by rw [hh]; exact GroupsDen.nil, fun _ => rfl, h2⟩
        · have hhb : headBlocks (headLines imp lines) = [(none, headLines imp lines)] := by
            unfold headBlocks
            rw [if_neg (by simpa using hh)]
          rw [hhb, List.singleton_append, compileBlocks] at hcomp
          obtain ⟨r, hr, h1⟩ := bind_ok.1 hcomp
          split at h1
          · simp at h1
          · simp at h1
          · rename_i gs
            obtain ⟨rest, hrest, h2⟩ := bind_ok.1 h1
            split at h2
            · simp at h2
            · rename_i rest'
              simp only [Except.ok.injEq] at h2
              obtain ⟨cs, h3, h4⟩ := compileBlocks_labelled hc _ hlabk hgb' hbodyk hrest
              have hb := compileBody_den hc _ _ _ _ [] _ _ hgh (fun l hl => (hheadk l hl).1)
                (fun l hl => (hheadk l hl).2) (show PendDen [] none [] from GroupsDen.nil) hr
              simp only [List.nil_append] at hb
              exact ⟨gs, cs, by rw [← h2, h3], hb, fun h => absurd h hh, h4⟩
      obtain ⟨gs, cs, hprog, hgs, hgse, hcs⟩ := hstruct
      subst hprog
      have hlen : cs = [] ↔ (splitLabels lines).2 = [] := by
        have := hcs.length_eq
        simp only [List.length_map] at this
        rw [← List.length_eq_zero_iff, this, List.length_eq_zero_iff]
      refine checkInput_sound hgs ?_ ?_ hcs ((headLines_relative himp hbl).firstAbsolute (fun l hl => (hheadk l hl).1)) ?_ ?_ hlf h hok
      · intro hg
        obtain ⟨dss, hf, hfl⟩ := hgs
        subst hg
        cases hf
        exact hfl.symm
      · intro hg hd
        exact hg (hgse (by simpa using hd))
      · intro hcn d hd
        obtain ⟨l, hl, rfl⟩ := List.mem_map.1 hd
        exact hne (fun hx => hcn (hlen.2 hx)) l hl
      · by_contra hcon
        simp only [not_or, not_not] at hcon
        obtain ⟨hg, hcn⟩ := hcon
        have h2 := hlen.1 hcn
        obtain ⟨dss, hf, hfl⟩ := hgs
        subst hg
        cases hf
        simp at hfl
        have hh : headLines imp lines = [] := hfl
        unfold headLines at hh
        have hi : imp = none := by
          cases imp with
          | none => rfl
          | some x => simp at hh
        subst hi
        have hs1 : (splitLabels lines).1 = [] := by
          cases hs : (splitLabels lines).1 with
          | nil => rfl
          | cons a as =>
            rw [hs] at hh
            simp only [Option.toList_none, List.nil_append, List.flatMap_cons, List.append_eq_nil_iff] at hh
            unfold withImplicit at hh
            split at hh <;> simp at hh
        have : lines = [] := by
          cases lines with
          | nil => rfl
          | cons a as =>
            unfold splitLabels at hs1 h2
            split at hs1
            · rename_i hk; simp [hk] at h2
            · simp at hs1
        simp [this] at hnonempty

end Litcheck
