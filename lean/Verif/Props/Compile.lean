import Verif.Proofs.Structure
import Verif.Proofs.Completeness
import Verif.Props.FileCheckLiteral

/-!
# Properties C10, C11, C12, C16, C17, C18
-/

namespace Litcheck
open Spec
variable {E : Type}

/-! ## C16 -/

theorem allLines_splitLabels (lines : List (Line E)) :
    (splitLabels lines).1 ++ (splitLabels lines).2.flatMap (fun x => x.1 :: x.2) = lines := by
  induction lines with
  | nil => rfl
  | cons l ls ih =>
    unfold splitLabels
    split
    · simpa using ih
    · simpa using ih

theorem allLines_none (lines : List (Line E)) : allLines (fileBlocks none lines) = lines := by
  conv => rhs; rw [← allLines_splitLabels lines]
  unfold allLines fileBlocks headBlocks
  rw [headLines_none]
  split
  · rename_i h
    have : (splitLabels lines).1 = [] := by simpa using h
    rw [this]
    simp [List.flatMap_map]
  · simp [List.flatMap_map]

/-- Lines which come from the check file (`true`) or from the implicit check (`false`). -/
def Inserted (imp : Option (Line E)) (lines all : List (Line E)) : Prop :=
  ∃ marks : List (Bool × Line E), marks.map Prod.snd = all ∧
    (marks.filter (fun x => x.1)).map Prod.snd = lines ∧ ∀ x ∈ marks, x.1 = false → imp = some x.2

theorem Inserted.append {imp : Option (Line E)} {l1 l2 a1 a2 : List (Line E)} (h1 : Inserted imp l1 a1)
    (h2 : Inserted imp l2 a2) : Inserted imp (l1 ++ l2) (a1 ++ a2) := by
  obtain ⟨m1, rfl, rfl, h3⟩ := h1
  obtain ⟨m2, rfl, rfl, h4⟩ := h2
  refine ⟨m1 ++ m2, by simp, by simp, ?_⟩
  intro x hx
  rcases List.mem_append.1 hx with hx | hx
  · exact h3 x hx
  · exact h4 x hx

theorem Inserted.self (imp : Option (Line E)) (ls : List (Line E)) : Inserted imp ls ls :=
  ⟨ls.map (fun l => (true, l)), by simp [Function.comp_def], by simp [List.filter_eq_self.2, Function.comp_def], by simp⟩

theorem Inserted.imp (imp : Option (Line E)) : Inserted imp [] imp.toList :=
  ⟨imp.toList.map (fun l => (false, l)), by simp [Function.comp_def], by cases imp <;> simp, by cases imp <;> simp⟩

theorem Inserted.flatMap {α : Type} {imp : Option (Line E)} (f g : α → List (Line E)) (h : ∀ x, Inserted imp (f x) (g x)) :
    ∀ xs : List α, Inserted imp (xs.flatMap f) (xs.flatMap g)
  | [] => Inserted.self imp []
  | x :: xs => by simpa using (h x).append (Inserted.flatMap f g h xs)

theorem inserted_fileBlocks (imp : Option (Line E)) (lines : List (Line E)) :
    Inserted imp lines (allLines (fileBlocks imp lines)) := by
  have hh : Inserted imp (splitLabels lines).1 (headLines imp lines) := by
    unfold headLines
    have := (Inserted.imp imp).append (Inserted.flatMap (imp := imp) (fun l => [l]) (withImplicit imp) (fun l => by
      unfold withImplicit
      split
      · exact Inserted.self imp [l]
      · simpa using (Inserted.self imp [l]).append (Inserted.imp imp)) (splitLabels lines).1)
    simpa using this
  have hb := Inserted.flatMap (imp := imp) (fun x : Line E × List (Line E) => x.1 :: x.2)
    (fun x => x.1 :: (imp.toList ++ x.2)) (fun x => by
      simpa using (Inserted.self imp [x.1]).append ((Inserted.imp imp).append (Inserted.self imp x.2))) (splitLabels lines).2
  have := hh.append hb
  rw [allLines_splitLabels] at this
  have he : allLines (fileBlocks imp lines) =
      headLines imp lines ++ (splitLabels lines).2.flatMap (fun x => x.1 :: (imp.toList ++ x.2)) := by
    unfold allLines fileBlocks headBlocks
    split
    · rename_i h
      have : headLines imp lines = [] := by simpa using h
      rw [this]
      simp [List.flatMap_map]
    · simp [List.flatMap_map]
  rw [he]; exact this

theorem fileBlocks_kinds {imp : Option (Line E)} (himp : ∀ l ∈ imp, l.kind = .not) (lines : List (Line E)) :
    ∀ x ∈ fileBlocks imp lines, ∀ l ∈ x.2, l.kind ≠ .label := by
  have himp' : ∀ l ∈ imp.toList, l.kind ≠ .label := by
    intro l hl
    rw [himp l (by cases imp <;> simp_all)]; simp
  intro x hx l hl
  rcases List.mem_append.1 hx with hx | hx
  · unfold headBlocks at hx
    split at hx
    · simp at hx
    · simp at hx
      subst hx
      rcases List.mem_append.1 hl with hl | hl
      · exact himp' l hl
      · obtain ⟨y, hy, hly⟩ := List.mem_flatMap.1 hl
        unfold withImplicit at hly
        split at hly
        · simp at hly; subst hly; exact ((splitLabels_mem (l := l)).1 hy).2
        · rcases List.mem_cons.1 hly with rfl | hly
          · exact ((splitLabels_mem (l := l)).1 hy).2
          · exact himp' l hly
  · obtain ⟨y, hy, rfl⟩ := List.mem_map.1 hx
    rcases List.mem_append.1 hl with hl | hl
    · exact himp' l hl
    · exact (((splitLabels_mem (l := y.1)).2 y hy).2 l hl).2

theorem compile_of {sc : SetCompiler E} {imp : Option (Line E)} (himp : ∀ l ∈ imp, l.kind = .not) {lines : List (Line E)}
    {prog : List (Section E)} (h : compile sc imp lines = .ok (.ok prog)) :
    compileLines imp lines = .ok (fileBlocks imp lines) ∧ ProgramOf sc prog (fileBlocks imp lines) := by
  unfold compile at h
  split at h
  · simp at h
  · split at h
    · simp at h
    · rename_i blocks hb
      have := compileLines_eq hb
      rw [show headBlocks (headLines imp lines) ++ (splitLabels lines).2.map (fun x => (some x.1, imp.toList ++ x.2)) =
        fileBlocks imp lines from rfl] at this
      subst this
      exact ⟨hb, compileBlocks_of _ _ (fileBlocks_kinds himp lines) h⟩

/-- **C16**: the compiled program consists of the blocks of the check file, each with its label, and the groups
of a block hold the lines of the block, each once and in order; the lines of all blocks are those of the check
file, in order.  Nothing is assumed of the patterns. -/
theorem C16_compile_keeps {sc : SetCompiler E} {lines : List (Line E)} {prog : List (Section E)}
    (h : compile sc none lines = .ok (.ok prog)) :
    ∃ blocks, ProgramOf sc prog blocks ∧ allLines blocks = lines ∧
      ∀ x ∈ blocks, (∀ l ∈ x.1, l.kind = .label) ∧ ∀ l ∈ x.2, l.kind ≠ .label := by
  refine ⟨_, (compile_of (by simp) h).2, allLines_none lines, ?_⟩
  intro x hx
  refine ⟨?_, fileBlocks_kinds (by simp) lines x hx⟩
  rcases List.mem_append.1 hx with hx | hx
  · unfold headBlocks at hx
    split at hx
    · simp at hx
    · simp at hx; subst hx; simp
  · obtain ⟨y, hy, rfl⟩ := List.mem_map.1 hx
    simp only [Option.mem_def, Option.some.injEq, forall_eq']
    exact ((splitLabels_mem (l := y.1)).2 y hy).1.2

/-- **C16** with `--implicit-check-not`: the lines of the program are those of the check file, in order, with
copies of the implicit check inserted, and nothing else. -/
theorem C16_compile_keeps_implicit {sc : SetCompiler E} {imp : Option (Line E)} (himp : ∀ l ∈ imp, l.kind = .not)
    {lines : List (Line E)} {prog : List (Section E)} (h : compile sc imp lines = .ok (.ok prog)) :
    ∃ blocks, ProgramOf sc prog blocks ∧ Inserted imp lines (allLines blocks) :=
  ⟨_, (compile_of himp h).2, inserted_fileBlocks imp lines⟩

-- The example of `FileCheckLiteral.lean` compiles.
example : ∃ prog, compile (litSet false) none exLines = .ok (.ok prog) ∧ prog.length = 3 := ⟨_, rfl, rfl⟩
example : ∃ prog, compile (litSet false) (some (L .not "bad" 9)) exLines = .ok (.ok prog) := ⟨_, rfl⟩

/-! ## C17 -/

/-- A relative check which is not preceded by a `CHECK-LABEL`, `CHECK`, `CHECK-DAG` or `CHECK-COUNT`. -/
def RelativeFirst (lines : List (Line E)) : Prop :=
  ∃ pre l post, lines = pre ++ l :: post ∧ (l.kind = .next ∨ l.kind = .same ∨ l.kind = .empty) ∧
    ∀ x ∈ pre, x.kind = .not ∨ x.kind = .next ∨ x.kind = .same ∨ x.kind = .empty

theorem loop_labelled (imp : Option (Line E)) (lines : List (Line E)) :
    ∀ label block blocks, ∃ r, compileLinesLoop imp lines (some label) block blocks = .ok r := by
  induction lines with
  | nil => intro label block blocks; simp [compileLinesLoop]
  | cons l ls ih =>
    intro label block blocks
    unfold compileLinesLoop
    split
    · simpa using ih _ _ _
    · simpa using ih _ _ _

theorem relativeFirst_cons {l : Line E} {ls : List (Line E)} :
    RelativeFirst (l :: ls) ↔ (l.kind = .next ∨ l.kind = .same ∨ l.kind = .empty) ∨ (l.kind = .not ∧ RelativeFirst ls) := by
  constructor
  · rintro ⟨pre, x, post, h1, h2, h3⟩
    cases pre with
    | nil => simp at h1; rw [h1.1]; exact .inl h2
    | cons y ys =>
      simp at h1
      obtain ⟨rfl, h1⟩ := h1
      rcases h3 l (by simp) with h | h
      · exact .inr ⟨h, ys, x, post, h1, h2, fun z hz => h3 z (by simp [hz])⟩
      · exact .inl h
  · rintro (h | ⟨h, pre, x, post, h1, h2, h3⟩)
    · exact ⟨[], l, ls, rfl, h, by simp⟩
    · refine ⟨l :: pre, x, post, by simp [h1], h2, ?_⟩
      intro y hy
      rcases List.mem_cons.1 hy with rfl | hy
      · exact .inl h
      · exact h3 y hy

theorem loop_error {imp : Option (Line E)} (himp : ∀ l ∈ imp, l.kind = .not) (lines : List (Line E)) :
    ∀ (block : List (Line E)) blocks,
      ((∃ e, compileLinesLoop imp lines none block blocks = .error e) →
        compileLinesLoop imp lines none block blocks = .error .invalidFirstCheck) ∧
      (compileLinesLoop imp lines none block blocks = .error .invalidFirstCheck ↔
        block.any (fun l => Anchor l.kind) = false ∧ RelativeFirst lines) := by
  have hi : imp.toList.any (fun l => Anchor l.kind) = false := by
    cases imp with
    | none => rfl
    | some l => simp [himp l rfl, Anchor]
  induction lines with
  | nil =>
    intro block blocks
    have hn : ¬ RelativeFirst ([] : List (Line E)) := by
      rintro ⟨pre, l, post, h, _⟩; simp at h
    constructor
    · rintro ⟨e, h⟩
      unfold compileLinesLoop at h
      split at h <;> simp at h
    · unfold compileLinesLoop
      split <;> simp [hn]
  | cons l ls ih =>
    intro block blocks
    rw [relativeFirst_cons]
    have hrec : ∀ blk : List (Line E), blk.any (fun l => Anchor l.kind) = true →
        ((∃ e, compileLinesLoop imp ls none blk blocks = .error e) →
          compileLinesLoop imp ls none blk blocks = .error .invalidFirstCheck) ∧
        (compileLinesLoop imp ls none blk blocks = .error .invalidFirstCheck ↔ False) := by
      intro blk hb
      refine ⟨(ih blk blocks).1, ?_⟩
      rw [(ih blk blocks).2, hb]
      simp
    unfold compileLinesLoop
    rw [canInsert_none]
    cases hk : l.kind with
    | label =>
      obtain ⟨r1, hr1⟩ := loop_labelled imp ls l imp.toList (blocks ++ [(none, block)])
      obtain ⟨r2, hr2⟩ := loop_labelled imp ls l block blocks
      simp only [if_true, hr1, hr2]
      split <;> simp
    | plain =>
      have := hrec (block ++ [l] ++ imp.toList) (by simp [hk, Anchor])
      simpa using this
    | count n =>
      have := hrec (block ++ [l] ++ imp.toList) (by simp [hk, Anchor])
      simpa using this
    | dag =>
      have := hrec (block ++ [l] ++ imp.toList) (by simp [hk, Anchor])
      simpa using this
    | not =>
      have := ih (block ++ [l]) blocks
      simpa [hk, Anchor] using this
    | next =>
      simp only [reduceCtorEq, if_false, Option.isSome_none, Bool.false_eq_true]
      split
      · rename_i hc
        have := hrec (block ++ [l] ++ imp.toList) (by simp only [List.any_append, hc, Bool.true_or])
        rw [hc]; simpa using this
      · rename_i hc
        simp [Bool.not_eq_true _ ▸ hc]
    | same =>
      simp only [reduceCtorEq, if_false, Option.isSome_none, Bool.false_eq_true]
      split
      · rename_i hc
        have := hrec (block ++ [l] ++ imp.toList) (by simp only [List.any_append, hc, Bool.true_or])
        rw [hc]; simpa using this
      · rename_i hc
        simp [Bool.not_eq_true _ ▸ hc]
    | empty =>
      simp only [reduceCtorEq, if_false, Option.isSome_none, Bool.false_eq_true]
      split
      · rename_i hc
        have := hrec (block ++ [l] ++ imp.toList) (by simp only [List.any_append, hc, Bool.true_or])
        rw [hc]; simpa using this
      · rename_i hc
        simp [Bool.not_eq_true _ ▸ hc]

theorem compileBody_noFirst (sc : SetCompiler E) : ∀ (fuel : Nat) (body : List (Line E)) gs p e,
    compileBody sc fuel body gs p = .ok (.error e) → e = .pattern := by
  intro fuel
  induction fuel with
  | zero => intro body gs p e h; cases body <;> simp [compileBody] at h
  | succ fuel ih =>
    intro body gs p e h
    cases body with
    | nil => simp [compileBody] at h
    | cons l ls =>
      unfold compileBody at h
      split at h
      · split at h
        · simp at h
        · split at h
          · simp at h
          · simp at h; exact h.symm
          · dsimp only at h
            split at h
            · split at h
              · exact ih _ _ _ _ h
              · exact ih _ _ _ _ h
            · exact ih _ _ _ _ h
      · split at h
        · simp at h
        · simp at h; exact h.symm
        · exact ih _ _ _ _ h
      · exact ih _ _ _ _ h
      · exact ih _ _ _ _ h

theorem compileBlocks_noFirst (sc : SetCompiler E) : ∀ (bs : List (LBlock E)) e,
    compileBlocks sc bs = .ok (.error e) → e = .pattern
  | [], e, h => by simp [compileBlocks] at h
  | (label, body) :: bs, e, h => by
    unfold compileBlocks at h
    obtain ⟨r, h1, h2⟩ := bind_ok.1 h
    match r, h1, h2 with
    | .error e', h1, h2 => simp at h2; subst h2; exact compileBody_noFirst sc _ _ _ _ _ h1
    | .ok (gs, some p), h1, h2 => simp at h2
    | .ok (gs, none), h1, h2 =>
      dsimp only at h2
      obtain ⟨r2, h3, h4⟩ := bind_ok.1 h2
      match r2, h3, h4 with
      | .error e', h3, h4 => simp at h4; subst h4; exact compileBlocks_noFirst sc bs _ h3
      | .ok rest, h3, h4 => cases label <;> simp at h4

/-- **C17**: a check file is rejected because a relative check comes first, if and only if a `CHECK-NEXT`,
`CHECK-SAME` or `CHECK-EMPTY` of it is preceded by `CHECK-NOT` and relative checks only (hence neither by a label,
nor by a positive check).  `imp` is the implicit check. -/
theorem C17_relative_first {sc : SetCompiler E} {imp : Option (Line E)} (himp : ∀ l ∈ imp, l.kind = .not)
    (lines : List (Line E)) :
    compile sc imp lines = .ok (.error .invalidFirstCheck) ↔ RelativeFirst lines := by
  have hi : imp.toList.any (fun l => Anchor l.kind) = false := by
    cases imp with
    | none => rfl
    | some l => simp [himp l rfl, Anchor]
  have hl := loop_error himp lines imp.toList []
  rw [hi] at hl
  simp only [true_and] at hl
  unfold compile compileLines
  split
  · rename_i h
    have : lines = [] := by simpa using And.left (by simpa using h)
    subst this
    constructor
    · simp
    · rintro ⟨pre, l, post, h, _⟩; simp at h
  · cases hc : compileLinesLoop imp lines none imp.toList [] with
    | error e =>
      have := hl.1 ⟨e, hc⟩
      rw [hc] at this hl
      simp only [Except.error.injEq] at this
      subst this
      simp only [true_iff] at hl
      simp [hl]
    | ok blocks =>
      rw [hc] at hl
      simp only [reduceCtorEq, false_iff] at hl
      simp only [hl.2, iff_false]
      intro h
      have := compileBlocks_noFirst sc _ _ h
      simp at this

example : RelativeFirst [L .not "x" 0, L .next "y" 1] :=
  ⟨[L .not "x" 0], L .next "y" 1, [], rfl, .inl rfl, by intro x hx; simp at hx; subst hx; exact .inl rfl⟩
example : ¬ RelativeFirst exLines := by
  rw [← C17_relative_first (sc := litSet false) (imp := none) (by simp)]
  obtain ⟨prog, h⟩ : ∃ prog, compile (litSet false) none exLines = .ok (.ok prog) := ⟨_, rfl⟩
  rw [h]; simp

end Litcheck
