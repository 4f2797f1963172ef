import Verif.Proofs.SimulateCheck

/-!
# Two runs side by side: the compiler
-/

namespace Litcheck.Simulate
open Spec
variable {E : Type} {b b' : Buf} {R : E → E → Prop} {Q : Line E → Line E → Prop}

/-- Related lines; `Q` is what else is known about them. -/
structure LineSim (Q : Line E → Line E → Prop) (R : E → E → Prop) (b b' : Buf) (l l' : Line E) : Prop where
  kind : l'.kind = l.kind
  pat : PatSim R b b' l.pat l'.pat
  extra : Q l l'

/-- Both there and related, or both missing. -/
def OptSim {α : Type} (S : α → α → Prop) : Option α → Option α → Prop
  | none, none => True
  | some x, some y => S x y
  | _, _ => False

/-- The compilers make related sets. -/
structure SetSim (Q : Line E → Line E → Prop) (R : E → E → Prop) (b b' : Buf) (sc sc' : SetCompiler E) : Prop where
  nots : ∀ ls ls', List.Forall₂ (LineSim Q R b b') ls ls' → (∀ l ∈ ls, l.kind = .not) → RelP (OptSim (PatSim R b b')) (sc.nots ls) (sc'.nots ls')
  dags : ∀ ls ls', List.Forall₂ (LineSim Q R b b') ls ls' → (∀ l ∈ ls, l.kind = .dag) → RelP (OptSim (DagSim R b b')) (sc.dags ls) (sc'.dags ls')

/-- The same error, or related results. -/
def ExSim {α : Type} (S : α → α → Prop) : Except CompileError α → Except CompileError α → Prop
  | .ok x, .ok y => S x y
  | .error e, .error e' => e' = e
  | _, _ => False

/-- Related blocks of lines. -/
def LBlockSim (Q : Line E → Line E → Prop) (R : E → E → Prop) (b b' : Buf) (x y : LBlock E) : Prop := OptSim (LineSim Q R b b') x.1 y.1 ∧ List.Forall₂ (LineSim Q R b b') x.2 y.2

theorem OptSim.isSome {α : Type} {S : α → α → Prop} {x y : Option α} (h : OptSim S x y) : y.isSome = x.isSome := by
  cases x <;> cases y <;> simp_all [OptSim]

theorem OptSim.toList {α : Type} {S : α → α → Prop} {x y : Option α} (h : OptSim S x y) : List.Forall₂ S x.toList y.toList := by
  cases x <;> cases y <;> simp_all [OptSim]

theorem forall_append {α : Type} {S : α → α → Prop} {a a' c c' : List α} (h : List.Forall₂ S a a') (h' : List.Forall₂ S c c') :
    List.Forall₂ S (a ++ c) (a' ++ c') := List.rel_append h h'

theorem forall_isEmpty {α : Type} {S : α → α → Prop} {a a' : List α} (h : List.Forall₂ S a a') : a'.isEmpty = a.isEmpty := by
  cases h <;> rfl

theorem canInsert_sim {bl bl' : List (Line E)} (h : List.Forall₂ (LineSim Q R b b') bl bl') {x x' : Option (Line E)}
    (hx : OptSim (LineSim Q R b b') x x') : canInsertDependent bl' x' = canInsertDependent bl x := by
  unfold canInsertDependent
  rw [hx.isSome]
  split
  · rfl
  · induction h with
    | nil => rfl
    | cons h1 _ ih => simp only [List.any_cons, h1.kind, ih]

theorem linesLoop_sim {imp imp' : Option (Line E)} (himp : OptSim (LineSim Q R b b') imp imp') :
    ∀ {ls ls' : List (Line E)}, List.Forall₂ (LineSim Q R b b') ls ls' → ∀ {x x' : Option (Line E)} {bl bl' : List (Line E)} {bs bs' : List (LBlock E)},
    OptSim (LineSim Q R b b') x x' → List.Forall₂ (LineSim Q R b b') bl bl' → List.Forall₂ (LBlockSim Q R b b') bs bs' →
    ExSim (List.Forall₂ (LBlockSim Q R b b')) (compileLinesLoop imp ls x bl bs) (compileLinesLoop imp' ls' x' bl' bs')
  | _, _, .nil, x, x', bl, bl', bs, bs', hx, hbl, hbs => by
    unfold compileLinesLoop
    rw [hx.isSome, forall_isEmpty hbl]
    split
    · exact forall_append hbs (.cons ⟨hx, hbl⟩ .nil)
    · exact hbs
  | _, _, .cons hl hls, x, x', bl, bl', bs, bs', hx, hbl, hbs => by
    rw [compileLinesLoop.eq_def, compileLinesLoop.eq_def (imp := imp')]
    dsimp only
    rw [hl.kind, hx.isSome, forall_isEmpty hbl, canInsert_sim hbl hx]
    split
    · split
      · exact linesLoop_sim himp hls hl himp.toList (forall_append hbs (.cons ⟨hx, hbl⟩ .nil))
      · exact linesLoop_sim himp hls hl hbl hbs
    · split
      · exact linesLoop_sim himp hls hx (forall_append hbl (.cons hl .nil)) hbs
      · split
        · exact linesLoop_sim himp hls hx (forall_append hbl (.cons hl .nil)) hbs
        · split
          · exact linesLoop_sim himp hls hx (forall_append (forall_append hbl (.cons hl .nil)) himp.toList) hbs
          · exact rfl
        · split
          · exact linesLoop_sim himp hls hx (forall_append (forall_append hbl (.cons hl .nil)) himp.toList) hbs
          · exact rfl
        · split
          · exact linesLoop_sim himp hls hx (forall_append (forall_append hbl (.cons hl .nil)) himp.toList) hbs
          · exact rfl
        · exact linesLoop_sim himp hls hx (forall_append (forall_append hbl (.cons hl .nil)) himp.toList) hbs

theorem compileRule_sim {l l' : Line E} (h : LineSim Q R b b' l l') : RuleSim R b b' (compileRule l) (compileRule l') := by
  unfold compileRule
  rw [h.kind]
  split
  · exact h.pat
  · exact h.pat
  · exact h.pat.pspan
  · exact h.pat

/-- Related pending trees. -/
def PendSim (R : E → E → Prop) (b b' : Buf) : Pending E → Pending E → Prop :=
  OptSim fun x y => OptSim (TreeSim R b b') x.1 y.1 ∧ PatSim R b b' x.2 y.2

theorem push_sim {gs gs' : List (Group E)} (hg : List.Forall₂ (GroupSim R b b') gs gs') {p p' : Pending E} (hp : PendSim R b b' p p')
    {g g' : Group E} (h : GroupSim R b b' g g') : List.Forall₂ (GroupSim R b b') (pushGroup gs p g) (pushGroup gs' p' g') := by
  unfold pushGroup
  rcases p with _ | ⟨_ | t, root⟩ <;> rcases p' with _ | ⟨_ | t', root'⟩ <;> simp only [PendSim, OptSim] at hp <;> dsimp only
  · exact forall_append hg (.cons h .nil)
  · refine forall_append hg (.cons ?_ .nil)
    simp only [GroupSim, TreeSim]; exact ⟨hp.2, h⟩
  · exact hp.1.elim
  · exact hp.1.elim
  · refine forall_append hg (.cons ?_ .nil)
    simp only [GroupSim, TreeSim]; exact ⟨hp.2, hp.1, h⟩

theorem getLast_sim {gs gs' : List (Group E)} (hg : List.Forall₂ (GroupSim R b b') gs gs') :
    OptSim (GroupSim R b b') gs.getLast? gs'.getLast? ∧ List.Forall₂ (GroupSim R b b') gs.dropLast gs'.dropLast := by
  have h := List.rel_reverse hg
  rw [List.getLast?_eq_head?_reverse, List.getLast?_eq_head?_reverse]
  constructor
  · revert h
    generalize gs.reverse = u
    generalize gs'.reverse = v
    intro h
    cases h with
    | nil => trivial
    | cons h1 _ => exact h1
  · have e := hg.length_eq
    rw [List.dropLast_eq_take, List.dropLast_eq_take, e]
    exact List.forall₂_take _ hg

theorem pop_sim {gs gs' : List (Group E)} (hg : List.Forall₂ (GroupSim R b b') gs gs') :
    List.Forall₂ (GroupSim R b b') (popLeft gs).1 (popLeft gs').1 ∧ OptSim (TreeSim R b b') (popLeft gs).2 (popLeft gs').2 := by
  obtain ⟨h1, h2⟩ := getLast_sim hg
  unfold popLeft
  revert h1
  generalize gs.getLast? = x
  generalize gs'.getLast? = y
  intro h1
  cases x <;> cases y <;> simp only [OptSim] at h1
  · exact ⟨hg, trivial⟩
  · rename_i g g'
    cases g <;> cases g' <;> simp only [GroupSim] at h1 <;> dsimp only
    all_goals first
      | exact ⟨hg, trivial⟩
      | (refine ⟨h2, ?_⟩; simp only [OptSim, TreeSim, GroupSim]; exact h1)

theorem dagGroup_sim {d d' : Dag E} (hd : DagSim R b b' d d') {ls ls' : List (Line E)} (h : List.Forall₂ (LineSim Q R b b') ls ls') :
    GroupSim R b b' (dagGroup d ls).1 (dagGroup d' ls').1 ∧ List.Forall₂ (LineSim Q R b b') (dagGroup d ls).2 (dagGroup d' ls').2 := by
  unfold dagGroup
  cases h with
  | nil => exact ⟨by simpa only [GroupSim] using hd, .nil⟩
  | cons h1 h2 =>
    dsimp only
    rw [h1.kind]
    split
    · exact ⟨by simp only [GroupSim]; exact ⟨hd, .cons (compileRule_sim h1) .nil⟩, h2⟩
    · exact ⟨by simp only [GroupSim]; exact ⟨hd, compileRule_sim h1, trivial⟩, h2⟩
    · exact ⟨by simpa only [GroupSim] using hd, .cons h1 h2⟩

theorem while_sim {f : Line E → Bool} (hf : ∀ l l', LineSim Q R b b' l l' → f l' = f l) {ls ls' : List (Line E)}
    (h : List.Forall₂ (LineSim Q R b b') ls ls') :
    List.Forall₂ (LineSim Q R b b') (ls.takeWhile f) (ls'.takeWhile f) ∧ List.Forall₂ (LineSim Q R b b') (ls.dropWhile f) (ls'.dropWhile f) := by
  induction h with
  | nil => exact ⟨.nil, .nil⟩
  | @cons l l' _ _ h1 h2 ih =>
    simp only [List.takeWhile_cons, List.dropWhile_cons, hf _ _ h1]
    cases f l
    · exact ⟨.nil, .cons h1 h2⟩
    · exact ⟨.cons h1 ih.1, ih.2⟩

theorem takeWhile_holds {f : Line E → Bool} {x : Line E} : ∀ {ls : List (Line E)}, x ∈ ls.takeWhile f → f x = true
  | [], h => by simp at h
  | l :: ls, h => by
    rw [List.takeWhile_cons] at h
    split at h
    · rcases List.mem_cons.1 h with rfl | h
      · assumption
      · exact takeWhile_holds h
    · simp at h

theorem body_sim {sc sc' : SetCompiler E} (hsc : SetSim Q R b b' sc sc') : ∀ (n : Nat) {ls ls' : List (Line E)}, List.Forall₂ (LineSim Q R b b') ls ls' →
    ∀ {gs gs' : List (Group E)}, List.Forall₂ (GroupSim R b b') gs gs' → ∀ {p p' : Pending E}, PendSim R b b' p p' →
    RelP (ExSim fun x y => List.Forall₂ (GroupSim R b b') x.1 y.1 ∧ PendSim R b b' x.2 y.2) (compileBody sc n ls gs p) (compileBody sc' n ls' gs' p')
  | n, _, _, .nil, gs, gs', hg, p, p', hp => by
    cases n <;> exact ⟨hg, hp⟩
  | 0, _, _, .cons _ _, gs, gs', hg, p, p', hp => rfl
  | n + 1, _, _, .cons (a := l) (b := l') hl hls, gs, gs', hg, p, p', hp => by
    rw [compileBody.eq_def, compileBody.eq_def (sc := sc')]
    dsimp only
    rw [hl.kind]
    split
    · rename_i hk
      rw [hp.isSome]
      split
      · exact rfl
      · have hw := while_sim (f := Line.isNot) (fun _ _ h => by simp only [Line.isNot, h.kind]) hls
        have hn := hsc.nots _ _ (.cons hl hw.1) (by
          intro x hx
          rcases List.mem_cons.1 hx with rfl | hx
          · exact hk
          · simpa [Line.isNot] using takeWhile_holds hx)
        revert hn
        generalize sc.nots _ = u
        generalize sc'.nots _ = v
        intro hn
        obtain ⟨h1, h2⟩ := pop_sim hg
        rcases u with e | _ | q <;> rcases v with e' | _ | q' <;> simp only [RelP, OptSim] at hn
        · subst hn; exact rfl
        · exact rfl
        · dsimp only
          rw [forall_isEmpty hw.2]
          split
          · revert h2
            generalize (popLeft gs).2 = t
            generalize (popLeft gs').2 = t'
            intro h2
            cases t <;> cases t' <;> simp only [OptSim] at h2 <;> dsimp only
            · exact body_sim hsc n hw.2 (forall_append h1 (.cons (by simpa only [GroupSim] using hn) .nil)) trivial
            · exact body_sim hsc n hw.2 (forall_append h1 (.cons (by simp only [GroupSim, TreeSim]; exact ⟨hn, h2⟩) .nil)) trivial
          · exact body_sim hsc n hw.2 h1 ⟨h2, hn⟩
    · rename_i hk
      have hw := while_sim (f := Line.isDag) (fun _ _ h => by simp only [Line.isDag, h.kind]) hls
      have hn := hsc.dags _ _ (.cons hl hw.1) (by
        intro x hx
        rcases List.mem_cons.1 hx with rfl | hx
        · exact hk
        · simpa [Line.isDag] using takeWhile_holds hx)
      revert hn
      generalize sc.dags _ = u
      generalize sc'.dags _ = v
      intro hn
      rcases u with e | _ | q <;> rcases v with e' | _ | q' <;> simp only [RelP, OptSim] at hn
      · subst hn; exact rfl
      · exact rfl
      · dsimp only
        obtain ⟨h1, h2⟩ := dagGroup_sim hn hw.2
        exact body_sim hsc n h2 (push_sim hg hp h1) trivial
    · exact body_sim hsc n hls (push_sim hg hp (by simp only [GroupSim]; exact ⟨compileRule_sim hl, trivial⟩)) trivial
    · have hw := while_sim (f := fun l : Line E => !l.endsOrdered) (fun _ _ h => by simp only [Line.endsOrdered, h.kind]) hls
      refine body_sim hsc n hw.2 (push_sim hg hp ?_) trivial
      simp only [GroupSim]
      rw [List.forall₂_map_left_iff, List.forall₂_map_right_iff]
      exact List.Forall₂.imp (fun _ _ h => compileRule_sim h) (.cons hl hw.1)

theorem blocksC_sim {sc sc' : SetCompiler E} (hsc : SetSim Q R b b' sc sc') : ∀ {bs bs' : List (LBlock E)}, List.Forall₂ (LBlockSim Q R b b') bs bs' →
    RelP (ExSim (List.Forall₂ (SectionSim R b b'))) (compileBlocks sc bs) (compileBlocks sc' bs')
  | _, _, .nil => .nil
  | (x, body) :: _, (x', body') :: _, .cons h hs => by
    obtain ⟨h1, h2⟩ := h
    dsimp only at h1 h2
    unfold compileBlocks
    rw [← h2.length_eq]
    refine RelP.bind (body_sim hsc _ h2 .nil (p := none) (p' := none) trivial) ?_
    intro u v huv
    rcases u with e | ⟨g, _ | t⟩ <;> rcases v with e' | ⟨g', _ | t'⟩ <;> simp only [ExSim, PendSim, OptSim, and_false] at huv <;> dsimp only
    · subst huv; exact rfl
    · refine RelP.bind (blocksC_sim hsc hs) ?_
      intro u v huv2
      rcases u with e | r <;> rcases v with e' | r' <;> simp only [ExSim] at huv2 <;> dsimp only
      · subst huv2; exact rfl
      · cases x <;> cases x' <;> simp only [OptSim] at h1 <;> dsimp only
        · refine forall_append ?_ huv2
          rw [List.forall₂_map_left_iff, List.forall₂_map_right_iff]
          exact List.Forall₂.imp (fun _ _ h => by simpa only [SectionSim] using h) huv.1
        · exact .cons (by simp only [SectionSim]; exact ⟨h1.pat, huv.1⟩) huv2
    · exact rfl

theorem compile_sim {sc sc' : SetCompiler E} (hsc : SetSim Q R b b' sc sc') {imp imp' : Option (Line E)} (himp : OptSim (LineSim Q R b b') imp imp')
    {ls ls' : List (Line E)} (h : List.Forall₂ (LineSim Q R b b') ls ls') :
    RelP (ExSim (List.Forall₂ (SectionSim R b b'))) (compile sc imp ls) (compile sc' imp' ls') := by
  unfold compile
  have e1 : imp'.isNone = imp.isNone := by have := himp.isSome; cases imp <;> cases imp' <;> simp_all
  rw [forall_isEmpty h, e1]
  split
  · exact rfl
  · have h2 := linesLoop_sim himp h (x := none) (x' := none) trivial himp.toList (bs := []) (bs' := []) .nil
    unfold compileLines
    revert h2
    generalize compileLinesLoop imp ls none imp.toList [] = u
    generalize compileLinesLoop imp' ls' none imp'.toList [] = v
    intro h2
    rcases u with e | r <;> rcases v with e' | r' <;> simp only [ExSim] at h2 <;> dsimp only
    · subst h2; exact rfl
    · exact blocksC_sim hsc h2

/-- The verdicts are the same. -/
theorem verify_sim (hb : SameLines b b') {sc sc' : SetCompiler E} (hsc : SetSim Q R b b' sc sc') {o : CheckOpts} {clear : E → E}
    (hclear : ∀ e e', R e e' → R (clear e) (clear e')) {imp imp' : Option (Line E)} (himp : OptSim (LineSim Q R b b') imp imp')
    {ls ls' : List (Line E)} (h : List.Forall₂ (LineSim Q R b b') ls ls') {e e' : E} (he : R e e') :
    verify sc' o clear imp' ls' e' b' = verify sc o clear imp ls e b := by
  symm
  refine RelP.eq ?_
  unfold verify filecheck
  refine RelP.bind (R := Eq) ?_ ?_
  · refine RelP.bind (compile_sim hsc himp h) ?_
    intro u v huv
    rcases u with e | r <;> rcases v with e' | r' <;> simp only [ExSim] at huv <;> dsimp only
    · subst huv; exact rfl
    · rw [input_sim hb hclear huv he]
      exact RelP.bind (R := Eq) (RelP.self _ fun _ => rfl) (by rintro a _ rfl; exact rfl)
  · rintro a _ rfl
    exact rfl

end Litcheck.Simulate
