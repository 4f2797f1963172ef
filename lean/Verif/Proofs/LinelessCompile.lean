import Verif.Proofs.EndToEnd

/-!
# Check files which do not look at lines
-/

namespace Litcheck
open Spec
variable {E : Type}

theorem compileRule_plain {l : Line E} (h : FreeOfLines l.kind) : (compileRule l).IsPlain := by
  unfold compileRule
  rcases h with h | h | h | ⟨n, h⟩ <;> rw [h] <;> exact ⟨_, rfl⟩

theorem pushGroup_lineless {gs : List (Group E)} {pending : Pending E} {g : Group E} (h1 : ∀ x ∈ gs, x.Lineless)
    (h2 : ∀ t p, pending = some (some t, p) → t.Lineless) (h3 : g.Lineless) : ∀ x ∈ pushGroup gs pending g, x.Lineless := by
  unfold pushGroup
  intro x hx
  split at hx
  · rcases List.mem_append.1 hx with hx | hx
    · exact h1 x hx
    · rw [List.mem_singleton] at hx
      subst hx
      simp only [Group.Lineless, Tree.Lineless]
      exact ⟨h2 _ _ rfl, h3⟩
  · rcases List.mem_append.1 hx with hx | hx
    · exact h1 x hx
    · rw [List.mem_singleton] at hx
      subst hx
      simpa only [Group.Lineless, Tree.Lineless] using h3
  · rcases List.mem_append.1 hx with hx | hx
    · exact h1 x hx
    · rw [List.mem_singleton] at hx
      subst hx
      exact h3

theorem popLeft_lineless {gs : List (Group E)} (h : ∀ x ∈ gs, x.Lineless) :
    (∀ x ∈ (popLeft gs).1, x.Lineless) ∧ ∀ t, (popLeft gs).2 = some t → t.Lineless := by
  unfold popLeft
  split
  · rename_i t ht
    refine ⟨fun x hx => h x (List.dropLast_subset _ hx), ?_⟩
    rintro _ ⟨⟩
    have := h _ (List.mem_of_getLast? ht)
    rwa [Group.Lineless] at this
  · refine ⟨fun x hx => h x (List.dropLast_subset _ hx), ?_⟩
    rintro _ ⟨⟩
    simp only [Tree.Lineless, Group.Lineless]
  · exact ⟨h, by simp⟩

theorem dagGroup_lineless (d : Dag E) {ls : List (Line E)} (h : ∀ l ∈ ls, FreeOfLines l.kind) :
    (dagGroup d ls).1.Lineless ∧ ∀ l ∈ (dagGroup d ls).2, FreeOfLines l.kind := by
  unfold dagGroup
  split
  · rename_i l rest
    have h1 := h l (by simp)
    have h2 : ∀ l ∈ rest, FreeOfLines l.kind := fun x hx => h x (by simp [hx])
    split
    · refine ⟨?_, h2⟩
      simp only [Group.Lineless, List.mem_singleton, forall_eq]
      exact compileRule_plain h1
    · refine ⟨?_, h2⟩
      simp only [Group.Lineless]
      exact compileRule_plain h1
    · exact ⟨by simp only [Group.Lineless], h⟩
  · exact ⟨by simp only [Group.Lineless], h⟩

theorem compileBody_lineless {sc : SetCompiler E} : ∀ (n : Nat) (ls : List (Line E)) (gs : List (Group E)) (pending : Pending E),
    (∀ l ∈ ls, FreeOfLines l.kind) → (∀ x ∈ gs, x.Lineless) → (∀ t p, pending = some (some t, p) → t.Lineless) →
    ∀ gs' p', compileBody sc n ls gs pending = .ok (.ok (gs', p')) → ∀ x ∈ gs', x.Lineless := by
  intro n
  induction n with
  | zero =>
    intro ls gs pending _ h2 _ gs' p' h
    cases ls with
    | nil =>
      rw [compileBody] at h
      simp only [Except.ok.injEq, Prod.mk.injEq] at h
      rw [← h.1]; exact h2
    | cons l ls => simp [compileBody] at h
  | succ n ih =>
    intro ls gs pending h1 h2 h3 gs' p' h
    cases ls with
    | nil =>
      rw [compileBody] at h
      simp only [Except.ok.injEq, Prod.mk.injEq] at h
      rw [← h.1]; exact h2
    | cons l ls =>
      have hl := h1 l (by simp)
      have hls : ∀ x ∈ ls, FreeOfLines x.kind := fun x hx => h1 x (by simp [hx])
      rw [compileBody.eq_def] at h
      dsimp only at h
      split at h
      · split at h
        · simp at h
        · split at h
          · simp at h
          · simp at h
          · rename_i matcher _
            have hp := popLeft_lineless h2
            have hd : ∀ x ∈ ls.dropWhile Line.isNot, FreeOfLines x.kind := fun x hx => hls x ((List.dropWhile_suffix _).subset hx)
            split at h
            · split at h
              · rename_i t ht
                refine ih _ _ _ hd ?_ (by simp) _ _ h
                intro x hx
                rcases List.mem_append.1 hx with hx | hx
                · exact hp.1 x hx
                · rw [List.mem_singleton] at hx
                  subst hx
                  simp only [Group.Lineless, Tree.Lineless]
                  exact hp.2 t ht
              · refine ih _ _ _ hd ?_ (by simp) _ _ h
                intro x hx
                rcases List.mem_append.1 hx with hx | hx
                · exact hp.1 x hx
                · rw [List.mem_singleton] at hx
                  subst hx
                  simp only [Group.Lineless]
            · refine ih _ _ _ hd hp.1 ?_ _ _ h
              intro t p he
              simp only [Option.some.injEq, Prod.mk.injEq] at he
              exact hp.2 t he.1
      · split at h
        · simp at h
        · simp at h
        · rename_i d _
          have hd : ∀ x ∈ ls.dropWhile Line.isDag, FreeOfLines x.kind := fun x hx => hls x ((List.dropWhile_suffix _).subset hx)
          obtain ⟨k1, k2⟩ := dagGroup_lineless d hd
          exact ih _ _ _ k2 (pushGroup_lineless h2 h3 k1) (by simp) _ _ h
      · refine ih _ _ _ hls (pushGroup_lineless h2 h3 ?_) (by simp) _ _ h
        simp only [Group.Lineless]
        exact compileRule_plain hl
      · refine ih _ _ _ (fun x hx => hls x ((List.dropWhile_suffix _).subset hx)) (pushGroup_lineless h2 h3 ?_) (by simp) _ _ h
        simp only [Group.Lineless]
        intro r hr
        obtain ⟨x, hx, rfl⟩ := List.mem_map.1 hr
        rcases List.mem_cons.1 hx with rfl | hx
        · exact compileRule_plain hl
        · exact compileRule_plain (hls x ((List.takeWhile_prefix _).subset hx))

/-- A check file whose lines do not look at lines is compiled into such a program. -/
theorem compile_lineless {sc : SetCompiler E} {imp : Option (Line E)} (himp : ∀ l ∈ imp, l.kind = .not) {lines : List (Line E)}
    (hl : ∀ l ∈ lines, FreeOfLines l.kind) {prog : List (Section E)} (h : compile sc imp lines = .ok (.ok prog)) : Lineless prog := by
  unfold compile at h
  split at h
  · simp at h
  · split at h
    · simp at h
    · rename_i blocks hbl
      rw [compileLines_eq hbl] at h
      have hno : ∀ l ∈ lines, l.kind ≠ .label := by
        intro l hx
        rcases hl l hx with e | e | e | ⟨n, e⟩ <;> rw [e] <;> simp
      have hsplit : ∀ lines : List (Line E), (∀ l ∈ lines, l.kind ≠ .label) → splitLabels lines = (lines, []) := by
        intro lines
        induction lines with
        | nil => intro _; rfl
        | cons l ls ih =>
          intro hk
          rw [splitLabels, if_neg (hk l (by simp)), ih fun x hx => hk x (by simp [hx])]
      rw [hsplit lines hno] at h
      have hhead : ∀ l ∈ headLines imp lines, FreeOfLines l.kind := by
        have himp' : ∀ l ∈ imp.toList, FreeOfLines l.kind := fun l hx => .inr (.inl (himp l (by simpa using hx)))
        intro l hx
        unfold headLines at hx
        rw [hsplit lines hno] at hx
        rcases List.mem_append.1 hx with hx | hx
        · exact himp' l hx
        · obtain ⟨x, hx, hlx⟩ := List.mem_flatMap.1 hx
          unfold withImplicit at hlx
          split at hlx
          · rw [List.mem_singleton] at hlx
            subst hlx; exact hl _ hx
          · rcases List.mem_cons.1 hlx with rfl | hlx
            · exact hl _ hx
            · exact himp' l hlx
      simp only [List.map_nil, List.append_nil] at h
      unfold headBlocks at h
      split at h
      · simp only [compileBlocks, Except.ok.injEq] at h
        subst h
        intro s hs
        simp at hs
      · simp only [compileBlocks] at h
        obtain ⟨r, h1, h2⟩ := bind_ok.1 h
        match r, h1, h2 with
        | .error e, h1, h2 => simp at h2
        | .ok (gs, some p), h1, h2 => simp at h2
        | .ok (gs, none), h1, h2 =>
          simp only [bind, Except.bind, List.append_nil, Except.ok.injEq] at h2
          have := compileBody_lineless _ _ _ _ hhead (by simp) (by simp) _ _ h1
          subst h2
          intro s hs
          obtain ⟨g, hg, rfl⟩ := List.mem_map.1 hs
          exact ⟨g, rfl, this g hg⟩

theorem Spec.Readable.prog {sc : SetCompiler E} {imp : Option (Line E)} (himp : ∀ l ∈ imp, l.kind = .not) {lines : List (Line E)} {b : Buf}
    (h : Readable (lines.map Line.kind) b) {prog : List (Section E)} (hc : compile sc imp lines = .ok (.ok prog)) : LFMode b ∨ Lineless prog :=
  h.imp_right fun hl => compile_lineless himp (fun l hx => hl _ (List.mem_map.2 ⟨l, hx, rfl⟩)) hc

end Litcheck
