import Verif.Proofs.ExactFile
import Verif.Proofs.Literal

/-!
# Check files of literals: the assumptions of `ExactFile.lean`, and when they compile
-/

namespace Litcheck
open Spec
variable {E : Type}

/-- The first match of the literal of a line. -/
def litFirst (ic : Bool) (l : Line E) : Finder E := FirstOf (litMeaning ic l.src)

theorem litPat_finds (ic : Bool) (lit : Buf) (ps : Nat) : (litPat ic lit ps : Pat E).Finds (FirstOf (litMeaning ic lit)) where
  found := by
    intro b r env m env' _ _ h hok
    rcases litPat_run (ic := ic) (lit := lit) (ps := ps) b r env with ⟨s, e, h1, h2, h3, h4, h5⟩ | ⟨h1, _⟩
    · rw [h1] at h
      simp only [Prod.mk.injEq, Option.some.injEq] at h
      obtain ⟨rfl, rfl⟩ := h
      have := h4.1
      exact ⟨_, rfl, h2, by simp; omega, h3, ⟨rfl, h4⟩, fun s' e' _ k1 _ k2 k3 => h5 s' e' k1 k2 k3.2⟩
    · rw [h1] at h
      simp only [Prod.mk.injEq, Option.some.injEq] at h
      obtain ⟨rfl, rfl⟩ := h
      simp [matchNone, MatchResult.failed, MatchResult.isOk, MatchType.isOk] at hok
  first := by
    rintro b lo hi env s e env' hlo hhi ⟨k1, k2, k3, ⟨rfl, k4⟩, k5⟩
    rcases litPat_run (ic := ic) (lit := lit) (ps := ps) b ⟨lo, hi⟩ env' with ⟨s1, e1, h1, h2, h3, h4, h5⟩ | ⟨h1, h2⟩
    · have l1 := h4.1
      have l2 := k4.1
      have := h5 s e k1 k3 k4
      have := k5 s1 e1 env' h2 (by omega) h3 ⟨rfl, h4⟩
      exact ⟨_, _, h1, rfl, rfl, by simp only; omega, by simp only; omega⟩
    · exact absurd k4 (h2 s e k1 (by simp only; omega) k3)
  range := by
    rintro b lo hi env s e env' ⟨k1, k2, k3, _⟩
    exact ⟨k1, k2, k3⟩
  related := (litPat_sound ic lit ps).related

theorem litFirst_solid (ic : Bool) {lit : Buf} (hne : lit ≠ []) : Solid (FirstOf (litMeaning ic lit) : Finder E) := by
  rintro env b lo hi s e env' ⟨_, _, _, ⟨_, h, _⟩, _⟩
  have := List.length_pos_iff.2 hne
  omega

theorem litPat_labelExact (ic : Bool) (lit : Buf) (ps : Nat) (hne : lit ≠ []) (hlf : 10 ∉ lit) :
    (litPat ic lit ps : Pat E).LabelExact (FirstOf (litMeaning ic lit)) where
  finds := litPat_finds ic lit ps
  info := by
    intro b r env m i h hi
    rcases litPat_run (ic := ic) (lit := lit) (ps := ps) b r env with ⟨s, e, h1, _⟩ | ⟨h1, _⟩
    · rw [h1] at h
      simp only [Option.some.injEq] at h
      subst h; rfl
    · rw [h1] at h
      simp only [Option.some.injEq] at h
      subst h
      simp [matchNone, MatchResult.failed] at hi
  solid := litFirst_solid ic hne
  line := by
    rintro env b lo hi s e env' ⟨_, _, _, ⟨_, h4⟩, _⟩
    intro j hj1 hj2 hj
    have := h4.1
    have hk : j - s < lit.length := by omega
    obtain ⟨y, hy, hs⟩ := h4.2 (j - s) (lit[j - s]) (by simp [hk])
    have hjs : s + (j - s) = j := by omega
    rw [hjs] at hy
    unfold IsLF at hj
    rw [hj] at hy
    simp only [Option.some.injEq] at hy
    subst hy
    rcases hs with hs | ⟨_, hs⟩
    · exact hlf (hs ▸ List.getElem_mem hk)
    · simp at hs

/-- The literals which are kept are those of the lines. -/
theorem dedupe_from (ls : List (Line E)) : ∀ (id : Nat) (u : List (Buf × Nat × Nat)) (r : List (Buf × Nat)),
    dedupeLoop ls id u = .ok (some r) → ∀ x ∈ r, x.1 ∈ u.map Prod.fst ∨ x.1 ∈ ls.map Line.src := by
  induction ls with
  | nil =>
    intro id u r h x hx
    simp only [dedupeLoop, Except.ok.injEq, Option.some.injEq] at h
    subst h
    obtain ⟨y, hy, rfl⟩ := List.mem_map.1 hx
    exact Or.inl (List.mem_map.2 ⟨y, hy, rfl⟩)
  | cons l ls ih =>
    intro id u r h x hx
    unfold dedupeLoop at h
    split at h
    · split at h
      · rcases ih _ _ _ h x hx with h1 | h1
        · exact .inl h1
        · exact .inr (by simp only [List.map_cons, List.mem_cons]; exact .inr h1)
      · simp at h
    · split at h
      · simp at h
      · rcases ih _ _ _ h x hx with h1 | h1
        · rw [List.map_append, List.mem_append] at h1
          rcases h1 with h1 | h1
          · exact .inl h1
          · simp at h1; exact .inr (by simp [h1])
        · exact .inr (by simp only [List.map_cons, List.mem_cons]; exact .inr h1)

/-- The matcher of excluded literals finds nothing if none of them occurs. -/
theorem litAny_absent (ic : Bool) (lits : List (Buf × Nat)) {b : Buf} {lo hi : Nat} (env : E)
    (h : ∀ x ∈ lits, Absent (litMeaning ic x.1 : Meaning E) b lo hi) :
    (litAny ic lits).run b ⟨lo, hi⟩ env = (some matchNone, env) := by
  unfold litAny
  simp only
  cases hf : findSet ic (lits.map Prod.fst) b hi (hi - lo) lo with
  | none => rfl
  | some x =>
    exfalso
    obtain ⟨pid, s, e⟩ := x
    obtain ⟨h1, h2, ⟨l, h3, h4, h5⟩, _⟩ := findSet_some hf
    obtain ⟨x, hx, rfl⟩ := List.mem_map.1 (List.mem_of_getElem? h3)
    rw [hitAt_iff] at h5
    exact h x hx s e h1 (by omega) (by omega) env env ⟨rfl, h4, h5.2⟩

/-- Lines of literals. -/
structure LitLines (ic : Bool) (ls : List (Line E)) : Prop where
  lit : ∀ l ∈ ls, l.kind ≠ .empty → l.pat = litPat ic l.src l.pat.pspan ∧ l.src ≠ []

theorem lit_exactly (ic : Bool) : Exactly (litSet ic) (litFirst ic) (litMean ic : Line E → Meaning E) (LitLines ic) where
  ofInfix := by
    intro a b c h
    exact ⟨fun l hl => h.lit l (by simp [hl])⟩
  pat := by
    intro l h hk _
    have hl := (h.lit l (by simp) hk).1
    rw [hl]
    exact litPat_finds ic l.src _
  solid := by
    intro l h hk
    exact litFirst_solid ic (h.lit l (by simp) (by rcases hk with h | h | h <;> rw [h] <;> simp)).2
  nots := by
    intro ls p h hk hp
    have hc := (lit_contracts ic : Contracts (litSet ic) (litMean ic : Line E → Meaning E) (LitGood ic)).nots ls p
    unfold litSet at hp
    simp only at hp
    obtain ⟨u, hu, h2⟩ := bind_ok.1 hp
    simp only [Except.ok.injEq, Option.map_eq_some_iff] at h2
    obtain ⟨r, rfl, rfl⟩ := h2
    refine ⟨?_, ?_⟩
    · have hgood : LitGood ic ls := by
        refine ⟨fun l hl hke => (h.lit l hl hke).1, ?_⟩
        rintro a b c rfl hd
        cases b with
        | nil => simp
        | cons l b =>
          have h1 := hd l (by simp)
          have h2 := hk l (by simp)
          rw [h1] at h2; simp at h2
      exact hc hgood hk hp
    · intro b lo hi env _ _ habs
      refine ⟨matchNone, litAny_absent ic r env ?_, rfl⟩
      intro x hx
      rcases dedupe_from ls _ _ _ hu x hx with h1 | h1
      · simp at h1
      · obtain ⟨l, hl, hle⟩ := List.mem_map.1 h1
        have := habs (litMean ic l) (List.mem_map.2 ⟨l, hl, rfl⟩)
        unfold litMean at this
        rwa [hle] at this

end Litcheck
