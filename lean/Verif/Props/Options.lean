import Verif.Model.Options
import Mathlib.Data.List.Nodup

/-!
# Properties C24 and C25
-/

namespace Litcheck

/-! ## C24 -/

/-- **C24**: the options are accepted if and only if no check prefix is also a comment prefix. -/
theorem C24_disjoint_iff (check comment : List String) :
    validateOptions check comment = .ok () ↔ ∀ p ∈ check, p ∉ comment := by
  unfold validateOptions
  split
  · split
    · rename_i p h
      have h1 := List.find?_some h
      have h2 := List.mem_of_find?_eq_some h
      simp at h1
      simp
      exact ⟨p, h2, h1⟩
    · rename_i h
      simpa using h
  · rename_i hc
    simp at hc
    split
    · split
      · rename_i p h
        have h1 := List.find?_some h
        have h2 := List.mem_of_find?_eq_some h
        simp at h1
        simp
        exact ⟨p, h1, h2⟩
      · rename_i h
        simp at h
        simp
        exact fun p h1 h2 => h p h2 h1
    · rename_i hm
      simp at hm
      simp
      intro p h1 h2
      have := hc p h1
      subst this
      exact absurd (hm _ h2) (by decide)

/-- **C24**: a rejected set of options names a prefix which is both. -/
theorem C24_error (check comment : List String) (p : String) (h : validateOptions check comment = .error p) :
    p ∈ check ∧ p ∈ comment := by
  unfold validateOptions at h
  split at h
  · split at h
    · rename_i q hq
      have h1 := List.find?_some hq
      have h2 := List.mem_of_find?_eq_some hq
      simp at h1 h
      subst h
      exact ⟨h2, h1⟩
    · simp at h
  · split at h
    · split at h
      · rename_i q hq
        have h1 := List.find?_some hq
        have h2 := List.mem_of_find?_eq_some hq
        simp at h1 h
        subst h
        exact ⟨h1, h2⟩
      · simp at h
    · simp at h

example : validateOptions ["A", "B"] ["COM", "RUN"] = .ok () := by rw [C24_disjoint_iff]; decide
example : validateOptions ["A", "COM"] ["COM", "RUN"] = .error "COM" := rfl

/-! ## C25 -/

theorem mark_prefixes (s : PrefixState) (p : String) : (s.mark p).checkPrefixes = s.checkPrefixes := by
  unfold PrefixState.mark; split <;> rfl

theorem mark_seen {s : PrefixState} (hlen : s.seen.length = s.checkPrefixes.length) (p : String) (i : Nat)
    (hi : i < s.seen.length) : (s.mark p).seen[i]? =
      some (s.seen[i] || decide (s.checkPrefixes.findIdx? (· == p) = some i)) := by
  unfold PrefixState.mark
  split
  · rename_i j hj
    simp only [hj, Option.some.injEq]
    by_cases hij : j = i
    · subst hij; simp [hi]
    · rw [List.getElem?_set_ne hij]
      simp [hij, hi]
  · rename_i hn
    simp [hn, hi]

/-- The directives seen so far are exactly the marked first occurrences. -/
theorem foldl_mark (used : List String) : ∀ s : PrefixState, s.seen.length = s.checkPrefixes.length →
    (used.foldl PrefixState.mark s).checkPrefixes = s.checkPrefixes ∧
    (used.foldl PrefixState.mark s).seen.length = s.checkPrefixes.length ∧
    ∀ i, ∀ hi : i < s.seen.length, (used.foldl PrefixState.mark s).seen[i]? =
      some (s.seen[i] || decide (∃ p ∈ used, s.checkPrefixes.findIdx? (· == p) = some i)) := by
  induction used with
  | nil => intro s hs; exact ⟨rfl, hs, fun i hi => by simp [hi]⟩
  | cons p ps ih =>
    intro s hs
    have hp := mark_prefixes s p
    have hl : (s.mark p).seen.length = s.seen.length := by
      unfold PrefixState.mark; split <;> simp
    obtain ⟨h1, h2, h3⟩ := ih (s.mark p) (by rw [hl, hs, hp])
    refine ⟨by rw [List.foldl_cons, h1, hp], by rw [List.foldl_cons, h2, hp], fun i hi => ?_⟩
    rw [List.foldl_cons, h3 i (by omega), hp]
    have hm := mark_seen hs p i hi
    rw [List.getElem?_eq_getElem (by omega)] at hm
    have hm := Option.some.inj hm
    rw [hm]
    simp [Bool.or_assoc]

/-- **C25** for distinct prefixes: a prefix is reported as unused if and only if it was configured and no directive
used it. -/
theorem C25_unused_iff_partial (prefixes used : List String) (hnd : prefixes.Nodup) (p : String) :
    p ∈ (used.foldl PrefixState.mark (PrefixState.new prefixes)).unused ↔ p ∈ prefixes ∧ p ∉ used := by
  have hs : (PrefixState.new prefixes).seen.length = (PrefixState.new prefixes).checkPrefixes.length := by
    simp [PrefixState.new]
  obtain ⟨h1, h2, h3⟩ := foldl_mark used (PrefixState.new prefixes) hs
  generalize used.foldl PrefixState.mark (PrefixState.new prefixes) = t at h1 h2 h3
  have hcp : (PrefixState.new prefixes).checkPrefixes = prefixes := rfl
  rw [hcp] at h1 h2 h3
  have hseen : ∀ i (hi : i < prefixes.length), t.seen[i]? = some (decide (prefixes[i] ∈ used)) := by
    intro i hi
    rw [h3 i (by simpa [PrefixState.new] using hi)]
    congr 1
    have : (PrefixState.new prefixes).seen[i]'(by simpa [PrefixState.new] using hi) = false := by
      simp [PrefixState.new]
    rw [this, Bool.false_or]
    congr 1
    apply propext
    constructor
    · rintro ⟨q, hq, hf⟩
      rw [List.findIdx?_eq_some_iff_getElem] at hf
      obtain ⟨_, hf1, _⟩ := hf
      simp at hf1
      rw [hf1]; exact hq
    · intro h
      refine ⟨_, h, ?_⟩
      rw [List.findIdx?_eq_some_iff_getElem]
      refine ⟨hi, by simp, fun j hj => ?_⟩
      simp
      intro he
      exact absurd ((List.Nodup.getElem_inj_iff hnd).1 he) (by omega)
  unfold PrefixState.unused
  rw [h1]
  simp only [List.mem_filterMap]
  constructor
  · rintro ⟨⟨q, b⟩, hz, hb⟩
    obtain ⟨i, hi, he⟩ := List.mem_iff_getElem.1 hz
    rw [List.length_zip, h2, Nat.min_self] at hi
    rw [List.getElem_zip] at he
    have hq : prefixes[i] = q := (Prod.mk.inj he).1
    have hb' : t.seen[i] = b := (Prod.mk.inj he).2
    have := hseen i hi
    rw [List.getElem?_eq_getElem (by omega), hb', hq] at this
    have this := Option.some.inj this
    cases b with
    | true => simp at hb
    | false =>
      simp at hb
      subst hb
      exact ⟨hq ▸ List.getElem_mem _, by simpa using this.symm⟩
  · rintro ⟨hp, hu⟩
    obtain ⟨i, hi, he⟩ := List.mem_iff_getElem.1 hp
    refine ⟨(p, false), ?_, rfl⟩
    refine List.mem_iff_getElem.2 ⟨i, by simp; omega, ?_⟩
    rw [List.getElem_zip]
    have := hseen i hi
    rw [List.getElem?_eq_getElem (by omega), he] at this
    have this := Option.some.inj this
    rw [this, he]
    simp [hu]

/-- **C25** for distinct prefixes: a check file is accepted if and only if every prefix was used by some directive, or
unused prefixes are allowed; otherwise the error lists exactly the unused ones. -/
theorem C25_accepted_iff_partial (prefixes used : List String) (hnd : prefixes.Nodup) (allow : Bool) :
    (checkPrefixUse prefixes used allow = .ok () ↔ allow = true ∨ ∀ p ∈ prefixes, p ∈ used) ∧
    (∀ un, checkPrefixUse prefixes used allow = .error un → ∀ p, p ∈ un ↔ p ∈ prefixes ∧ p ∉ used) := by
  have h := C25_unused_iff_partial prefixes used hnd
  unfold checkPrefixUse
  generalize (used.foldl PrefixState.mark (PrefixState.new prefixes)).unused = un at h
  dsimp only
  constructor
  · cases allow with
    | true => simp
    | false =>
      cases un with
      | nil =>
        simp only [List.isEmpty_nil, Bool.not_true, Bool.false_and, Bool.false_eq_true, if_false, true_iff, false_or]
        intro p hp
        by_contra hc
        exact absurd ((h p).2 ⟨hp, hc⟩) (by simp)
      | cons q qs =>
        simp
        obtain ⟨h1, h2⟩ := (h q).1 (by simp)
        exact ⟨q, h1, h2⟩
  · intro un' he
    split at he
    · simp at he; subst he; exact h
    · simp at he

/-- **C25** fails for a prefix given twice: it is reported as unused although it is used. -/
theorem C25_duplicate_refuted : checkPrefixUse ["A", "A"] ["A", "A"] false = .error ["A"] := rfl

example : checkPrefixUse ["A", "B"] ["B", "B"] false = .error ["A"] := rfl
example : checkPrefixUse ["A", "B"] ["B", "A"] false = .ok () :=
  (C25_accepted_iff_partial _ _ (by decide) _).1.2 (.inr (by decide))

end Litcheck
