import Verif.Spec.Substitutions
import Verif.Proofs.BoolExpr
import Mathlib.Data.List.Chain
import Mathlib.Data.List.Nodup

/-!
# Lemmas about substitutions
-/

namespace Litcheck

open SubSpec

theorem occurs_iff (k : Str) (s : Str) : occurs k s = true ↔ ∃ a b, s = a ++ k ++ b := by
  induction s with
  | nil =>
    rw [occurs, List.isEmpty_iff]
    constructor
    · rintro rfl; exact ⟨[], [], rfl⟩
    · rintro ⟨a, b, h⟩
      have := congrArg List.length h
      simp at this
      exact List.eq_nil_of_length_eq_zero (by omega)
  | cons c cs ih =>
    rw [occurs, Bool.or_eq_true, ih, List.isPrefixOf_iff_prefix]
    constructor
    · rintro (⟨b, h⟩ | ⟨a, b, h⟩)
      · exact ⟨[], b, by simpa using h.symm⟩
      · exact ⟨c :: a, b, by simp [h]⟩
    · rintro ⟨a, b, h⟩
      cases a with
      | nil => exact .inl ⟨b, by simpa using h.symm⟩
      | cons x a =>
        injection h with h1 h2
        exact .inr ⟨a, b, h2⟩

theorem free_iff (k s : Str) : Free k s ↔ occurs k s = false := by
  unfold Free
  rw [← occurs_iff, Bool.not_eq_true]

theorem go_skip (k r : Str) (a s : Str) : litReplaceGo k r a.length (a ++ s) = litReplaceGo k r 0 s := by
  induction a with
  | nil => rfl
  | cons c a ih => simp [litReplaceGo, ih]

theorem litReplace_key {k : Str} (r s : Str) (hk : k ≠ []) : litReplace k r (k ++ s) = r ++ litReplace k r s := by
  obtain ⟨c, k', rfl⟩ := List.exists_cons_of_ne_nil hk
  unfold litReplace
  have hp : (c :: k').isPrefixOf (c :: (k' ++ s)) = true := by
    rw [List.isPrefixOf_iff_prefix]; exact ⟨s, rfl⟩
  rw [List.cons_append, litReplaceGo, if_pos hp]
  simp only [List.length_cons, Nat.add_sub_cancel]
  rw [go_skip]

theorem litReplace_nil (k r : Str) : litReplace k r [] = [] := rfl

theorem litReplace_step {k : Str} (r : Str) (c : Char) (s : Str) (h : ¬k <+: c :: s) :
    litReplace k r (c :: s) = c :: litReplace k r s := by
  unfold litReplace
  have : k.isPrefixOf (c :: s) = false := by
    rw [Bool.eq_false_iff, Ne, List.isPrefixOf_iff_prefix]; exact h
  rw [litReplaceGo, this]
  simp

theorem litReplace_free {k : Str} (r s : Str) (h : Free k s) : litReplace k r s = s := by
  induction s with
  | nil => rfl
  | cons c s ih =>
    have h1 : ¬k <+: c :: s := fun ⟨b, hb⟩ => h ⟨[], b, by simp [hb]⟩
    have h2 : Free k s := fun ⟨a, b, hb⟩ => h ⟨c :: a, b, by simp [hb]⟩
    rw [litReplace_step _ _ _ h1, ih h2]

theorem litReplace_first {k : Str} (r a s : Str) (hk : k ≠ []) (h : ∀ b c, a ++ k = b ++ k ++ c → c = []) :
    litReplace k r (a ++ k ++ s) = a ++ r ++ litReplace k r s := by
  induction a with
  | nil => simpa using litReplace_key r s hk
  | cons x a ih =>
    have h1 : ¬k <+: x :: (a ++ k ++ s) := by
      rintro ⟨b, hb⟩
      have hp : k <+: x :: a ++ k := by
        refine List.prefix_of_prefix_length_le (l₃ := x :: a ++ k ++ s) ⟨b, by simpa using hb⟩ ⟨s, rfl⟩ ?_
        simp
        omega
      obtain ⟨c, hc⟩ := hp
      have := h [] c (by simpa using hc.symm)
      subst this
      have := congrArg List.length hc
      simp at this
      omega
    rw [List.cons_append, List.cons_append, litReplace_step _ _ _ h1, ih]
    · rfl
    · intro b c hb
      exact h (x :: b) c (by simp [hb])

theorem replaced_eq {k r s t : Str} (hk : k ≠ []) (h : Replaced k r s t) : t = litReplace k r s := by
  induction h with
  | done s h => rw [litReplace_free r s h]
  | next a s t h _ ih => rw [litReplace_first r a s hk h, ih]

/-- The first occurrence. -/
theorem exists_first {k : Str} (s : Str) (hk : k ≠ []) (h : ¬Free k s) :
    ∃ a b, s = a ++ k ++ b ∧ ∀ b c, a ++ k = b ++ k ++ c → c = [] := by
  induction s with
  | nil =>
    exfalso
    refine h fun ⟨a, b, hab⟩ => hk ?_
    have := congrArg List.length hab
    simp at this
    exact List.eq_nil_of_length_eq_zero (by omega)
  | cons x s ih =>
    by_cases hp : k <+: x :: s
    · obtain ⟨b, hb⟩ := hp
      refine ⟨[], b, by simp [hb], fun b c hbc => ?_⟩
      have := congrArg List.length hbc
      simp at this
      exact List.eq_nil_of_length_eq_zero (by omega)
    · have hs : ¬Free k s := by
        intro hf
        apply h
        rintro ⟨a, b, hab⟩
        cases a with
        | nil => exact hp ⟨b, by simpa using hab.symm⟩
        | cons y a =>
          injection hab with h1 h2
          exact hf ⟨a, b, h2⟩
      obtain ⟨a, b, e, hm⟩ := ih hs
      refine ⟨x :: a, b, by simp [e], fun b' c hbc => ?_⟩
      cases b' with
      | nil =>
        exfalso
        apply hp
        have : k <+: x :: a ++ k := ⟨c, by simpa using hbc.symm⟩
        refine this.trans ⟨b, by simp [e]⟩
      | cons y b' =>
        injection hbc with h1 h2
        exact hm b' c h2

theorem replaced_litReplace {k : Str} (r : Str) (hk : k ≠ []) : ∀ s, Replaced k r s (litReplace k r s) := by
  intro s
  induction hn : s.length using Nat.strong_induction_on generalizing s with
  | _ n ih =>
    by_cases hf : Free k s
    · rw [litReplace_free r s hf]; exact .done s hf
    · obtain ⟨a, b, e, hm⟩ := exists_first s hk hf
      subst e
      rw [litReplace_first r a b hk hm]
      refine .next a b _ hm (ih b.length ?_ b rfl)
      have : k.length ≠ 0 := fun h => hk (List.eq_nil_of_length_eq_zero h)
      simp at hn
      omega

theorem literal_replaceAll {rx : SubRx} {p r k : Str} (hk : k ≠ []) (h : LiteralFor rx p r k) (s : Str) :
    rx.replaceAll p r s = litReplace? k r s := by
  unfold litReplace?
  by_cases hf : Free k s
  · rw [(h.2 s).1 hf, (free_iff k s).1 hf]; simp
  · obtain ⟨t, h1, h2⟩ := (h.2 s).2 hf
    rw [h1, replaced_eq hk h2, if_pos]
    rw [free_iff] at hf
    simpa using hf

theorem litReplace?_getD {k : Str} (r s : Str) : (litReplace? k r s).getD s = litReplace k r s := by
  unfold litReplace?
  by_cases h : occurs k s = true
  · simp [h]
  · rw [if_neg h, litReplace_free]
    · rfl
    · rw [free_iff]; simpa using h

/-- No two percent signs in a row. -/
def NoPP (s : Str) : Prop := List.IsChain (fun a b => ¬(a = '%' ∧ b = '%')) s

theorem noPP_iff (s : Str) : NoPP s ↔ Free ['%', '%'] s := by
  unfold NoPP
  induction s with
  | nil =>
    refine iff_of_true List.IsChain.nil ?_
    rintro ⟨a, b, h⟩
    have := congrArg List.length h
    simp at this
  | cons c s ih =>
    rw [List.isChain_cons, ih]
    constructor
    · rintro ⟨h1, h2⟩ ⟨a, b, h⟩
      cases a with
      | nil =>
        injection h with e1 e2
        exact h1 '%' (by simp [e2]) ⟨e1, rfl⟩
      | cons x a =>
        injection h with e1 e2
        exact h2 ⟨a, b, e2⟩
    · intro h
      refine ⟨?_, fun ⟨a, b, e⟩ => h ⟨c :: a, b, by simp [e]⟩⟩
      rintro y hy ⟨rfl, rfl⟩
      cases s with
      | nil => simp at hy
      | cons z s =>
        simp at hy
        exact h ⟨[], s, by simp [hy]⟩

theorem noPP_append {a b : Str} (ha : NoPP a) (hb : NoPP b) (h : a.getLast? ≠ some '%' ∨ b.head? ≠ some '%') :
    NoPP (a ++ b) := by
  unfold NoPP at *
  rw [List.isChain_append]
  refine ⟨ha, hb, ?_⟩
  rintro x hx y hy ⟨rfl, rfl⟩
  rcases h with h | h
  · exact h hx
  · exact h hy

theorem noPP_of_free {s : Str} (h : '%' ∉ s) : NoPP s := by
  rw [noPP_iff]
  rintro ⟨a, b, rfl⟩
  simp at h

theorem litReplace_mem {k : Str} {r : Str} (hk : k ≠ []) {c : Char} : ∀ {s : Str}, c ∈ litReplace k r s → c ∈ s ∨ c ∈ r := by
  intro s
  induction hn : s.length using Nat.strong_induction_on generalizing s with
  | _ n ih =>
    intro h
    cases s with
    | nil => cases h
    | cons x s =>
      by_cases hp : k <+: x :: s
      · obtain ⟨b, hb⟩ := hp
        rw [← hb] at h hn ⊢
        rw [litReplace_key r b hk] at h
        rcases List.mem_append.1 h with h | h
        · exact .inr h
        · have : k.length ≠ 0 := fun h => hk (List.eq_nil_of_length_eq_zero h)
          simp at hn
          rcases ih b.length (by omega) rfl h with h | h
          · exact .inl (by simp [h])
          · exact .inr h
      · rw [litReplace_step _ _ _ hp] at h
        rcases List.mem_cons.1 h with h | h
        · exact .inl (by simp [h])
        · rcases ih s.length (by simp at hn; omega) rfl h with h | h
          · exact .inl (by simp [h])
          · exact .inr h

/-- Replacing keys that begin with a percent sign by text without one makes no escaped percent sign. -/
theorem litReplace_noPP {k r : Str} (hk : k.head? = some '%') (hr : '%' ∉ r) :
    ∀ {s : Str}, NoPP s → NoPP (litReplace k r s) := by
  have hk0 : k ≠ [] := by rintro rfl; cases hk
  have hlen : k.length ≠ 0 := fun h => hk0 (List.eq_nil_of_length_eq_zero h)
  intro s
  induction hn : s.length using Nat.strong_induction_on generalizing s with
  | _ n ih =>
    intro h
    cases s with
    | nil => exact h
    | cons x s =>
      by_cases hp : k <+: x :: s
      · obtain ⟨b, hb⟩ := hp
        rw [← hb] at h hn ⊢
        rw [litReplace_key r b hk0]
        have hb' : NoPP b := (List.isChain_append.1 h).2.1
        simp at hn
        refine noPP_append (noPP_of_free hr) (ih b.length (by omega) rfl hb') (.inl ?_)
        intro e
        exact hr (List.mem_of_getLast? e)
      · rw [litReplace_step _ _ _ hp]
        unfold NoPP at h
        rw [List.isChain_cons] at h
        have ih' := ih s.length (by simp at hn; omega) rfl h.2
        unfold NoPP at ih' ⊢
        rw [List.isChain_cons]
        refine ⟨?_, ih'⟩
        intro y hy
        by_cases hp2 : k <+: s
        · obtain ⟨b, hb⟩ := hp2
          have hs : s.head? = some '%' := by
            rw [← hb]
            cases k with
            | nil => cases hk
            | cons c k => simpa using hk
          have := h.1 '%' hs
          rintro ⟨e, _⟩
          exact this ⟨e, rfl⟩
        · refine h.1 y ?_
          cases s with
          | nil => exact hy
          | cons z s =>
            rw [litReplace_step _ _ _ hp2] at hy
            exact hy

/-- A key that begins with a percent sign and has no hash is not found across a hash. -/
theorem litReplace_hash {k : Str} (r : Str) (hk : k.head? = some '%') (h : '#' ∉ k) (m : Str) (hm : '%' ∉ m) (b : Str) :
    ∀ a : Str, litReplace k r (a ++ ('#' :: m) ++ b) = litReplace k r a ++ ('#' :: m) ++ litReplace k r b := by
  have hk0 : k ≠ [] := by rintro rfl; cases hk
  have hlen : k.length ≠ 0 := fun h => hk0 (List.eq_nil_of_length_eq_zero h)
  have hskip : ∀ m : Str, '%' ∉ m → litReplace k r (m ++ b) = m ++ litReplace k r b := by
    intro m hm
    induction m with
    | nil => rfl
    | cons x m ih =>
      rw [List.cons_append, litReplace_step, ih]
      · rfl
      · intro h; exact hm (List.mem_cons_of_mem _ h)
      · rintro ⟨c, hc⟩
        cases k with
        | nil => cases hk
        | cons y k =>
          injection hc with e _
          simp at hk
          apply hm
          rw [← e, hk]
          exact List.mem_cons_self ..
  intro a
  induction hn : a.length using Nat.strong_induction_on generalizing a with
  | _ n ih =>
    cases a with
    | nil =>
      simp only [List.nil_append, litReplace_nil]
      exact hskip ('#' :: m) (by simp [hm])
    | cons x a =>
      by_cases hp : k <+: x :: a
      · obtain ⟨c, hc⟩ := hp
        rw [← hc] at hn ⊢
        simp at hn
        rw [litReplace_key r c hk0, List.append_assoc, List.append_assoc, litReplace_key r _ hk0, ← List.append_assoc c,
          ih c.length (by omega) c rfl]
        simp
      · have hp2 : ¬k <+: x :: (a ++ ('#' :: m) ++ b) := by
          rintro ⟨c, hc⟩
          have hc' : k ++ c = (x :: a) ++ ('#' :: (m ++ b)) := by simpa using hc
          rcases List.append_eq_append_iff.1 hc' with ⟨d, e1, e2⟩ | ⟨d, e1, e2⟩
          · exact hp ⟨d, e1.symm⟩
          · cases d with
            | nil => exact hp ⟨[], by simpa using e1⟩
            | cons y d =>
              injection e2 with e2 _
              apply h
              rw [e1, e2]
              simp
        rw [litReplace_step _ _ _ hp]
        rw [List.cons_append, List.cons_append, litReplace_step _ _ _ hp2, ih a.length (by simp at hn; omega) a rfl]
        rfl

end Litcheck

namespace Litcheck

open SubSpec

theorem intercalate_two (m a b : Str) (l : List Str) :
    m.intercalate (a :: b :: l) = a ++ m ++ m.intercalate (b :: l) := by
  simp [List.intercalate]

theorem intercalate_one (m a : Str) : m.intercalate [a] = a := by simp [List.intercalate]

open Scoped (MARKER PP)

theorem litReplace_join {k : Str} (r : Str) (hk : k.head? = some '%') (h : '#' ∉ k) (ps : List Str) :
    litReplace k r (MARKER.intercalate ps) = MARKER.intercalate (ps.map (litReplace k r)) := by
  have hM : MARKER = '#' :: "_MARKER_#".toList := by decide
  match ps with
  | [] => rfl
  | [p] => simp [intercalate_one]
  | p :: q :: ps =>
    have ih := litReplace_join r hk h (q :: ps)
    rw [List.map_cons, List.map_cons, intercalate_two, intercalate_two, ← List.map_cons, ← ih]
    rw [hM]
    exact litReplace_hash r hk h _ (by decide) _ p

theorem noPP_join (ps : List Str) (h : ∀ p ∈ ps, NoPP p) : NoPP (MARKER.intercalate ps) := by
  match ps with
  | [] => exact List.IsChain.nil
  | [p] => rw [intercalate_one]; exact h p (by simp)
  | p :: q :: ps =>
    have ih := noPP_join (q :: ps) (fun x hx => h x (by simp at hx ⊢; tauto))
    rw [intercalate_two]
    have hM : NoPP MARKER := noPP_of_free (by decide)
    have h1 : NoPP (p ++ MARKER) := noPP_append (h p (by simp)) hM (.inr (by decide))
    refine noPP_append h1 ih (.inl ?_)
    rw [List.getLast?_append]
    have : MARKER.getLast? = some '#' := by decide
    rw [this]
    simp

theorem escape_join (ps : List Str) (h : ∀ p ∈ ps, NoPP p) (hl : ∀ p ∈ ps.dropLast, p.getLast? ≠ some '%') :
    litReplace PP MARKER (PP.intercalate ps) = MARKER.intercalate ps := by
  match ps with
  | [] => rfl
  | [p] =>
    rw [intercalate_one, intercalate_one]
    exact litReplace_free _ _ ((noPP_iff p).1 (h p (by simp)))
  | p :: q :: ps =>
    have ih := escape_join (q :: ps) (fun x hx => h x (by simp at hx ⊢; tauto))
      (fun x hx => hl x (by
        rw [List.dropLast_cons_of_ne_nil (by simp)]
        exact List.mem_cons_of_mem _ hx))
    rw [intercalate_two, intercalate_two, litReplace_first, ih]
    · decide
    · intro b c hbc
      by_contra hc
      have hp : NoPP (p ++ ['%']) := noPP_append (h p (by simp)) (by
          unfold NoPP; exact List.isChain_singleton _) (.inl (hl p (by
          rw [List.dropLast_cons_of_ne_nil (by simp)]; simp)))
      rw [noPP_iff] at hp
      apply hp
      refine ⟨b, c.dropLast, ?_⟩
      have e : (p ++ PP).dropLast = (b ++ PP ++ c).dropLast := by rw [hbc]
      rw [List.dropLast_append_of_ne_nil (by decide), List.dropLast_append_of_ne_nil hc] at e
      exact e

theorem unescape_join (ps : List Str) (h : ∀ p ∈ ps, '#' ∉ p) :
    litReplace MARKER ['%'] (MARKER.intercalate ps) = ['%'].intercalate ps := by
  have key : ∀ p : Str, '#' ∉ p → ∀ b c, p ++ MARKER = b ++ MARKER ++ c → c = [] := by
    intro p hp b c hbc
    have hM : MARKER = '#' :: "_MARKER_#".toList := by decide
    by_contra hc
    have hlen := congrArg List.length hbc
    simp at hlen
    have hc' : c.length ≠ 0 := fun h => hc (List.eq_nil_of_length_eq_zero h)
    have hlt : b.length < p.length := by omega
    have h1 : (p ++ MARKER)[b.length]? = p[b.length]? := List.getElem?_append_left hlt
    have h2 : (b ++ MARKER ++ c)[b.length]? = some '#' := by
      rw [hM, List.append_assoc, List.getElem?_append_right (Nat.le_refl _)]
      simp
    rw [hbc, h2] at h1
    exact hp (List.mem_of_getElem? h1.symm)
  match ps with
  | [] => rfl
  | [p] =>
    rw [intercalate_one, intercalate_one]
    refine litReplace_free _ _ ?_
    rintro ⟨a, b, rfl⟩
    have := h _ (List.mem_singleton_self _)
    apply this
    have : '#' ∈ MARKER := by decide
    simp [this]
  | p :: q :: ps =>
    have ih := unescape_join (q :: ps) (fun x hx => h x (by simp at hx ⊢; tauto))
    rw [intercalate_two, intercalate_two, litReplace_first _ _ _ (by decide) (key p (h p (by simp))), ih]

/-- The substitutions of the escaping theorem: literal keys that begin with a percent sign, and the key `%%`. -/
def PlainKey (k r : Str) : Prop :=
  k = PP ∨ (k.head? = some '%' ∧ '#' ∉ k ∧ '%' ∉ r ∧ '#' ∉ r)

theorem escapeStep_noPP (st : Scoped.ApplySt) (h : NoPP st.buf) :
    (Scoped.escapeStep st).buf = st.buf ∧ (Scoped.escapeStep st).needsUnescape = st.needsUnescape := by
  unfold Scoped.escapeStep
  have : litReplace? PP MARKER st.buf = none := by
    unfold litReplace?
    rw [(free_iff PP _).1 ((noPP_iff _).1 h)]
    simp
  rw [this]
  split <;> exact ⟨rfl, rfl⟩

theorem replaceStep_buf (rx : SubRx) (p r : Str) (st : Scoped.ApplySt) :
    (Scoped.replaceStep rx p r st).buf = (rx.replaceAll p r st.buf).getD st.buf ∧
    (Scoped.replaceStep rx p r st).needsUnescape = st.needsUnescape := by
  unfold Scoped.replaceStep
  cases rx.replaceAll p r st.buf <;> exact ⟨rfl, rfl⟩

/-- The key `%%` changes nothing in text without escaped percent signs; any other is replaced in each piece. -/
theorem plain_step {rx : SubRx} {p r k : Str} (hl : LiteralFor rx p r k) (hk : PlainKey k r) (ps : List Str)
    (hpp : ∀ q ∈ ps, NoPP q) (hh : ∀ q ∈ ps, '#' ∉ q) :
    ∃ ps', (rx.replaceAll p r (MARKER.intercalate ps)).getD (MARKER.intercalate ps) = MARKER.intercalate ps' ∧
      (∀ q ∈ ps', NoPP q) ∧ (∀ q ∈ ps', '#' ∉ q) ∧
      ps' = (if k = PP then ps else ps.map (litReplace k r)) := by
  rcases hk with rfl | ⟨h1, h2, h3, h4⟩
  · refine ⟨ps, ?_, hpp, hh, by simp⟩
    rw [literal_replaceAll (by decide) hl]
    unfold litReplace?
    rw [(free_iff PP _).1 ((noPP_iff _).1 (noPP_join ps hpp))]
    rfl
  · have hk0 : k ≠ [] := by rintro rfl; cases h1
    by_cases hk : k = PP
    · subst hk
      refine ⟨ps, ?_, hpp, hh, by simp⟩
      rw [literal_replaceAll (by decide) hl]
      unfold litReplace?
      rw [(free_iff PP _).1 ((noPP_iff _).1 (noPP_join ps hpp))]
      rfl
    refine ⟨ps.map (litReplace k r), ?_, ?_, ?_, by simp [hk]⟩
    · rw [literal_replaceAll hk0 hl, litReplace?_getD, litReplace_join r h1 h2]
    · intro q hq
      obtain ⟨q', hq', rfl⟩ := List.mem_map.1 hq
      exact litReplace_noPP h1 h3 (hpp q' hq')
    · intro q hq
      obtain ⟨q', hq', rfl⟩ := List.mem_map.1 hq
      intro hm
      rcases litReplace_mem hk0 hm with hm | hm
      · exact hh q' hq' hm
      · exact h4 hm

/-- The keys other than `%%`. -/
def properKeys (kvs : List (Str × Str)) : List (Str × Str) := kvs.filter fun kv => kv.1 != PP

theorem loop_join {rx : SubRx} {entries kvs : List (Str × Str)}
    (hf : List.Forall₂ (fun e kv => e.2 = kv.2 ∧ LiteralFor rx e.1 e.2 kv.1) entries kvs)
    (hk : ∀ kv ∈ kvs, PlainKey kv.1 kv.2) :
    ∀ (st : Scoped.ApplySt) (ps : List Str), st.buf = MARKER.intercalate ps → (∀ q ∈ ps, NoPP q) →
      (∀ q ∈ ps, '#' ∉ q) →
      ∃ st' ps', Scoped.applyLoop rx st entries = .ok st' ∧ st'.buf = MARKER.intercalate ps' ∧
        st'.needsUnescape = st.needsUnescape ∧ (∀ q ∈ ps', '#' ∉ q) ∧
        List.Forall₂ (ReplacedEach (properKeys kvs)) ps ps' := by
  induction hf with
  | nil =>
    intro st ps hb hpp hh
    refine ⟨st, ps, rfl, hb, rfl, hh, ?_⟩
    rw [List.forall₂_same]
    intro q _
    exact .nil q
  | @cons e kv entries kvs he _ ih =>
    intro st ps hb hpp hh
    obtain ⟨p, r⟩ := e
    obtain ⟨k, r'⟩ := kv
    obtain ⟨hr, hl⟩ := he
    dsimp only at hr hl
    subst hr
    have hkk := hk (k, r) (by simp)
    dsimp only at hkk
    obtain ⟨ps', h1, h2, h3, h4⟩ := plain_step hl hkk ps hpp hh
    have hnp := noPP_join ps hpp
    rw [← hb] at hnp
    obtain ⟨e1, e2⟩ := escapeStep_noPP st hnp
    obtain ⟨e3, e4⟩ := replaceStep_buf rx p r (Scoped.escapeStep st)
    obtain ⟨st', ps'', a, b, c, d, f⟩ := ih (fun kv hkv => hk kv (List.mem_cons_of_mem _ hkv))
      (Scoped.replaceStep rx p r (Scoped.escapeStep st)) ps' (by rw [e3, e1, hb, h1]) h2 h3
    refine ⟨st', ps'', ?_, b, by rw [c, e4, e2], d, ?_⟩
    · rw [Scoped.applyLoop, if_pos hl.1]
      exact a
    · unfold properKeys
      rw [List.filter_cons]
      by_cases hpk : k = PP
      · rw [if_pos hpk] at h4
        subst h4
        simp only [hpk, bne_self_eq_false, Bool.false_eq_true, if_false]
        exact f
      · have hk0 : k ≠ [] := by
          rcases hkk with h | h
          · exact absurd h hpk
          · rintro rfl; cases h.1
        rw [if_neg hpk] at h4
        subst h4
        rw [if_pos (by simpa using hpk)]
        rw [List.forall₂_map_left_iff] at f
        refine f.imp fun a b hab => ?_
        exact .cons k r a _ b _ (replaced_litReplace r hk0 a) hab

theorem loop_first {rx : SubRx} {entries kvs : List (Str × Str)} {p r k : Str} (hl : LiteralFor rx p r k)
    (hf : List.Forall₂ (fun e kv => e.2 = kv.2 ∧ LiteralFor rx e.1 e.2 kv.1) entries kvs)
    (hk0 : PlainKey k r) (hk : ∀ kv ∈ kvs, PlainKey kv.1 kv.2) (st : Scoped.ApplySt) (ps : List Str)
    (hb : (Scoped.escapeStep st).buf = MARKER.intercalate ps) (hpp : ∀ q ∈ ps, NoPP q) (hh : ∀ q ∈ ps, '#' ∉ q) :
      ∃ st' ps', Scoped.applyLoop rx st ((p, r) :: entries) = .ok st' ∧ st'.buf = MARKER.intercalate ps' ∧
        st'.needsUnescape = (Scoped.escapeStep st).needsUnescape ∧ (∀ q ∈ ps', '#' ∉ q) ∧
        List.Forall₂ (ReplacedEach (properKeys ((k, r) :: kvs))) ps ps' := by
  rw [Scoped.applyLoop, if_pos hl.1]
  obtain ⟨e3, e4⟩ := replaceStep_buf rx p r (Scoped.escapeStep st)
  obtain ⟨ps1, g1, g2, g3, g4⟩ := plain_step hl hk0 ps hpp hh
  obtain ⟨st2, ps2, a2, b2, c2, d2, f2⟩ := loop_join hf hk (Scoped.replaceStep rx p r (Scoped.escapeStep st)) ps1
    (by rw [e3, hb, g1]) g2 g3
  refine ⟨st2, ps2, a2, b2, by rw [c2, e4], d2, ?_⟩
  unfold properKeys
  rw [List.filter_cons]
  by_cases hpk : k = PP
  · rw [if_pos hpk] at g4
    subst g4
    simp only [hpk, bne_self_eq_false, Bool.false_eq_true, if_false]
    exact f2
  · have hk0' : k ≠ [] := by
      rcases hk0 with h | h
      · exact absurd h hpk
      · rintro rfl; cases h.1
    rw [if_neg hpk] at g4
    subst g4
    rw [if_pos (by simpa using hpk)]
    rw [List.forall₂_map_left_iff] at f2
    refine f2.imp fun a b hab => ?_
    exact .cons k r a _ b _ (replaced_litReplace r hk0' a) hab

end Litcheck
