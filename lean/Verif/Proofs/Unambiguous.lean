import Verif.Proofs.ReadFile

/-! # Directives are determined if the prefixes are unambiguous -/

namespace Litcheck.Lex

open LexSpec

/-- What follows the prefix. -/
inductive Body : Bool → Str → Head → Nat → Str → Prop
  | comment {t} : Body true (':' :: t) .comment 0 t
  | kind {k w n m t} : word k = some w → Mods n m → Body false (w ++ (m ++ ':' :: t)) (.kind k) n t
  | count {ds n m t} : ds ≠ [] → ds.all Char.isDigit → Mods n m → Body false ("-COUNT-".toList ++ (ds ++ (m ++ ':' :: t))) (.count ds) n t

theorem begins_iff {cs cm : List Str} {s : Str} {d : Directive} :
    Begins cs cm s d ↔ ∃ b r, (d.pfx ∈ if b then cm else cs) ∧ s = d.pfx ++ r ∧ Body b r d.head d.mods d.text := by
  constructor
  · intro h
    cases h with
    | comment h => exact ⟨true, _, h, rfl, .comment⟩
    | kind h h1 h2 => exact ⟨false, _, h, rfl, .kind h1 h2⟩
    | count h h1 h2 h3 => exact ⟨false, _, h, rfl, .count h1 h2 h3⟩
  · obtain ⟨pfx, head, mods, text⟩ := d
    rintro ⟨b, r, h, rfl, hb⟩
    cases hb with
    | comment => exact .comment h
    | kind h1 h2 => exact .kind h h1 h2
    | count h1 h2 h3 => exact .count h h1 h2 h3

theorem mods_first {n : Nat} {m : Str} (h : Mods n m) (t : Str) : (∃ r, m ++ ':' :: t = ':' :: r) ∨ ∃ r, m ++ ':' :: t = '{' :: r := by
  cases h with
  | none => exact .inl ⟨_, rfl⟩
  | some => exact .inr ⟨_, rfl⟩

theorem word_cases {k : Kind} {w : Str} (h : word k = some w) : w = [] ∧ k = .plain ∨ w ∈ words := by
  cases k <;> simp [word] at h <;> subst h <;> simp [words]

theorem body_first {b : Bool} {r : Str} {h : Head} {n : Nat} {t : Str} (hb : Body b r h n t) :
    (∃ r', r = ':' :: r') ∨ (∃ r', r = '{' :: r') ∨ ∃ w r', w ∈ words ∧ r = w ++ r' := by
  cases hb with
  | comment => exact .inl ⟨_, rfl⟩
  | kind h1 h2 =>
    obtain ⟨rfl, -⟩ | hw := word_cases h1
    · rw [List.nil_append]
      obtain h | h := mods_first h2 t
      · exact .inl h
      · exact .inr (.inl h)
    · exact .inr (.inr ⟨_, _, hw, rfl⟩)
  | count => exact .inr (.inr ⟨_, _, by simp [words], rfl⟩)

theorem mods_unique {n n' : Nat} {m m' t t' : Str} (h : Mods n m) (h' : Mods n' m') (he : m ++ ':' :: t = m' ++ ':' :: t') : n = n' ∧ t = t' := by
  have h1 := modifiers_complete h t
  rw [he, modifiers_complete h' t'] at h1
  simp at h1
  exact ⟨h1.1.symm, h1.2.symm⟩

theorem words_apart {w w' r r' : Str} (h : w ∈ words) (h' : w' ∈ words) (he : w ++ r = w' ++ r') : w = w' := by
  simp only [words, List.mem_cons, List.not_mem_nil, or_false] at h h'
  rcases h with rfl | rfl | rfl | rfl | rfl | rfl | rfl <;> rcases h' with rfl | rfl | rfl | rfl | rfl | rfl | rfl <;>
    first | rfl | (exfalso; revert he; simp)

theorem word_inj {k k' : Kind} {w : Str} (h : word k = some w) (h' : word k' = some w) : k = k' := by
  cases k <;> simp [word] at h <;> subst h <;> cases k' <;> simp [word] at h' <;> rfl

theorem words_dash {w : Str} (h : w ∈ words) (r : Str) : ∃ r', w ++ r = '-' :: r' := by
  simp only [words, List.mem_cons, List.not_mem_nil, or_false] at h
  rcases h with rfl | rfl | rfl | rfl | rfl | rfl | rfl <;> exact ⟨_, rfl⟩

theorem mods_not_dash {n : Nat} {m : Str} (h : Mods n m) (t r : Str) : m ++ ':' :: t ≠ '-' :: r := by
  intro he
  obtain ⟨r', h⟩ | ⟨r', h⟩ := mods_first h t <;> rw [h] at he <;> simp at he

theorem body_unique {b : Bool} {r : Str} {h h' : Head} {n n' : Nat} {t t' : Str} (hb : Body b r h n t) (hb' : Body b r h' n' t') :
    h = h' ∧ n = n' ∧ t = t' := by
  cases hb with
  | comment =>
    cases hb'
    exact ⟨rfl, rfl, rfl⟩
  | @kind k w n m t h1 h2 =>
    generalize hg : w ++ (m ++ ':' :: t) = r' at hb'
    cases hb' with
    | @kind k' w' n' m' t' h3 h4 =>
      obtain ⟨rfl, rfl⟩ | hw := word_cases h1
      · obtain ⟨rfl, rfl⟩ | hw' := word_cases h3
        · obtain ⟨rfl, rfl⟩ := mods_unique h2 h4 hg
          exact ⟨rfl, rfl, rfl⟩
        · obtain ⟨x, hx⟩ := words_dash hw' (m' ++ ':' :: t')
          rw [hx] at hg
          exact absurd hg (mods_not_dash h2 _ _)
      · obtain ⟨rfl, rfl⟩ | hw' := word_cases h3
        · obtain ⟨x, hx⟩ := words_dash hw (m ++ ':' :: t)
          rw [hx] at hg
          exact absurd hg.symm (mods_not_dash h4 _ _)
        · obtain rfl := words_apart hw hw' hg
          obtain rfl := word_inj h1 h3
          obtain ⟨rfl, rfl⟩ := mods_unique h2 h4 (List.append_cancel_left hg)
          exact ⟨rfl, rfl, rfl⟩
    | @count ds' n' m' t' h3 h4 h5 =>
      exfalso
      obtain ⟨rfl, rfl⟩ | hw := word_cases h1
      · exact mods_not_dash h2 _ _ hg
      · have := words_apart hw (w' := "-COUNT-".toList) (by simp [words]) hg
        subst this
        cases k <;> simp [word] at h1
  | @count ds n m t h1 h2 h3 =>
    generalize hg : "-COUNT-".toList ++ (ds ++ (m ++ ':' :: t)) = r' at hb'
    cases hb' with
    | @kind k' w' n' m' t' h4 h5 =>
      exfalso
      obtain ⟨rfl, rfl⟩ | hw := word_cases h4
      · exact mods_not_dash h5 _ _ hg.symm
      · have := words_apart hw (w' := "-COUNT-".toList) (by simp [words]) hg.symm
        subst this
        cases k' <;> simp [word] at h4
    | @count ds' n' m' t' h4 h5 h6 =>
      have hg := List.append_cancel_left hg
      have e1 := takeWhile_stop (p := Char.isDigit) (a := ds) (b := m ++ ':' :: t) (List.all_eq_true.1 h2) (mods_head h3 t)
      have e2 := takeWhile_stop (p := Char.isDigit) (a := ds') (b := m' ++ ':' :: t') (List.all_eq_true.1 h5) (mods_head h6 t')
      rw [hg] at e1
      obtain rfl : ds = ds' := e1.1.symm.trans e2.1
      obtain ⟨rfl, rfl⟩ := mods_unique h3 h6 (e1.2.symm.trans e2.2)
      exact ⟨rfl, rfl, rfl⟩

theorem prefix_of_append {a b c d : Str} (h : a ++ b = c ++ d) : a <+: c ∨ c <+: a := by
  obtain ⟨x, rfl, -⟩ | ⟨x, rfl, -⟩ := List.append_eq_append_iff.1 h
  · exact .inl (List.prefix_append _ _)
  · exact .inr (List.prefix_append _ _)

/-- A line begins with one directive at most. -/
theorem Begins.unique {cs cm : List Str} (hu : Unambiguous cs cm) {s : Str} {d d' : Directive} (h : Begins cs cm s d) (h' : Begins cs cm s d') : d = d' := by
  obtain ⟨b, r, hp, hs, hb⟩ := begins_iff.1 h
  obtain ⟨b', r', hp', hs', hb'⟩ := begins_iff.1 h'
  have mem : ∀ {b : Bool} {p : Str}, (p ∈ if b then cm else cs) → p ∈ cs ∨ p ∈ cm := by
    intro b p h
    cases b
    · exact .inl h
    · exact .inr h
  have key : ∀ {b b' : Bool} {p q x r r' : Str} {hd hd' : Head} {n n' : Nat} {t t' : Str}, (p ∈ if b then cm else cs) → (q ∈ if b' then cm else cs) →
      Body b r hd n t → Body b' r' hd' n' t' → q = p ++ x → p ++ r = q ++ r' → x = [] := by
    intro b b' p q x r r' hd hd' n n' t t' hp hq hb hb' hx he
    by_contra hne
    obtain ⟨h1, h2, h3⟩ := hu.2 p q x (mem hp) (mem hq) hx hne
    subst hx
    rw [List.append_assoc] at he
    have he := List.append_cancel_left he
    cases x with
    | nil => exact hne rfl
    | cons c x =>
      obtain ⟨y, rfl⟩ | ⟨y, rfl⟩ | ⟨w, y, hw, rfl⟩ := body_first hb
      · simp at he h1; exact h1 he.1.symm
      · simp at he h2; exact h2 he.1.symm
      · obtain h | h := prefix_of_append he
        · exact (h3 w hw).1 h
        · exact (h3 w hw).2 h
  have hpp : d.pfx = d'.pfx := by
    obtain ⟨x, hx, -⟩ | ⟨x, hx, -⟩ := List.append_eq_append_iff.1 (hs.symm.trans hs')
    · rw [hx, key hp hp' hb hb' hx (hs.symm.trans hs'), List.append_nil]
    · rw [hx, key hp' hp hb' hb hx (hs'.symm.trans hs), List.append_nil]
  rw [← hpp] at hs'
  obtain rfl : r = r' := List.append_cancel_left (hs.symm.trans hs')
  obtain rfl : b = b' := by
    rw [← hpp] at hp'
    cases b <;> cases b'
    · rfl
    · exact absurd hp' (hu.1 _ hp)
    · exact absurd hp (hu.1 _ hp')
    · rfl
  obtain ⟨h1, h2, h3⟩ := body_unique hb hb'
  obtain ⟨p, hd, n, t⟩ := d
  obtain ⟨p', hd', n', t'⟩ := d'
  simp at hpp h1 h2 h3
  simp [hpp, h1, h2, h3]

theorem begins_colon {cs cm : List Str} {s : Str} {d : Directive} (h : Begins cs cm s d) : ':' ∈ s := by
  cases h <;> simp

theorem place_mono {fresh : Bool} {a : Str} (h : Place fresh a) : Place false a := by
  obtain rfl | ⟨h, -⟩ := h
  · exact .inl rfl
  · exact .inr ⟨h, by simp⟩

/-- The directives are determined. -/
theorem Recognised.unique {cs cm : List Str} (hu : Unambiguous cs cm) {fresh : Bool} {ls : List Str} {ds ds' : List Directive}
    (h : Recognised cs cm fresh ls ds) (h' : Recognised cs cm fresh ls ds') : ds = ds' := by
  induction h generalizing ds' with
  | nil => cases h'; rfl
  | blank hl _ ih =>
    generalize hg : _ :: _ = ls' at h'
    cases h' with
    | nil => cases hg
    | blank _ h2 => cases hg; exact ih h2
    | none h2 => cases hg; exact absurd hl (h2 rfl)
    | some h2 => cases hg; exact absurd hl (h2 rfl)
  | @none fresh l ls ds hl hn _ ih =>
    generalize hg : l :: ls = ls' at h'
    cases h' with
    | nil => cases hg
    | blank h2 => cases hg; exact absurd h2 (hl rfl)
    | none _ _ h2 => cases hg; exact ih h2
    | some _ hp hb => cases hg; exact absurd hb (hn _ _ rfl hp _)
  | @some fresh a b ls d ds hl hp hb hm _ ih =>
    generalize hg : (a ++ b) :: ls = ls' at h'
    cases h' with
    | nil => cases hg
    | blank h2 => cases hg; exact absurd h2 (hl rfl)
    | none _ hn => cases hg; exact absurd hb (hn _ _ rfl hp _)
    | @some _ a' b' ls' d' ds' hl' hp' hb' hm' h2 =>
      simp at hg
      obtain ⟨he, rfl⟩ := hg
      have hlen : a.length = a'.length := by
        rcases Nat.lt_trichotomy a.length a'.length with h | h | h
        · exact absurd hb (hm' a b he.symm h hp _)
        · exact h
        · exact absurd hb' (hm a' b' he h hp' _)
      obtain ⟨rfl, rfl⟩ := List.append_inj he hlen
      rw [Begins.unique hu hb hb', ih h2]

/-- Without indented directives at the wrong place, the directives are those which are documented. -/
theorem Recognised.documented {cs cm : List Str} {fresh : Bool} {ls : List Str} {ds : List Directive} (h : Recognised cs cm fresh ls ds)
    (hi : ∀ l ∈ ls, ∀ a b, l = a ++ b → a ≠ [] → a.all asciiWs → ∀ d, ¬ Begins cs cm b d) : Documented cs cm ls ds := by
  have hcol : ∀ {a b : Str} {d}, (a ++ b).all asciiWs → ¬ Begins cs cm b d := by
    intro a b d h hb
    have := List.all_eq_true.1 h ':' (List.mem_append_right _ (begins_colon hb))
    exact absurd this (by decide)
  have hplace : ∀ {fresh : Bool} {a b : Str} {d}, Place false a → Begins cs cm b d → (∀ a' b', a ++ b = a' ++ b' → a' ≠ [] → a'.all asciiWs → ∀ d, ¬ Begins cs cm b' d) → Place fresh a := by
    intro fresh a b d hp hb hi
    obtain rfl | ⟨h1, -⟩ := hp
    · exact .inl rfl
    · refine .inr ⟨h1, fun _ hall => hi a b rfl ?_ hall d hb⟩
      obtain ⟨a', c, rfl, -⟩ := h1
      simp
  induction h with
  | nil => exact .nil
  | blank hl _ ih =>
    refine .none ?_ (ih fun l hl => hi l (by simp [hl]))
    intro a b he _ d
    subst he
    exact hcol hl
  | none hl hn _ ih =>
    refine .none ?_ (ih fun l hl => hi l (by simp [hl]))
    intro a b he hp d hb
    refine hn a b he (hplace hp hb fun a' b' he' => hi _ (by simp) a' b' (he.trans he')) d hb
  | some hl hp hb hm _ ih =>
    refine .some (place_mono hp) hb ?_ (ih fun l hl => hi l (by simp [hl]))
    intro a' b' he hlt hp' d' hb'
    exact hm a' b' he hlt (hplace hp' hb' fun a2 b2 he2 => hi _ (by simp) a2 b2 (he.trans he2)) d' hb'

end Litcheck.Lex
