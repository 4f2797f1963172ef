import Verif.Model.Command
import Verif.Proofs.Directives

/-!
# The order of the prefixes does not matter
-/

namespace Litcheck.Lex

/-- A prefix without the characters `:` and `{`. -/
def Usable (p : Str) : Prop := ':' ∉ p ∧ '{' ∉ p

/-- The characters with which what follows the name of a directive begins. -/
def stops (c : Char) : Bool := c == ':' || c == '{'

theorem takeWhile_stops {a r : Str} {c : Char} (ha : ∀ x ∈ a, stops x = false) (hc : stops c = true) :
    (a ++ c :: r).takeWhile (fun x => !stops x) = a := by
  induction a with
  | nil => simp [hc]
  | cons x a ih =>
    have := ha x List.mem_cons_self
    simp [this]
    exact ih fun y hy => ha y (List.mem_cons_of_mem _ hy)

theorem Usable.stops {p : Str} (h : Usable p) : ∀ x ∈ p, stops x = false := by
  intro x hx
  simp only [Lex.stops, Bool.or_eq_false_iff, beq_eq_false_iff_ne, ne_eq]
  exact ⟨fun e => h.1 (e ▸ hx), fun e => h.2 (e ▸ hx)⟩

theorem suffix_stops (k : Kind) : ∀ x ∈ suffix k, stops x = false := by
  cases k with
  | count n => show ∀ x ∈ "-COUNT".toList, stops x = false; decide
  | _ => decide

/-- After the name of a directive there is a colon or a list of modifiers. -/
theorem modifiers_front {r rest : Str} (h : (modifiers r).2 = ':' :: rest) : ∃ c r', r = c :: r' ∧ stops c = true := by
  unfold modifiers at h
  split at h
  · exact ⟨_, _, rfl, rfl⟩
  · exact ⟨_, _, h, rfl⟩

/-- The name of a directive up to the colon or the modifiers. -/
theorem afterPrefix_name {ty : PatTy} {p r : Str} (hp : Usable p) {h : Hit} (ha : (stripPre p r).bind (afterPrefix ty p) = some h) :
    h.pfx = p ∧ match ty with
      | .comment => r.takeWhile (fun x => !stops x) = p
      | .kind k => r.takeWhile (fun x => !stops x) = p ++ suffix k
      | .count => ∃ ds : Str, ds.all Char.isDigit ∧ r.takeWhile (fun x => !stops x) = p ++ "-COUNT-".toList ++ ds := by
  obtain ⟨r1, h1, h2⟩ := Option.bind_eq_some_iff.1 ha
  rw [stripPre_iff] at h1
  subst h1
  cases ty with
  | comment =>
    unfold afterPrefix at h2
    dsimp only at h2
    split at h2
    · simp only [Option.some.injEq] at h2
      subst h2
      exact ⟨rfl, takeWhile_stops hp.stops rfl⟩
    · simp at h2
  | kind k =>
    unfold afterPrefix at h2
    dsimp only at h2
    split at h2
    · rename_i r2 h3
      rw [stripPre_iff] at h3
      subst h3
      split at h2
      · rename_i h4
        simp only [Option.some.injEq] at h2
        subst h2
        obtain ⟨c, r', rfl, hc⟩ := modifiers_front h4
        refine ⟨rfl, ?_⟩
        dsimp only
        rw [← List.append_assoc]
        refine takeWhile_stops ?_ hc
        intro x hx
        rcases List.mem_append.1 hx with hx | hx
        · exact hp.stops x hx
        · exact suffix_stops k x hx
      · simp at h2
    · simp at h2
  | count =>
    unfold afterPrefix at h2
    dsimp only at h2
    split at h2
    · rename_i r2 h3
      rw [stripPre_iff] at h3
      subst h3
      split_ifs at h2
      split at h2
      · rename_i h4
        simp only [Option.some.injEq] at h2
        subst h2
        obtain ⟨c, r', h5, hc⟩ := modifiers_front h4
        refine ⟨rfl, r2.takeWhile Char.isDigit, ?_, ?_⟩
        · exact List.all_eq_true.2 fun x hx => List.all_eq_true.1 (List.all_takeWhile) x hx
        · have e : p ++ ("-COUNT-".toList ++ r2) = (p ++ "-COUNT-".toList ++ r2.takeWhile Char.isDigit) ++ c :: r' := by
            rw [← h5]
            simp [List.takeWhile_append_dropWhile]
          rw [e]
          refine takeWhile_stops ?_ hc
          intro x hx
          rcases List.mem_append.1 hx with hx | hx
          · rcases List.mem_append.1 hx with hx | hx
            · exact hp.stops x hx
            · exact (show ∀ x ∈ "-COUNT-".toList, stops x = false by decide) x hx
          · have := List.all_eq_true.1 (List.all_takeWhile) x hx
            cases hs : stops x with
            | false => rfl
            | true =>
              simp only [stops, Bool.or_eq_true, beq_iff_eq] at hs
              rcases hs with rfl | rfl <;> exact absurd this (by decide)
      · simp at h2
    · simp at h2

theorem digits_cancel {a b d e : Str} (hd : d.all Char.isDigit) (he : e.all Char.isDigit) (h : a ++ "-COUNT-".toList ++ d = b ++ "-COUNT-".toList ++ e) : a = b := by
  have h1 : ∀ {x y : Str}, x.all Char.isDigit = true → (y ++ "-COUNT-".toList ++ x).reverse.dropWhile Char.isDigit = "-TNUOC-".toList ++ y.reverse := by
    intro x y hx
    have hx' : ∀ c ∈ x.reverse, Char.isDigit c = true := fun c hc => List.all_eq_true.1 hx c (List.mem_reverse.1 hc)
    rw [List.reverse_append, List.dropWhile_append_of_pos hx', List.reverse_append]
    rfl
  have h2 := congrArg (fun l : Str => l.reverse.dropWhile Char.isDigit) h
  rw [h1 hd, h1 he] at h2
  exact List.reverse_injective (List.append_cancel_left h2)

/-- A directive has one prefix only. -/
theorem prefix_unique {ty : PatTy} {p q r : Str} (hp : Usable p) (hq : Usable q) {h h' : Hit} (h1 : (stripPre p r).bind (afterPrefix ty p) = some h)
    (h2 : (stripPre q r).bind (afterPrefix ty q) = some h') : p = q := by
  have a := (afterPrefix_name hp h1).2
  have b := (afterPrefix_name hq h2).2
  cases ty with
  | comment => exact a.symm.trans b
  | kind k => exact List.append_cancel_right (a.symm.trans b)
  | count =>
    obtain ⟨d, hd, a⟩ := a
    obtain ⟨e, he, b⟩ := b
    exact digits_cancel hd he (a.symm.trans b)

theorem body_iff {ty : PatTy} {ps : List Str} (hp : ∀ p ∈ ps, Usable p) (r : Str) (h : Hit) :
    body ty ps r = some h ↔ ∃ p ∈ ps, (stripPre p r).bind (afterPrefix ty p) = some h := by
  unfold body
  constructor
  · intro hh
    obtain ⟨p, h1, h2⟩ := List.exists_of_findSome?_eq_some hh
    exact ⟨p, h1, h2⟩
  · rintro ⟨p, h1, h2⟩
    cases hh : ps.findSome? fun p => (stripPre p r).bind (afterPrefix ty p) with
    | none => rw [List.findSome?_eq_none_iff] at hh; rw [hh p h1] at h2; cases h2
    | some h' =>
      obtain ⟨q, h3, h4⟩ := List.exists_of_findSome?_eq_some hh
      have := prefix_unique (hp p h1) (hp q h3) h2 h4
      subst this
      rw [← h4, h2]

theorem body_same {ty : PatTy} {ps qs : List Str} (hp : ∀ p ∈ ps, Usable p) (hs : ∀ p, p ∈ qs ↔ p ∈ ps) (r : Str) : body ty qs r = body ty ps r := by
  apply Option.ext
  intro h
  rw [body_iff hp, body_iff (fun p h => hp p ((hs p).1 h))]
  constructor
  · rintro ⟨p, h1, h2⟩; exact ⟨p, (hs p).1 h1, h2⟩
  · rintro ⟨p, h1, h2⟩; exact ⟨p, (hs p).2 h1, h2⟩

/-- The configurations differ at most in the order and repetition of prefixes. -/
structure SamePrefixes (c c' : Cfg) : Prop where
  check : ∀ p, p ∈ c'.checkPrefixes ↔ p ∈ c.checkPrefixes
  comment : ∀ p, p ∈ c'.commentPrefixes ↔ p ∈ c.commentPrefixes
  strict : c'.strictWhitespace = c.strictWhitespace
  full : c'.matchFullLines = c.matchFullLines

/-- All prefixes can be used. -/
structure UsableAll (c : Cfg) : Prop where
  check : ∀ p ∈ c.checkPrefixes, Usable p
  comment : ∀ p ∈ c.commentPrefixes, Usable p

variable {c c' : Cfg}

theorem nil_of_same {ps qs : List Str} (hs : ∀ p, p ∈ qs ↔ p ∈ ps) : qs = [] ↔ ps = [] := by
  simp only [List.eq_nil_iff_forall_not_mem, hs]

theorem orDefault_same {ps qs d : List Str} (hs : ∀ p, p ∈ qs ↔ p ∈ ps) : ∀ p, p ∈ orDefault qs d ↔ p ∈ orDefault ps d := by
  intro p
  unfold orDefault
  by_cases h : ps = []
  · rw [if_pos h, if_pos ((nil_of_same hs).2 h)]
  · rw [if_neg h, if_neg (fun e => h ((nil_of_same hs).1 e))]
    exact hs p

theorem orDefault_usable {ps d : List Str} (hp : ∀ p ∈ ps, Usable p) (hd : ∀ p ∈ d, Usable p) : ∀ p ∈ orDefault ps d, Usable p := by
  intro p h
  unfold orDefault at h
  split_ifs at h
  · exact hd p h
  · exact hp p h

theorem matchAt_same (hu : UsableAll c) (hs : SamePrefixes c c') (bol : Bool) (r : Str) : matchAt c' bol r = matchAt c bol r := by
  have u1 := orDefault_usable hu.comment (d := ["COM".toList, "RUN".toList]) (by unfold Usable; decide)
  have u2 := orDefault_usable hu.check (d := ["CHECK".toList]) (by unfold Usable; decide)
  have s1 := orDefault_same (d := ["COM".toList, "RUN".toList]) hs.comment
  have s2 := orDefault_same (d := ["CHECK".toList]) hs.check
  unfold matchAt patterns
  simp only [List.findSome?_cons, List.findSome?_map, Function.comp_def, fun r => body_same (ty := .comment) u1 s1 r,
    fun ty r => body_same (ty := ty) u2 s2 r]

theorem search_same (hu : UsableAll c) (hs : SamePrefixes c c') : ∀ (r : Str) (bol : Bool), search c' bol r = search c bol r
  | [], bol => matchAt_same hu hs bol []
  | x :: r, bol => by
    unfold search
    rw [matchAt_same hu hs, search_same hu hs r]

theorem directive_same (hs : SamePrefixes c c') (h : Hit) : directive c' h = directive c h := by
  unfold directive checkPattern
  rw [hs.strict, hs.full]

theorem tokens_same (hu : UsableAll c) (hs : SamePrefixes c c') : ∀ (n : Nat) (bol : Bool) (r : Str), tokens c' n bol r = tokens c n bol r
  | 0, _, _ => rfl
  | _ + 1, _, [] => rfl
  | n + 1, bol, x :: r => by
    unfold tokens
    simp only [search_same hu hs, directive_same hs, tokens_same hu hs n]

theorem rests_same (hu : UsableAll c) (hs : SamePrefixes c c') : ∀ (n : Nat) (bol : Bool) (r : Str), rests c' n bol r = rests c n bol r
  | 0, _, _ => rfl
  | _ + 1, _, [] => rfl
  | n + 1, bol, x :: r => by
    unfold rests
    simp only [search_same hu hs, rests_same hu hs n]

theorem lex_same (hu : UsableAll c) (hs : SamePrefixes c c') (text : Str) : lex c' text = lex c text := tokens_same hu hs _ _ _

theorem checkLines_same (hu : UsableAll c) (hs : SamePrefixes c c') (text : Str) : checkLines c' text = checkLines c text := by
  unfold checkLines
  rw [rests_same hu hs]

theorem unused_nil {seen : List Str} : ∀ (ps before : List Str), ps.Nodup → (∀ p ∈ ps, p ∉ before) →
    (unusedPrefixes seen before ps = [] ↔ ∀ p ∈ ps, p ∈ seen)
  | [], _, _, _ => by simp [unusedPrefixes]
  | p :: ps, before, hn, hb => by
    obtain ⟨h1, h2⟩ := List.nodup_cons.1 hn
    unfold unusedPrefixes
    rw [List.append_eq_nil_iff, unused_nil ps (before ++ [p]) h2]
    · have := hb p List.mem_cons_self
      by_cases hp : p ∈ seen
      · simp [hp, this]
      · simp [hp]
    · intro q hq
      simp only [List.mem_append, List.mem_singleton, not_or]
      exact ⟨hb q (List.mem_cons_of_mem _ hq), fun e => h1 (e ▸ hq)⟩

end Litcheck.Lex
