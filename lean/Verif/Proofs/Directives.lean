import Verif.Model.Lexer
import Verif.Spec.Lexer
import Mathlib.Data.List.Basic

/-! # The lexer finds the directives of the lines -/

namespace Litcheck.Lex

open LexSpec (Mods MoreMods Begins Place Recognised Directive Head ws asciiWs)

theorem stripPre_iff (p r s : Str) : stripPre p r = some s ↔ r = p ++ s := by
  induction p generalizing r with
  | nil => simp [stripPre, eq_comm]
  | cons a p ih =>
    cases r with
    | nil => simp [stripPre]
    | cons c r =>
      rw [stripPre]
      split
      · rename_i h
        rw [ih]
        simp [h]
      · rename_i h
        simp [Ne.symm h]

/-! ## Modifiers -/

theorem dropWhile_ws (w r : Str) (h : w.all BParse.isWs) (hr : ∀ c ∈ r.head?, BParse.isWs c = false) :
    (w ++ r).dropWhile BParse.isWs = r := by
  induction w with
  | nil =>
    cases r with
    | nil => rfl
    | cons c r => simp [List.dropWhile_cons, hr c (by simp)]
  | cons c w ih =>
    simp only [List.all_cons, Bool.and_eq_true] at h
    simp [List.dropWhile_cons, h.1, ih h.2]

theorem take_drop_ws (r : Str) : r = r.takeWhile BParse.isWs ++ r.dropWhile BParse.isWs :=
  (List.takeWhile_append_dropWhile).symm

theorem all_takeWhile (p : Char → Bool) (r : Str) : (r.takeWhile p).all p := by
  induction r with
  | nil => rfl
  | cons c r ih =>
    rw [List.takeWhile_cons]
    split
    · simp_all
    · rfl

theorem modTail_sound (n : Nat) (again : Bool) (r : Str) (k : Nat) (rest : Str) (h : modTail n again r = some (k, rest)) :
    ∃ w t, w.all ws ∧ (again = false → w = [] ∨ k ≠ 0) ∧ MoreMods k t ∧
      ((again = true ∧ r = w ++ (t ++ '}' :: rest)) ∨ (again = false ∧ r = t ++ '}' :: rest)) := by
  induction n generalizing again r k with
  | zero => simp [modTail] at h
  | succ n ih =>
    rw [modTail.eq_def] at h
    dsimp only at h
    split at h
    · obtain ⟨rfl, rfl⟩ := (by simpa using h : 0 = k ∧ _ = rest)
      refine ⟨[], [], rfl, fun _ => .inl rfl, .nil, ?_⟩
      cases again <;> simp
    · split at h
      · rename_i r2 hd
        split at h
        · rename_i r3 hs
          obtain ⟨⟨k', rest'⟩, hk, he⟩ := Option.map_eq_some_iff.1 h
          obtain ⟨rfl, rfl⟩ := (by simpa using he : k' + 1 = k ∧ rest' = rest)
          obtain ⟨w, t, hw, -, ht, hr⟩ := ih true r3 k' hk
          obtain ⟨-, rfl⟩ | ⟨h0, -⟩ := hr
          · rw [stripPre_iff] at hs
            have h1 := take_drop_ws r
            rw [hd] at h1
            have h2 := take_drop_ws r2
            rw [hs] at h2
            refine ⟨[], _, rfl, fun _ => .inl rfl, .cons (all_takeWhile _ r) (all_takeWhile _ r2) hw ht, ?_⟩
            have : r = r.takeWhile BParse.isWs ++ ',' :: (r2.takeWhile BParse.isWs ++ "LITERAL".toList ++ (w ++ t)) ++ '}' :: rest' := by
              refine h1.trans ?_
              simp only [List.append_assoc, List.cons_append] at h2 ⊢
              rw [← h2]
            cases again
            · exact .inr ⟨rfl, this⟩
            · exact .inl ⟨rfl, this⟩
          · cases h0
        · simp at h
      · rename_i r2 hd
        split at h
        · rename_i ha
          obtain ⟨rfl, rfl⟩ := (by simpa using h : 0 = k ∧ _ = rest)
          refine ⟨_, [], all_takeWhile _ r, fun h0 => by simp [ha] at h0, .nil, .inl ⟨ha, ?_⟩⟩
          have h1 := take_drop_ws r
          rw [hd] at h1
          exact h1
        · simp at h
      · simp at h

theorem modTail_complete {k : Nat} {t : Str} (ht : MoreMods k t) : ∀ (n : Nat) (w rest : Str) (again : Bool), w.all ws → (again = false → w = []) →
    (w ++ (t ++ '}' :: rest)).length ≤ n → modTail n again (w ++ (t ++ '}' :: rest)) = some (k, rest) := by
  induction ht with
  | nil =>
    intro n w rest again hw ha hn
    obtain ⟨n, rfl⟩ : ∃ m, n = m + 1 := ⟨n - 1, by simp at hn; omega⟩
    rw [modTail.eq_def]
    dsimp only
    cases w with
    | nil => rfl
    | cons c w =>
      have hc : BParse.isWs c = true := by simp only [List.all_cons, Bool.and_eq_true] at hw; exact hw.1
      have hd : (c :: w ++ ([] ++ '}' :: rest)).dropWhile BParse.isWs = '}' :: rest := by
        rw [dropWhile_ws _ _ hw (by simp; decide)]
        rfl
      have hag : again = true := by
        cases again with
        | false => exact absurd (ha rfl) (by simp)
        | true => rfl
      split
      · rename_i heq
        simp only [List.cons_append, List.cons.injEq] at heq
        rw [heq.1] at hc
        exact absurd hc (by decide)
      · rw [hd]
        simp [hag]
  | @cons k t w1 w2 w3 h1 h2 h3 ht ih =>
    intro n w rest again hw ha hn
    obtain ⟨n, rfl⟩ : ∃ m, n = m + 1 := ⟨n - 1, by simp at hn; omega⟩
    have hd : (w ++ (w1 ++ ',' :: (w2 ++ "LITERAL".toList ++ (w3 ++ t)) ++ '}' :: rest)).dropWhile BParse.isWs =
        ',' :: (w2 ++ "LITERAL".toList ++ (w3 ++ t)) ++ '}' :: rest := by
      rw [← List.append_assoc, ← List.append_assoc, List.append_assoc (w ++ w1)]
      refine dropWhile_ws _ _ ?_ (by simp; decide)
      rw [List.all_append, Bool.and_eq_true]
      exact ⟨hw, h1⟩
    have hd2 : (w2 ++ "LITERAL".toList ++ (w3 ++ t) ++ '}' :: rest).dropWhile BParse.isWs = "LITERAL".toList ++ (w3 ++ (t ++ '}' :: rest)) := by
      simp only [List.append_assoc]
      refine dropWhile_ws _ _ h2 (by simp; decide)
    rw [modTail.eq_def]
    dsimp only
    split
    · rename_i heq
      exfalso
      rw [heq] at hd
      simp [List.dropWhile_cons, show BParse.isWs '}' = false by decide] at hd
    · rw [hd]
      simp only [List.cons_append]
      rw [hd2, (stripPre_iff _ _ _).2 rfl]
      simp only
      rw [ih n w3 rest true h3 (by simp) (by simp at hn ⊢; omega)]
      rfl

theorem modifiers_sound {r : Str} {n : Nat} {rest : Str} (h : modifiers r = (n, rest)) : ∃ m, Mods n m ∧ r = m ++ rest := by
  unfold modifiers at h
  split at h
  · rename_i r1
    split at h
    · rename_i r2 hs
      split at h
      · rename_i k rest' hm
        obtain ⟨rfl, rfl⟩ := (by simpa using h : k + 1 = n ∧ rest' = rest)
        obtain ⟨w, t, -, -, ht, hr⟩ := modTail_sound _ _ _ _ _ hm
        obtain ⟨h0, -⟩ | ⟨-, rfl⟩ := hr
        · cases h0
        · rw [stripPre_iff] at hs
          refine ⟨_, .some (all_takeWhile _ r1) ht, ?_⟩
          have h1 := take_drop_ws r1
          rw [hs] at h1
          simp only [List.append_assoc, List.cons_append, List.nil_append] at h1 ⊢
          exact congrArg ('{' :: ·) h1
      · obtain ⟨rfl, rfl⟩ := (by simpa using h : 0 = n ∧ _ = rest)
        exact ⟨[], .none, rfl⟩
    · obtain ⟨rfl, rfl⟩ := (by simpa using h : 0 = n ∧ _ = rest)
      exact ⟨[], .none, rfl⟩
  · obtain ⟨rfl, rfl⟩ := (by simpa using h : 0 = n ∧ _ = rest)
    exact ⟨[], .none, rfl⟩

theorem modifiers_sound' (r : Str) : ∃ m, Mods (modifiers r).1 m ∧ r = m ++ (modifiers r).2 :=
  modifiers_sound (Prod.mk.eta).symm

theorem modifiers_complete {n : Nat} {m : Str} (h : Mods n m) (t : Str) : modifiers (m ++ ':' :: t) = (n, ':' :: t) := by
  cases h with
  | none => rfl
  | @some n w t' hw ht =>
    have h1 : (w ++ "LITERAL".toList ++ (t' ++ ['}']) ++ ':' :: t).dropWhile BParse.isWs = "LITERAL".toList ++ (t' ++ '}' :: ':' :: t) := by
      simp only [List.append_assoc, List.cons_append, List.nil_append]
      exact dropWhile_ws _ _ hw (by simp; decide)
    rw [modifiers.eq_def]
    simp only [List.cons_append]
    rw [h1, (stripPre_iff _ _ _).2 rfl]
    simp only
    have := modTail_complete ht (t' ++ '}' :: ':' :: t).length [] (':' :: t) false rfl (fun _ => rfl) (by simp)
    rw [List.nil_append] at this
    rw [this]

/-! ## One place -/

/-- The prefixes of checks. -/
def checks (cfg : Cfg) : List Str := orDefault cfg.checkPrefixes ["CHECK".toList]

/-- The prefixes of comments. -/
def comments (cfg : Cfg) : List Str := orDefault cfg.commentPrefixes ["COM".toList, "RUN".toList]

/-- No prefix contains white space. -/
def Clean (cfg : Cfg) : Prop := ∀ p, p ∈ checks cfg ∨ p ∈ comments cfg → ∀ c ∈ p, ws c = false

/-- Every list of modifiers in the text is on one line. -/
def OneLine (s : Str) : Prop := ∀ a m b n, s = a ++ (m ++ b) → Mods n m → '\n' ∉ m

theorem OneLine.suffix {a b : Str} (h : OneLine (a ++ b)) : OneLine b :=
  fun a' m b' n he hm => h (a ++ a') m b' n (by rw [he, List.append_assoc]) hm

/-- The rest of the line. -/
def line (s : Str) : Str := s.takeWhile (· != '\n')

/-- What begins with the end of the line. -/
def eol (s : Str) : Str := s.dropWhile (· != '\n')

theorem line_eol (s : Str) : s = line s ++ eol s := (List.takeWhile_append_dropWhile).symm

theorem line_append {p : Str} (h : '\n' ∉ p) (r : Str) : line (p ++ r) = p ++ line r := by
  induction p with
  | nil => rfl
  | cons c p ih =>
    simp only [List.mem_cons, not_or] at h
    have : (c != '\n') = true := by simpa using Ne.symm h.1
    simp only [line, List.cons_append, List.takeWhile_cons, this, if_true]
    exact congrArg _ (ih h.2)

theorem eol_append {p : Str} (h : '\n' ∉ p) (r : Str) : eol (p ++ r) = eol r := by
  induction p with
  | nil => rfl
  | cons c p ih =>
    simp only [List.mem_cons, not_or] at h
    have : (c != '\n') = true := by simpa using Ne.symm h.1
    simp only [eol, List.cons_append, List.dropWhile_cons, this, if_true]
    exact ih h.2

theorem line_cons {c : Char} (h : c ≠ '\n') (r : Str) : line (c :: r) = c :: line r :=
  line_append (p := [c]) (by simpa using Ne.symm h) r

theorem eol_cons {c : Char} (h : c ≠ '\n') (r : Str) : eol (c :: r) = eol r :=
  eol_append (p := [c]) (by simpa using Ne.symm h) r

/-- The match at a place where a directive may begin. -/
def first (cfg : Cfg) (s : Str) : Option Hit := (patterns cfg).findSome? fun x => body x.1 x.2 s

/-- The directive of a match. -/
def dirOf (h : Hit) : Directive :=
  match h.ty with
  | .comment => ⟨h.pfx, .comment, h.mods, h.comment⟩
  | .kind k => ⟨h.pfx, .kind k, h.mods, line h.rest⟩
  | .count => ⟨h.pfx, .count h.count, h.mods, line h.rest⟩

theorem nl_of_clean {cfg : Cfg} (hc : Clean cfg) {p : Str} (hp : p ∈ checks cfg ∨ p ∈ comments cfg) : '\n' ∉ p := by
  intro h
  have := hc p hp _ h
  exact absurd this (by decide)

theorem body_sound {ty : PatTy} {ps : List Str} {s : Str} {h : Hit} (hb : body ty ps s = some h) :
    ∃ p ∈ ps, ∃ r, s = p ++ r ∧ afterPrefix ty p r = some h := by
  unfold body at hb
  obtain ⟨p, hp, he⟩ := List.exists_of_findSome?_eq_some hb
  obtain ⟨r, h1, h2⟩ := Option.bind_eq_some_iff.1 he
  exact ⟨p, hp, r, (stripPre_iff _ _ _).1 h1, h2⟩

theorem body_none {ty : PatTy} {ps : List Str} {s : Str} (hb : body ty ps s = none) {p r : Str} (hp : p ∈ ps) (hs : s = p ++ r) :
    afterPrefix ty p r = none := by
  unfold body at hb
  rw [List.findSome?_eq_none_iff] at hb
  have := hb p hp
  rw [(stripPre_iff _ _ _).2 hs] at this
  exact this

theorem mem_patterns {cfg : Cfg} {x : PatTy × List Str} :
    x ∈ patterns cfg ↔ x = (.comment, comments cfg) ∨ (x.1 ∈ CHECKS ∧ x.2 = checks cfg) := by
  simp only [patterns, List.mem_cons, List.mem_map]
  refine or_congr Iff.rfl ⟨?_, ?_⟩
  · rintro ⟨ty, h, rfl⟩
    exact ⟨h, rfl⟩
  · rintro ⟨h1, h2⟩
    exact ⟨x.1, h1, Prod.ext rfl h2.symm⟩

theorem word_suffix {k : Kind} (h : PatTy.kind k ∈ CHECKS) : LexSpec.word k = some (suffix k) ∧ '\n' ∉ suffix k := by
  cases k <;> first | exact ⟨rfl, by decide⟩ | simp [CHECKS] at h

theorem word_checks {k : Kind} {w : Str} (h : LexSpec.word k = some w) : PatTy.kind k ∈ CHECKS ∧ w = suffix k := by
  cases k <;> simp_all [LexSpec.word, CHECKS, suffix]

theorem digits_nl {ds : Str} (h : ds.all Char.isDigit) : '\n' ∉ ds := by
  intro hm
  rw [List.all_eq_true] at h
  exact absurd (h _ hm) (by decide)

theorem first_sound {cfg : Cfg} {s : Str} {h : Hit} (hc : Clean cfg) (ho : OneLine s) (hf : first cfg s = some h) :
    Begins (checks cfg) (comments cfg) (line s) (dirOf h) ∧ eol h.rest = eol s := by
  unfold first at hf
  obtain ⟨⟨ty, ps⟩, hx, hb⟩ := List.exists_of_findSome?_eq_some hf
  obtain ⟨p, hp, r, rfl, ha⟩ := body_sound hb
  obtain he | ⟨hty, hps⟩ := mem_patterns.1 hx
  · simp only [Prod.mk.injEq] at he
    obtain ⟨rfl, rfl⟩ := he
    dsimp only at hp
    have hn := nl_of_clean hc (.inr hp)
    unfold afterPrefix at ha
    dsimp only at ha
    split at ha
    · rename_i r1
      obtain rfl := (by simpa using ha : _ = h)
      rw [line_append hn, line_cons (by decide), eol_append hn, eol_cons (by decide)]
      refine ⟨.comment hp, ?_⟩
      show eol (eol r1) = eol r1
      have : ∀ r, eol (eol r) = eol r := by
        intro r
        induction r with
        | nil => rfl
        | cons c r ih =>
          by_cases h : c = '\n'
          · subst h; rfl
          · rw [eol_cons h, ih]
      exact this _
    · simp at ha
  · dsimp only at hty hps
    subst hps
    have hn := nl_of_clean hc (.inl hp)
    unfold afterPrefix at ha
    cases ty with
    | comment => simp [CHECKS] at hty
    | kind k =>
      dsimp only at ha
      split at ha
      · rename_i r1 hs
        split at ha
        · rename_i rest hm
          obtain rfl := (by simpa using ha : _ = h)
          obtain ⟨m, hm1, hm2⟩ := modifiers_sound' r1
          rw [hm] at hm2
          obtain ⟨hw, hwn⟩ := word_suffix hty
          rw [stripPre_iff] at hs
          subst hs
          have hmn : '\n' ∉ m := ho (p ++ suffix k) m (':' :: rest) _ (by rw [List.append_assoc, hm2]) hm1
          have hl : line (p ++ (suffix k ++ r1)) = p ++ (suffix k ++ (m ++ ':' :: line rest)) := by
            rw [line_append hn, line_append hwn, hm2, line_append hmn, line_cons (by decide)]
          have he : eol (p ++ (suffix k ++ r1)) = eol rest := by
            rw [eol_append hn, eol_append hwn, hm2, eol_append hmn, eol_cons (by decide)]
          rw [hl, he]
          exact ⟨.kind hp hw hm1, rfl⟩
        · simp at ha
      · simp at ha
    | count =>
      dsimp only at ha
      split at ha
      · rename_i r1 hs
        split at ha
        · simp at ha
        · rename_i hds
          split at ha
          · rename_i rest hm
            obtain rfl := (by simpa using ha : _ = h)
            obtain ⟨m, hm1, hm2⟩ := modifiers_sound' (r1.dropWhile Char.isDigit)
            rw [hm] at hm2
            have hd : r1 = r1.takeWhile Char.isDigit ++ (m ++ ':' :: rest) := by
              rw [← hm2, List.takeWhile_append_dropWhile]
            have hdn := digits_nl (all_takeWhile Char.isDigit r1)
            rw [stripPre_iff] at hs
            subst hs
            have hmn : '\n' ∉ m := ho (p ++ ("-COUNT-".toList ++ r1.takeWhile Char.isDigit)) m (':' :: rest) _
              (by simp only [List.append_assoc]; rw [← hd]) hm1
            have hl : line (p ++ ("-COUNT-".toList ++ r1)) = p ++ ("-COUNT-".toList ++ (r1.takeWhile Char.isDigit ++ (m ++ ':' :: line rest))) := by
              rw [line_append hn, line_append (by decide)]
              conv => lhs; rw [hd]
              rw [line_append hdn, line_append hmn, line_cons (by decide)]
            have he : eol (p ++ ("-COUNT-".toList ++ r1)) = eol rest := by
              rw [eol_append hn, eol_append (by decide)]
              conv => lhs; rw [hd]
              rw [eol_append hdn, eol_append hmn, eol_cons (by decide)]
            rw [hl, he]
            exact ⟨.count hp hds (all_takeWhile _ _) hm1, rfl⟩
          · simp at ha
      · simp at ha

theorem takeWhile_digits (ds r : Str) (h : ds.all Char.isDigit) (hr : ∀ c ∈ r.head?, c.isDigit = false) :
    (ds ++ r).takeWhile Char.isDigit = ds ∧ (ds ++ r).dropWhile Char.isDigit = r := by
  induction ds with
  | nil =>
    cases r with
    | nil => exact ⟨rfl, rfl⟩
    | cons c r => simp [List.takeWhile_cons, List.dropWhile_cons, hr c (by simp)]
  | cons c ds ih =>
    simp only [List.all_cons, Bool.and_eq_true] at h
    simp [List.takeWhile_cons, List.dropWhile_cons, h.1, ih h.2]

theorem mods_head {n : Nat} {m : Str} (h : Mods n m) (t : Str) : ∀ c ∈ (m ++ ':' :: t).head?, c.isDigit = false := by
  cases h with
  | none => intro c hc; simp at hc; subst hc; decide
  | some => intro c hc; simp at hc; subst hc; decide

theorem first_none {cfg : Cfg} {s : Str} (hf : first cfg s = none) (d : Directive) : ¬ Begins (checks cfg) (comments cfg) (line s) d := by
  unfold first at hf
  rw [List.findSome?_eq_none_iff] at hf
  have hs := line_eol s
  intro hb
  generalize hl : line s = l at hb
  rw [hl] at hs
  cases hb with
  | @comment p t hp =>
    have h1 := hf _ (mem_patterns.2 (.inl rfl))
    have h2 := body_none h1 hp (r := ':' :: (t ++ eol s)) (by simpa using hs)
    simp [afterPrefix] at h2
  | @kind p k w n m t hp hw hm =>
    obtain ⟨h0, rfl⟩ := word_checks hw
    have h1 := hf (.kind k, checks cfg) (mem_patterns.2 (.inr ⟨h0, rfl⟩))
    have h2 := body_none h1 hp (r := suffix k ++ (m ++ ':' :: (t ++ eol s))) (by simpa using hs)
    simp only [afterPrefix] at h2
    rw [(stripPre_iff _ _ _).2 rfl] at h2
    simp only [modifiers_complete hm] at h2
    simp at h2
  | @count p ds n m t hp hne hds hm =>
    have h1 := hf (.count, checks cfg) (mem_patterns.2 (.inr ⟨by simp [CHECKS], rfl⟩))
    have h2 := body_none h1 hp (r := "-COUNT-".toList ++ (ds ++ (m ++ ':' :: (t ++ eol s)))) (by simpa using hs)
    simp only [afterPrefix] at h2
    rw [(stripPre_iff _ _ _).2 rfl] at h2
    obtain ⟨h3, h4⟩ := takeWhile_digits ds (m ++ ':' :: (t ++ eol s)) hds (mods_head hm _)
    simp only [h3, h4, if_neg hne, modifiers_complete hm] at h2
    simp at h2

theorem begins_head {cfg : Cfg} (hc : Clean cfg) {c : Char} {l : Str} {d : Directive}
    (h : Begins (checks cfg) (comments cfg) (c :: l) d) : ws c = false := by
  generalize hs : c :: l = s at h
  cases h with
  | @comment p t hp =>
    cases p with
    | nil => simp at hs; rw [hs.1]; decide
    | cons x p =>
      simp at hs
      exact hc _ (.inr hp) _ (by simp [hs.1])
  | @kind p k w n m t hp hw hm =>
    cases p with
    | nil =>
      cases w with
      | nil => cases hm <;> (simp at hs; rw [hs.1]; decide)
      | cons x w =>
        simp at hs
        cases k <;> simp [LexSpec.word] at hw <;> (rw [hs.1, ← hw.1]; decide)
    | cons x p =>
      simp at hs
      exact hc _ (.inl hp) _ (by simp [hs.1])
  | @count p ds n m t hp hne hds hm =>
    cases p with
    | nil => simp at hs; rw [hs.1]; decide
    | cons x p =>
      simp at hs
      exact hc _ (.inl hp) _ (by simp [hs.1])

theorem begins_nil {cs cm : List Str} {d : Directive} (h : Begins cs cm [] d) : False := by
  generalize hs : [] = s at h
  cases h <;> simp at hs

theorem first_ws {cfg : Cfg} (hc : Clean cfg) {c : Char} {r : Str} (ho : OneLine (c :: r)) (h : BParse.isWs c = true) :
    first cfg (c :: r) = none := by
  cases hf : first cfg (c :: r) with
  | none => rfl
  | some x =>
    exfalso
    obtain ⟨hb, -⟩ := first_sound hc ho hf
    by_cases hn : c = '\n'
    · subst hn
      exact begins_nil hb
    · rw [line_cons hn] at hb
      have := begins_head hc hb
      rw [show ws c = BParse.isWs c from rfl, h] at this
      cases this

theorem first_nil (cfg : Cfg) (hc : Clean cfg) : first cfg [] = none := by
  cases hf : first cfg [] with
  | none => rfl
  | some x =>
    have ho : OneLine [] := by
      intro a m b n he hm
      have : m = [] := by simpa using (List.append_eq_nil_iff.1 (List.append_eq_nil_iff.1 he.symm).2).1
      simp [this]
    exact (begins_nil (first_sound hc ho hf).1).elim

/-! ## The search -/

/-- A directive may be looked for after `a`. -/
def WordStart (bol : Bool) (a : Str) : Prop := (a = [] ∧ bol = true) ∨ ∃ a' c, a = a' ++ [c] ∧ BParse.isWs c = true

/-- The first match in the text. -/
structure Found (cfg : Cfg) (bol : Bool) (r a b : Str) (h : Hit) : Prop where
  eq : r = a ++ b
  start : WordStart bol a
  hit : first cfg b = some h
  least : ∀ a' b', r = a' ++ b' → a'.length < a.length → WordStart bol a' → first cfg b' = none

/-- There is no match in the text. -/
def NotFound (cfg : Cfg) (bol : Bool) (r : Str) : Prop := ∀ a b, r = a ++ b → WordStart bol a → first cfg b = none

theorem findSome_congr {α β : Type} (l : List α) (f g : α → Option β) (h : ∀ x ∈ l, f x = g x) : l.findSome? f = l.findSome? g := by
  induction l with
  | nil => rfl
  | cons a l ih =>
    rw [List.findSome?_cons, List.findSome?_cons, h a (by simp), ih fun x hx => h x (by simp [hx])]

theorem matchAt_nil (cfg : Cfg) (hc : Clean cfg) (bol : Bool) : matchAt cfg bol [] = none := by
  have h := first_nil cfg hc
  unfold first at h
  unfold matchAt
  rw [List.findSome?_eq_none_iff] at h ⊢
  intro x hx
  simp [h x hx]

theorem matchAt_cons (cfg : Cfg) (hc : Clean cfg) (bol : Bool) (c : Char) (r : Str) (ho : OneLine (c :: r)) :
    matchAt cfg bol (c :: r) = if BParse.isWs c then first cfg r else if bol then first cfg (c :: r) else none := by
  by_cases hw : BParse.isWs c = true
  · have h := first_ws hc ho hw
    unfold first at h
    rw [List.findSome?_eq_none_iff] at h
    simp only [matchAt, hw, if_true]
    unfold first
    refine findSome_congr _ _ _ fun x hx => ?_
    rw [h x hx]
    simp
  · simp only [matchAt, hw]
    cases bol <;> simp [first]

theorem wordStart_cons {bol : Bool} {c : Char} {a : Str} :
    WordStart bol (c :: a) ↔ (a = [] ∧ BParse.isWs c = true) ∨ (a ≠ [] ∧ WordStart false a) := by
  constructor
  · rintro (⟨h, -⟩ | ⟨a', x, h1, h2⟩)
    · cases h
    · cases a' with
      | nil =>
        simp at h1
        exact .inl ⟨h1.2, h1.1 ▸ h2⟩
      | cons y a' =>
        simp at h1
        exact .inr ⟨by simp [h1.2], .inr ⟨a', x, h1.2, h2⟩⟩
  · rintro (⟨rfl, h⟩ | ⟨-, ⟨-, h⟩ | ⟨a', x, rfl, h2⟩⟩)
    · exact .inr ⟨[], c, rfl, h⟩
    · cases h
    · exact .inr ⟨c :: a', x, rfl, h2⟩

theorem WordStart.mono {bol : Bool} {a : Str} (h : WordStart false a) : WordStart bol a := by
  obtain ⟨-, h⟩ | h := h
  · cases h
  · exact .inr h

theorem search_spec (cfg : Cfg) (hc : Clean cfg) (bol : Bool) (r : Str) (ho : OneLine r) :
    match search cfg bol r with
    | some h => ∃ a b, Found cfg bol r a b h
    | none => NotFound cfg bol r := by
  induction r generalizing bol with
  | nil =>
    simp only [search, matchAt_nil cfg hc]
    intro a b he _
    obtain ⟨rfl, rfl⟩ := List.append_eq_nil_iff.1 he.symm
    exact first_nil cfg hc
  | cons c r ih =>
    have ho' : OneLine r := OneLine.suffix (a := [c]) ho
    have ih := ih (c == '\n') ho'
    rw [search, matchAt_cons cfg hc bol c r ho]
    -- what is known when nothing matches here
    have key : (bol = true → first cfg (c :: r) = none) → (BParse.isWs c = true → first cfg r = none) →
        ∀ a b, c :: r = a ++ b → WordStart bol a → first cfg b ≠ none →
          ∃ a', a = c :: a' ∧ r = a' ++ b ∧ WordStart (c == '\n') a' ∧ a' ≠ [] := by
      intro h1 h2 a b he hw hf
      cases a with
      | nil =>
        obtain ⟨-, hb⟩ | ⟨a', x, h3, -⟩ := hw
        · simp at he
          rw [← he] at hf
          exact absurd (h1 hb) hf
        · simp at h3
      | cons x a =>
        simp at he
        obtain ⟨rfl, he⟩ := he
        rw [wordStart_cons] at hw
        obtain ⟨rfl, hx⟩ | ⟨hne, hw⟩ := hw
        · simp at he
          rw [← he] at hf
          exact absurd (h2 hx) hf
        · exact ⟨a, rfl, he, hw.mono, hne⟩
    -- the rest of the search
    have rest : (bol = true → first cfg (c :: r) = none) → (BParse.isWs c = true → first cfg r = none) →
        (match search cfg (c == '\n') r with
        | some h => ∃ a b, Found cfg bol (c :: r) a b h
        | none => NotFound cfg bol (c :: r)) := by
      intro h1 h2
      cases hs : search cfg (c == '\n') r with
      | none =>
        rw [hs] at ih
        intro a b he hw
        by_contra hf
        obtain ⟨a', -, h3, h4, -⟩ := key h1 h2 a b he hw hf
        exact hf (ih a' b h3 h4)
      | some h =>
        rw [hs] at ih
        obtain ⟨a, b, hF⟩ := ih
        refine ⟨c :: a, b, by rw [hF.eq]; rfl, ?_, hF.hit, ?_⟩
        · rw [wordStart_cons]
          obtain ⟨rfl, hn⟩ | ⟨a', x, rfl, hx⟩ := hF.start
          · left
            refine ⟨rfl, ?_⟩
            simp at hn
            rw [hn]
            decide
          · exact .inr ⟨by simp, .inr ⟨a', x, rfl, hx⟩⟩
        · intro a' b' he hl hw
          by_contra hf
          obtain ⟨a'', rfl, h3, h4, -⟩ := key h1 h2 a' b' he hw hf
          simp at hl
          exact hf (hF.least a'' b' h3 hl h4)
    by_cases hw : BParse.isWs c = true
    · rw [if_pos hw]
      have h1 := first_ws hc ho hw
      cases hf : first cfg r with
      | none => exact rest (fun _ => h1) fun _ => hf
      | some h =>
        refine ⟨[c], r, rfl, .inr ⟨[], c, rfl, hw⟩, hf, ?_⟩
        intro a' b' he hl _
        have : a' = [] := by simpa using hl
        subst this
        simp at he
        rw [← he]
        exact h1
    · rw [if_neg hw]
      by_cases hb : bol = true
      · rw [if_pos hb]
        cases hf : first cfg (c :: r) with
        | none => exact rest (fun _ => hf) fun h => absurd h hw
        | some h =>
          refine ⟨[], c :: r, rfl, .inl ⟨rfl, hb⟩, hf, ?_⟩
          intro a' b' _ hl _
          simp at hl
      · rw [if_neg hb]
        exact rest (fun h => absurd h hb) fun h => absurd h hw

end Litcheck.Lex
