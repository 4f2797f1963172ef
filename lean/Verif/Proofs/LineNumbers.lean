import Verif.Spec.LineNumbers
import Verif.Model.Lines
import Verif.Proofs.Recognise
import Verif.Proofs.ParseLines

/-! # The numbers of the lines of directives -/

namespace Litcheck.Lex

open LexSpec (Mods MoreMods Begins Place Recognised RecognisedAt Directive Head ws asciiWs)

/-- As `Recognised`, with the number of lines after that of the directive. -/
inductive Rem (checks comments : List Str) : Bool → List Str → List (Nat × Directive) → Prop
  | nil {fresh} : Rem checks comments fresh [] []
  | blank {l ls ds} : l.all asciiWs → Rem checks comments true ls ds → Rem checks comments true (l :: ls) ds
  | none {fresh l ls ds} : (fresh = true → ¬ l.all asciiWs) →
      (∀ a b, l = a ++ b → Place fresh a → ∀ d, ¬ Begins checks comments b d) →
      Rem checks comments false ls ds → Rem checks comments fresh (l :: ls) ds
  | some {fresh a b ls d ds} : (fresh = true → ¬ (a ++ b).all asciiWs) → Place fresh a → Begins checks comments b d →
      (∀ a' b', a ++ b = a' ++ b' → a'.length < a.length → Place fresh a' → ∀ d', ¬ Begins checks comments b' d') →
      Rem checks comments true ls ds → Rem checks comments fresh ((a ++ b) :: ls) ((ls.length, d) :: ds)

theorem Rem.le {cs ms fresh ls ds} (h : Rem cs ms fresh ls ds) : ∀ x ∈ ds, x.1 < ls.length := by
  induction h with
  | nil => simp
  | blank _ _ ih => intro x hx; have := ih x hx; simp; omega
  | none _ _ _ ih => intro x hx; have := ih x hx; simp; omega
  | some _ _ _ _ _ ih =>
    intro x hx
    obtain rfl | hx := List.mem_cons.1 hx
    · simp
    · have := ih x hx; simp; omega

theorem Rem.at {cs ms fresh ls ds} (h : Rem cs ms fresh ls ds) (k : Nat) :
    RecognisedAt cs ms k fresh ls (ds.map fun x => (k + ls.length - (x.1 + 1), x.2)) := by
  induction h generalizing k with
  | nil => exact .nil
  | blank h _ ih =>
    refine .blank h ?_
    have := ih (k + 1)
    simpa [Nat.add_assoc, Nat.add_comm 1] using this
  | none h1 h2 _ ih =>
    refine .none h1 h2 ?_
    have := ih (k + 1)
    simpa [Nat.add_assoc, Nat.add_comm 1] using this
  | some h1 h2 h3 h4 _ ih =>
    have := ih (k + 1)
    have h5 := RecognisedAt.some (k := k) h1 h2 h3 h4 this
    simpa [Nat.add_assoc, Nat.add_comm 1] using h5

theorem Rem.erase {cs ms fresh ls ds} (h : Rem cs ms fresh ls ds) : Recognised cs ms fresh ls (ds.map (·.2)) := by
  induction h with
  | nil => exact .nil
  | blank h _ ih => exact .blank h ih
  | none h1 h2 _ ih => exact .none h1 h2 ih
  | some h1 h2 h3 h4 _ ih => exact .some h1 h2 h3 h4 ih

theorem Rem.ofNil {cs ms fresh ls} (h : Recognised cs ms fresh ls []) : Rem cs ms fresh ls [] := by
  generalize hd : ([] : List Directive) = ds at h
  induction h with
  | nil => exact .nil
  | blank h _ ih => exact .blank h (ih hd)
  | none h1 h2 _ ih => exact .none h1 h2 (ih hd)
  | some => cases hd

theorem lines_length (s : Str) : (LexSpec.lines s).length = s.count '\n' + 1 := by
  induction s with
  | nil => rfl
  | cons c s ih =>
    rw [LexSpec.lines]
    by_cases h : c = '\n'
    · subst h; rw [if_pos rfl]; simp [ih]
    · rw [if_neg h, List.count_cons_of_ne h]
      cases hl : LexSpec.lines s with
      | nil => rw [hl] at ih; simp at ih
      | cons l ls => rw [hl] at ih; simpa using ih

/-- What is recognised after the line in which `b` begins. -/
def AfterAt (cfg : Cfg) (b : Str) (ds : List (Nat × Directive)) : Prop :=
  (eol b = [] ∧ ds = []) ∨ ∃ rest, eol b = '\n' :: rest ∧ Rem (checks cfg) (comments cfg) true (LexSpec.lines rest) ds

theorem Rem.head {cs ms : List Str} {fresh a b ls d ds n} (hn : n = ls.length) (h1 : fresh = true → ¬ (a ++ b).all asciiWs) (h2 : Place fresh a)
    (h3 : Begins cs ms b d) (h4 : ∀ a' b', a ++ b = a' ++ b' → a'.length < a.length → Place fresh a' → ∀ d', ¬ Begins cs ms b' d')
    (h5 : Rem cs ms true ls ds) : Rem cs ms fresh ((a ++ b) :: ls) ((n, d) :: ds) := by
  subst hn
  exact .some h1 h2 h3 h4 h5

theorem later_found_at {cfg : Cfg} (hc : Clean cfg) (n : Nat) (text a b : Str) (hlen : text.length ≤ n) (ho : OneLine text) {hit : Hit}
    (h : Found cfg true text a b hit) {ds : List (Nat × Directive)} (hds : AfterAt cfg b ds) :
    Rem (checks cfg) (comments cfg) false (LexSpec.lines text) (((eol b).count '\n', dirOf hit) :: ds) := by
  induction n generalizing text a with
  | zero =>
    have : text = [] := by cases text <;> simp_all
    subst this
    have he := h.eq
    obtain ⟨rfl, rfl⟩ := List.append_eq_nil_iff.1 he.symm
    have := h.hit
    rw [first_nil cfg hc] at this
    cases this
  | succ n ih =>
    have hle := line_eol text
    have hn := line_no_nl text
    have ht : Tail (eol text) := eol_cases text
    obtain ⟨bl, hbl, hb, hpl, hbg, hleast⟩ | ⟨rest, a2, htail, hF, hno⟩ :=
      found_line hc (hle ▸ ho) (places_later cfg (line text)) (by simpa using hn) ht (hle ▸ h)
    · have hbn : '\n' ∉ bl := fun hm => hn (by rw [hbl]; simp [hm])
      have heb : eol b = eol text := by rw [hb, eol_append hbn]; rcases ht with h0 | ⟨r, h0⟩ <;> rw [h0] <;> rfl
      obtain he | ⟨rest, he⟩ := ht
      · rw [hle, he, List.append_nil, lines_self hn, hbl]
        obtain ⟨-, rfl⟩ | ⟨r, h1, -⟩ := hds
        · exact Rem.head (by rw [heb, he]; rfl) (fun h => by cases h) hpl hbg hleast .nil
        · rw [heb, he] at h1; cases h1
      · rw [hle, he, lines_mid hn, hbl]
        obtain ⟨h1, -⟩ | ⟨r, h1, h2⟩ := hds
        · rw [heb, he] at h1; cases h1
        · rw [heb, he] at h1
          simp at h1
          subst h1
          exact Rem.head (by rw [heb, he, lines_length]; simp) (fun h => by cases h) hpl hbg hleast h2
    · rw [hle, htail, lines_mid hn]
      rw [htail] at hle
      refine .none (fun h => by cases h) hno (ih rest a2 ?_ ?_ hF)
      · have := congrArg List.length hle
        simp at this
        omega
      · rw [hle] at ho
        exact OneLine.suffix (a := line text ++ ['\n']) (by simpa using ho)

theorem fresh_found_at {cfg : Cfg} (hc : Clean cfg) (n : Nat) (t a b : Str) (hlen : t.length ≤ n) (ho : OneLine t) {hit : Hit}
    (h : Found cfg (flagOf t) (t.dropWhile isAsciiWs) a b hit) {ds : List (Nat × Directive)} (hds : AfterAt cfg b ds) :
    Rem (checks cfg) (comments cfg) true (LexSpec.lines t) (((eol b).count '\n', dirOf hit) :: ds) := by
  have hnil : ∀ f, ¬ Found cfg f [] a b hit := by
    intro f h
    have he := h.eq
    obtain ⟨rfl, rfl⟩ := List.append_eq_nil_iff.1 he.symm
    have := h.hit
    rw [first_nil cfg hc] at this
    cases this
  induction n generalizing t with
  | zero =>
    have : t = [] := by cases t <;> simp_all
    subst this
    exact absurd h (hnil _)
  | succ n ih =>
    have hle := line_eol t
    have hn := line_no_nl t
    by_cases hb : (line t).all asciiWs
    · obtain he | ⟨rest, he⟩ := eol_cases t <;> rw [he] at hle
      · have h0 : t.dropWhile isAsciiWs = [] := by
          rw [hle, (takeWhile_all (p := isAsciiWs) hb []).2]
          rfl
        rw [h0] at h
        exact absurd h (hnil _)
      · rw [hle, lines_mid hn]
        rw [hle, flag_blank hb, drop_blank hb] at h
        refine .blank hb (ih rest ?_ ?_ h)
        · have := congrArg List.length hle
          simp at this
          omega
        · rw [hle] at ho
          exact OneLine.suffix (a := line t ++ ['\n']) (by simpa using ho)
    · rw [hle, flag_line hb hn, (takeWhile_not_all (p := isAsciiWs) hb _).2] at h
      have hp := places_line hc hb
      have hw : line t = (line t).takeWhile isAsciiWs ++ (line t).dropWhile isAsciiWs := (List.takeWhile_append_dropWhile).symm
      have ht : Tail (eol t) := eol_cases t
      have ho2 : OneLine ((line t).dropWhile isAsciiWs ++ eol t) := by
        apply OneLine.suffix (a := (line t).takeWhile isAsciiWs)
        rw [← List.append_assoc, ← hw, ← hle]
        exact ho
      obtain ⟨bl, hbl, hb2, hpl, hbg, hleast⟩ | ⟨rest, a2, htail, hF, hno⟩ := found_line hc ho2 hp (hw ▸ hn) ht h
      · rw [hbl, ← List.append_assoc] at hw
        have hbn : '\n' ∉ bl := fun hm => hn (by rw [hw]; simp [hm])
        have heb : eol b = eol t := by rw [hb2, eol_append hbn]; rcases ht with h0 | ⟨r, h0⟩ <;> rw [h0] <;> rfl
        obtain he | ⟨rest, he⟩ := ht
        · rw [hle, he, List.append_nil, lines_self hn]
          obtain ⟨-, rfl⟩ | ⟨r, h1, -⟩ := hds
          · rw [hw] at hb ⊢
            exact Rem.head (by rw [heb, he]; rfl) (fun _ => hb) hpl hbg hleast .nil
          · rw [heb, he] at h1; cases h1
        · rw [hle, he, lines_mid hn]
          obtain ⟨h1, -⟩ | ⟨r, h1, h2⟩ := hds
          · rw [heb, he] at h1; cases h1
          · rw [heb, he] at h1
            simp at h1
            subst h1
            rw [hw] at hb ⊢
            exact Rem.head (by rw [heb, he, lines_length]; simp) (fun _ => hb) hpl hbg hleast h2
      · rw [hle, htail, lines_mid hn]
        rw [htail] at hle
        rw [← hw] at hno
        refine .none (fun _ => hb) hno (later_found_at hc _ rest a2 b (Nat.le_refl _) ?_ hF hds)
        rw [hle] at ho
        exact OneLine.suffix (a := line t ++ ['\n']) (by simpa using ho)

/-- After the white space at the front of a text before which a line ended, the lexer goes on as the specification says. -/
theorem step_spec_at {cfg : Cfg} (hc : Clean cfg) (t : Str) (ho : OneLine t) :
    match search cfg (flagOf t) (t.dropWhile isAsciiWs) with
    | none => Rem (checks cfg) (comments cfg) true (LexSpec.lines t) []
    | some h => ∀ ds, AfterAt cfg (eol h.rest) ds → Rem (checks cfg) (comments cfg) true (LexSpec.lines t) (((eol h.rest).count '\n', dirOf h) :: ds) := by
  have hs := search_spec cfg hc (flagOf t) _ (oneLine_drop ho)
  cases he : search cfg (flagOf t) (t.dropWhile isAsciiWs) with
  | none =>
    rw [he] at hs
    exact Rem.ofNil (fresh_notFound hc _ t (Nat.le_refl _) hs)
  | some h =>
    rw [he] at hs
    obtain ⟨a, b, hF⟩ := hs
    intro ds hds
    have h1 := found_rest hc (oneLine_drop ho) hF
    rw [h1]
    refine fresh_found_at hc _ t a b (Nat.le_refl _) ho hF ?_
    unfold AfterAt at hds ⊢
    rw [h1] at hds
    have : ∀ r, eol (eol r) = eol r := by
      intro r
      induction r with
      | nil => rfl
      | cons c r ih =>
        by_cases h : c = '\n'
        · subst h; rfl
        · rw [eol_cons h, ih]
    rwa [this] at hds

/-- The numbers of the checks. -/
def numbers (ds : List (Nat × Directive)) : List Nat := (ds.filter fun d => d.2.head != .comment).map (·.1)

theorem numbers_cons (h : Hit) (n : Nat) (ds : List (Nat × Directive)) (hn : n = (eol h.rest).count '\n') :
    numbers ((n, dirOf h) :: ds) = ((if h.ty = .comment then [] else [h.rest]) : List Str).map (fun r => (eol r).count '\n') ++ numbers ds := by
  subst hn
  unfold numbers
  by_cases hc : h.ty = .comment
  · have := (hit_comment h).2 hc
    simp [this, hc]
  · have := mt (hit_comment h).1 hc
    simp [this, hc]

theorem tokens_after_at {cfg : Cfg} (hc : Clean cfg) (n : Nat) (rest : Str) (hn : ('\n' :: rest).length ≤ n) (ho : OneLine rest) :
    ∃ ds final, Rem (checks cfg) (comments cfg) true (LexSpec.lines rest) ds ∧
      tokens cfg n false ('\n' :: rest) = (.ok .lf :: render cfg final (ds.map (·.2)), used (ds.map (·.2))) ∧
      (rests cfg n false ('\n' :: rest)).map (fun r => (eol r).count '\n') = numbers ds := by
  induction n generalizing rest with
  | zero => simp at hn
  | succ n ih =>
    have hstep := step_spec_at hc rest ho
    have hd : ('\n' :: rest).dropWhile isAsciiWs = rest.dropWhile isAsciiWs := drop_blank (l := []) rfl rest
    have hw : ('\n' :: rest).takeWhile isAsciiWs ≠ [] := by
      rw [List.takeWhile_cons, if_pos (by decide)]
      simp
    have hfl : (if ('\n' :: rest).takeWhile isAsciiWs = [] then false else (('\n' :: rest).takeWhile isAsciiWs).getLast? == some '\n') = flagOf rest := by
      rw [if_neg hw, ← flag_blank (l := []) rfl rest, List.nil_append]
      unfold flagOf
      rw [if_neg hw]
    rw [tokens.eq_def, rests.eq_def]
    dsimp only
    rw [if_neg (show ¬ '\n' = '\x00' by decide), if_neg (show ¬ '\n' = '\x00' by decide), hfl, hd, if_pos rfl]
    cases hs : search cfg (flagOf rest) (rest.dropWhile isAsciiWs) with
    | none =>
      rw [hs] at hstep
      exact ⟨[], false, hstep, rfl, rfl⟩
    | some h =>
      rw [hs] at hstep
      dsimp only at hstep ⊢
      have hlt := search_length cfg hc (oneLine_drop ho) hs
      have hle : (rest.dropWhile isAsciiWs).length ≤ rest.length := (List.dropWhile_suffix _).length_le
      obtain he | ⟨r2, he⟩ := eol_cases h.rest
      · refine ⟨[((eol h.rest).count '\n', dirOf h)], false, hstep [] (.inl ⟨by rw [he]; rfl, rfl⟩), ?_, ?_⟩
        · rw [show h.rest.dropWhile (· != '\n') = [] from he]
          cases n with
          | zero => simp at hn; subst hn; simp at hlt
          | succ n => simp [tokens, render, directive_eq, used_cons, show used [] = [] from rfl]
        · rw [show h.rest.dropWhile (· != '\n') = [] from he, List.map_append, numbers_cons _ _ _ rfl]
          cases n <;> simp [rests, numbers]
      · rw [show h.rest.dropWhile (· != '\n') = '\n' :: r2 from he]
        have hlen : ('\n' :: r2).length ≤ n := by
          have := congrArg List.length he
          simp at this hn ⊢
          omega
        have ho2 : OneLine r2 := by
          have hsp := search_spec cfg hc (flagOf rest) _ (oneLine_drop ho)
          rw [hs] at hsp
          obtain ⟨a, b, hF⟩ := hsp
          have h1 := found_rest hc (oneLine_drop ho) hF
          have h2 := oneLine_drop ho
          rw [hF.eq] at h2
          have h3 := h2.suffix
          rw [line_eol b, ← h1, he] at h3
          exact OneLine.suffix (a := ['\n']) h3.suffix
        obtain ⟨ds, final, h1, h2, h3⟩ := ih r2 hlen ho2
        rw [h2]
        cases ds with
        | nil =>
          refine ⟨[((eol h.rest).count '\n', dirOf h)], true, hstep [] (.inr ⟨r2, by rw [he]; rfl, h1⟩), ?_, ?_⟩
          · simp [render, directive_eq, used_cons]
          · rw [List.map_append, h3, numbers_cons _ _ _ rfl]
        | cons d ds =>
          refine ⟨((eol h.rest).count '\n', dirOf h) :: d :: ds, final, hstep _ (.inr ⟨r2, by rw [he]; rfl, h1⟩), ?_, ?_⟩
          · simp [render, directive_eq, used_cons]
          · rw [List.map_append, h3, numbers_cons _ _ _ rfl]

theorem lex_spec_at {cfg : Cfg} (hc : Clean cfg) (text : Str) (ho : OneLine text) (h0 : text.head? ≠ some '\x00') :
    ∃ ds final pre, Rem (checks cfg) (comments cfg) true (LexSpec.lines text) ds ∧ (pre = [] ∨ pre = [.ok .lf]) ∧
      lex cfg text = (pre ++ render cfg final (ds.map (·.2)), used (ds.map (·.2))) ∧
      (rests cfg (text.length + 1) true text).map (fun r => (eol r).count '\n') = numbers ds := by
  unfold lex
  cases text with
  | nil => exact ⟨[], false, [], .blank rfl .nil, .inl rfl, rfl, rfl⟩
  | cons c r =>
    have hstep := step_spec_at hc (c :: r) ho
    have hfl : (if (c :: r).takeWhile isAsciiWs = [] then true else ((c :: r).takeWhile isAsciiWs).getLast? == some '\n') = flagOf (c :: r) := rfl
    rw [tokens.eq_def, rests.eq_def]
    dsimp only
    have h0' : ¬ c = '\x00' := by simpa using h0
    rw [if_neg h0', if_neg h0', hfl]
    have hpre : ∀ x : List Lexed, x = (if c = '\n' then [Lexed.ok .lf] else []) → (x = [] ∨ x = [.ok .lf]) := by
      rintro x rfl
      split <;> simp
    cases hs : search cfg (flagOf (c :: r)) ((c :: r).dropWhile isAsciiWs) with
    | none =>
      rw [hs] at hstep
      exact ⟨[], false, _, hstep, hpre _ rfl, by simp [render, used], rfl⟩
    | some h =>
      rw [hs] at hstep
      dsimp only at hstep ⊢
      have hlt := search_length cfg hc (oneLine_drop ho) hs
      have hle : ((c :: r).dropWhile isAsciiWs).length ≤ (c :: r).length := (List.dropWhile_suffix _).length_le
      obtain he | ⟨r2, he⟩ := eol_cases h.rest
      · refine ⟨[((eol h.rest).count '\n', dirOf h)], false, _, hstep [] (.inl ⟨by rw [he]; rfl, rfl⟩), hpre _ rfl, ?_, ?_⟩
        · rw [show h.rest.dropWhile (· != '\n') = [] from he]
          simp [tokens, render, directive_eq, used_cons, show used [] = [] from rfl]
        · rw [show h.rest.dropWhile (· != '\n') = [] from he, List.map_append, numbers_cons _ _ _ rfl]
          simp [rests, numbers]
      · rw [show h.rest.dropWhile (· != '\n') = '\n' :: r2 from he]
        have hlen : ('\n' :: r2).length ≤ (c :: r).length := by
          have := congrArg List.length he
          simp at this hle ⊢
          omega
        have ho2 : OneLine r2 := by
          have hsp := search_spec cfg hc (flagOf (c :: r)) _ (oneLine_drop ho)
          rw [hs] at hsp
          obtain ⟨a, b, hF⟩ := hsp
          have h1 := found_rest hc (oneLine_drop ho) hF
          have h2 := oneLine_drop ho
          rw [hF.eq] at h2
          have h3 := h2.suffix
          rw [line_eol b, ← h1, he] at h3
          exact OneLine.suffix (a := ['\n']) h3.suffix
        obtain ⟨ds, final, h1, h2, h3⟩ := tokens_after_at hc _ r2 hlen ho2
        rw [h2]
        cases ds with
        | nil =>
          refine ⟨[((eol h.rest).count '\n', dirOf h)], true, _, hstep [] (.inr ⟨r2, by rw [he]; rfl, h1⟩), hpre _ rfl, ?_, ?_⟩
          · simp [render, directive_eq, used_cons]
          · rw [List.map_append, h3, numbers_cons _ _ _ rfl]
        | cons d ds =>
          refine ⟨((eol h.rest).count '\n', dirOf h) :: d :: ds, final, _, hstep _ (.inr ⟨r2, by rw [he]; rfl, h1⟩), hpre _ rfl, ?_, ?_⟩
          · simp [render, directive_eq, used_cons]
          · rw [List.map_append, h3, numbers_cons _ _ _ rfl]

/-! ## Where the patterns begin -/

theorem stripPre_suffix {p s r : Str} (h : stripPre p s = some r) : r <:+ s := by
  induction p generalizing s with
  | nil => simp [stripPre] at h; subst h; exact List.suffix_refl _
  | cons x p ih =>
    cases s with
    | nil => simp [stripPre] at h
    | cons c s =>
      simp only [stripPre] at h
      split at h
      · exact (ih h).trans (List.suffix_cons _ _)
      · cases h

theorem modTail_suffix {n : Nat} {again : Bool} {r rest : Str} {k : Nat} (h : modTail n again r = some (k, rest)) : rest <:+ r := by
  induction n generalizing again r rest k with
  | zero => simp [modTail] at h
  | succ n ih =>
    rw [modTail.eq_def] at h
    dsimp only at h
    split at h
    · simp at h; obtain ⟨-, rfl⟩ := h; exact List.suffix_cons _ _
    · have hd : r.dropWhile BParse.isWs <:+ r := List.dropWhile_suffix _
      split at h
      · rename_i r2 hr2
        rw [hr2] at hd
        split at h
        · rename_i r3 h3
          cases hm : modTail n true r3 with
          | none => rw [hm] at h; simp at h
          | some x =>
            rw [hm] at h
            obtain ⟨k', rest'⟩ := x
            simp at h
            obtain ⟨-, rfl⟩ := h
            exact ((ih hm).trans (stripPre_suffix h3)).trans (((List.dropWhile_suffix _).trans (List.suffix_cons _ _)).trans hd)
        · cases h
      · rename_i r2 hr2
        rw [hr2] at hd
        split at h
        · simp at h; obtain ⟨-, rfl⟩ := h; exact (List.suffix_cons _ _).trans hd
        · cases h
      · cases h

theorem modifiers_suffix (r : Str) : (modifiers r).2 <:+ r := by
  rw [modifiers.eq_def]
  split
  · rename_i r1
    split
    · rename_i r2 h2
      split
      · rename_i n rest hm
        exact ((modTail_suffix hm).trans (stripPre_suffix h2)).trans ((List.dropWhile_suffix _).trans (List.suffix_cons _ _))
      · exact List.suffix_refl _
    · exact List.suffix_refl _
  · exact List.suffix_refl _

theorem afterPrefix_suffix {ty : PatTy} {p r : Str} {h : Hit} (hh : afterPrefix ty p r = some h) : h.rest <:+ r := by
  unfold afterPrefix at hh
  split at hh
  · split at hh
    · simp at hh; subst hh; exact (List.dropWhile_suffix _).trans (List.suffix_cons _ _)
    · cases hh
  · split at hh
    · rename_i r1 h1
      dsimp only at hh
      split at hh
      · rename_i rest hm
        simp at hh; subst hh
        have := modifiers_suffix r1
        rw [hm] at this
        exact ((List.suffix_cons _ _).trans this).trans (stripPre_suffix h1)
      · cases hh
    · cases hh
  · split at hh
    · rename_i r1 h1
      dsimp only at hh
      split at hh
      · cases hh
      · split at hh
        · rename_i rest hm
          simp at hh; subst hh
          have := modifiers_suffix (r1.dropWhile Char.isDigit)
          rw [hm] at this
          exact (((List.suffix_cons _ _).trans this).trans (List.dropWhile_suffix _)).trans (stripPre_suffix h1)
        · cases hh
    · cases hh

theorem body_suffix {ty : PatTy} {ps : List Str} {r : Str} {h : Hit} (hh : body ty ps r = some h) : h.rest <:+ r := by
  obtain ⟨p, -, h1⟩ := List.exists_of_findSome?_eq_some hh
  obtain ⟨r1, h2, h3⟩ := Option.bind_eq_some_iff.1 h1
  exact (afterPrefix_suffix h3).trans (stripPre_suffix h2)

theorem matchAt_suffix {cfg : Cfg} {bol : Bool} {r : Str} {h : Hit} (hh : matchAt cfg bol r = some h) : h.rest <:+ r := by
  obtain ⟨x, -, h1⟩ := List.exists_of_findSome?_eq_some hh
  rw [Option.or_eq_some_iff] at h1
  obtain h1 | ⟨-, h1⟩ := h1
  · split at h1
    · exact body_suffix h1
    · cases h1
  · split at h1
    · split at h1
      · exact (body_suffix h1).trans (List.suffix_cons _ _)
      · cases h1
    · cases h1

theorem search_suffix {cfg : Cfg} {bol : Bool} {r : Str} {h : Hit} (hh : search cfg bol r = some h) : h.rest <:+ r := by
  induction r generalizing bol with
  | nil => rw [search] at hh; exact matchAt_suffix hh
  | cons c r ih =>
    rw [search] at hh
    split at hh
    · rename_i h' hm
      simp at hh; subst hh
      exact matchAt_suffix hm
    · exact (ih hh).trans (List.suffix_cons _ _)

theorem rests_suffix {cfg : Cfg} {n : Nat} {bol : Bool} {text : Str} : ∀ r ∈ rests cfg n bol text, r <:+ text := by
  induction n generalizing bol text with
  | zero => simp [rests]
  | succ n ih =>
    cases text with
    | nil => simp [rests]
    | cons c t =>
      intro r hr
      rw [rests.eq_def] at hr
      dsimp only at hr
      split at hr
      · simp at hr
      · split at hr
        · simp at hr
        · rename_i h hs
          have h1 := (search_suffix hs).trans (List.dropWhile_suffix _)
          obtain hr | hr := List.mem_append.1 hr
          · split at hr
            · simp at hr
            · simp at hr; subst hr; exact h1
          · exact ((ih r hr).trans (List.dropWhile_suffix _)).trans h1

theorem pseudoLine_append (a b : Str) : pseudoLine (a ++ b) ((a ++ b).length - b.length) = a.count '\n' + 1 := by
  unfold pseudoLine
  simp

theorem eol_count (r : Str) : (eol r).count '\n' = r.count '\n' := by
  have := line_eol r
  have h2 := congrArg (List.count '\n') this
  rw [List.count_append, List.count_eq_zero_of_not_mem (line_no_nl r)] at h2
  omega

theorem checkLines_eq (cfg : Cfg) (text : Str) :
    checkLines cfg text = ((rests cfg (text.length + 1) true text).map (fun r => (eol r).count '\n')).map fun n => text.count '\n' + 1 - n := by
  unfold checkLines
  rw [List.map_map]
  apply List.map_congr_left
  intro r hr
  obtain ⟨a, rfl⟩ := rests_suffix r hr
  rw [pseudoLine_append, Function.comp, eol_count, List.count_append]
  omega

/-- Reading a check file, with the numbers of the lines. -/
theorem parse_spec_at {cfg : Cfg} (hc : Clean cfg) (allow : Bool) (text : Str) (ho : OneLine text) (h0 : text.head? ≠ some '\x00') :
    ∃ ds, RecognisedAt (checks cfg) (comments cfg) 1 true (LexSpec.lines text) ds ∧
      Recognised (checks cfg) (comments cfg) true (LexSpec.lines text) (ds.map (·.2)) ∧ checkLines cfg text = numbers ds ∧
      parse cfg allow text = (do
        let ls ← readAll cfg (ds.map (·.2))
        if unusedPrefixes (used (ds.map (·.2))) [] cfg.checkPrefixes ≠ [] ∧ allow = false then
          .error (.unusedCheckPrefixes (unusedPrefixes (used (ds.map (·.2))) [] cfg.checkPrefixes))
        else .ok ls) := by
  obtain ⟨ds, final, pre, h1, h2, h3, h4⟩ := lex_spec_at hc text ho h0
  have he : (ds.map fun x => (1 + (LexSpec.lines text).length - (x.1 + 1), x.2)).map (·.2) = ds.map (·.2) := by
    rw [List.map_map]
    rfl
  refine ⟨_, h1.at 1, by rw [he]; exact h1.erase, ?_, ?_⟩
  · rw [checkLines_eq, h4, lines_length]
    unfold numbers
    rw [List.filter_map, List.map_map, List.map_map]
    apply List.map_congr_left
    intro x _
    show _ = 1 + (text.count '\n' + 1) - (x.1 + 1)
    simp only [Function.comp]
    omega
  · rw [he]
    unfold parse
    rw [h3]
    dsimp only
    have : parseLoop (pre ++ render cfg final (ds.map (·.2))).length [] (pre ++ render cfg final (ds.map (·.2))) = readAll cfg (ds.map (·.2)) := by
      obtain rfl | rfl := h2
      · rw [List.nil_append, parseLoop_render _ _ _ _ _ (Nat.le_refl _)]
        cases readAll cfg (ds.map (·.2)) <;> simp [Except.map]
      · rw [List.singleton_append, List.length_cons, parseLoop_mono_lf, parseLoop_render _ _ _ _ _ (Nat.le_refl _)]
        cases readAll cfg (ds.map (·.2)) <;> simp [Except.map]
    rw [this]

end Litcheck.Lex
