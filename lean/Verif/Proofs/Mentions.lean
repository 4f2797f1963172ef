import Verif.Spec.Command
import Verif.Proofs.Prefixes
import Verif.Proofs.LineNumbers

/-!
# A prefix which was met is in the text
-/

namespace Litcheck.Lex
open BParse (isWs)

/-- As `CommandSpec.Mentions`, of a text before which a line begins if `bol`. -/
def MentionsFrom (bol : Bool) (text p : Str) : Prop :=
  ∃ a c b, text = a ++ (p ++ c :: b) ∧ (c = ':' ∨ c = '{' ∨ c = '-') ∧ ((a = [] ∧ bol = true) ∨ ∃ a' x, a = a' ++ [x] ∧ isWs x = true)

theorem MentionsFrom.append {bol bol' : Bool} {s t p : Str} (h : MentionsFrom bol t p) (hb : bol = true → (s = [] ∧ bol' = true) ∨ ∃ s' x, s = s' ++ [x] ∧ isWs x = true) :
    MentionsFrom bol' (s ++ t) p := by
  obtain ⟨a, c, b, rfl, hc, h⟩ := h
  refine ⟨s ++ a, c, b, by simp, hc, ?_⟩
  rcases h with ⟨rfl, h⟩ | ⟨a', x, rfl, hx⟩
  · rcases hb h with ⟨rfl, h⟩ | ⟨s', x, rfl, hx⟩
    · exact .inl ⟨rfl, h⟩
    · exact .inr ⟨s', x, by simp, hx⟩
  · exact .inr ⟨s ++ a', x, by simp, hx⟩

theorem stop_of {c : Char} (h : stops c = true) : c = ':' ∨ c = '{' ∨ c = '-' := by
  simp only [stops, Bool.or_eq_true, beq_iff_eq] at h
  tauto

theorem afterPrefix_front {ty : PatTy} {p r : Str} {h : Hit} (ha : afterPrefix ty p r = some h) :
    h.pfx = p ∧ ∃ c b, r = c :: b ∧ (c = ':' ∨ c = '{' ∨ c = '-') := by
  cases ty with
  | comment =>
    unfold afterPrefix at ha
    dsimp only at ha
    split at ha
    · simp only [Option.some.injEq] at ha
      subst ha
      exact ⟨rfl, _, _, rfl, .inl rfl⟩
    · simp at ha
  | kind k =>
    unfold afterPrefix at ha
    dsimp only at ha
    split at ha
    · rename_i r2 h3
      rw [stripPre_iff] at h3
      subst h3
      split at ha
      · rename_i h4
        simp only [Option.some.injEq] at ha
        subst ha
        refine ⟨rfl, ?_⟩
        obtain ⟨c, r', rfl, hc⟩ := modifiers_front h4
        cases k with
        | plain => exact ⟨c, r', rfl, stop_of hc⟩
        | _ => exact ⟨'-', _, rfl, .inr (.inr rfl)⟩
      · simp at ha
    · simp at ha
  | count =>
    unfold afterPrefix at ha
    dsimp only at ha
    split at ha
    · rename_i r2 h3
      rw [stripPre_iff] at h3
      subst h3
      split_ifs at ha
      split at ha
      · simp only [Option.some.injEq] at ha
        subst ha
        exact ⟨rfl, '-', _, rfl, .inr (.inr rfl)⟩
      · simp at ha
    · simp at ha

theorem body_mentions {ty : PatTy} {ps : List Str} {r : Str} {h : Hit} (hb : body ty ps r = some h) : ∃ c b, r = h.pfx ++ c :: b ∧ (c = ':' ∨ c = '{' ∨ c = '-') := by
  obtain ⟨p, -, h2⟩ := List.exists_of_findSome?_eq_some hb
  obtain ⟨r1, h3, h4⟩ := Option.bind_eq_some_iff.1 h2
  rw [stripPre_iff] at h3
  obtain ⟨e, c, b, rfl, hc⟩ := afterPrefix_front h4
  exact ⟨c, b, by rw [e, h3], hc⟩

theorem matchAt_mentions {cfg : Cfg} {bol : Bool} {r : Str} {h : Hit} (hm : matchAt cfg bol r = some h) : MentionsFrom bol r h.pfx := by
  obtain ⟨x, -, h2⟩ := List.exists_of_findSome?_eq_some hm
  rcases Option.or_eq_some_iff.1 h2 with h3 | ⟨-, h3⟩
  · split_ifs at h3 with hb
    obtain ⟨c, b, e, hc⟩ := body_mentions h3
    exact ⟨[], c, b, e, hc, .inl ⟨rfl, hb⟩⟩
  · split at h3
    · rename_i y r1
      split_ifs at h3 with hy
      obtain ⟨c, b, e, hc⟩ := body_mentions h3
      exact ⟨[y], c, b, by rw [e]; rfl, hc, .inr ⟨[], y, rfl, hy⟩⟩
    · cases h3

theorem search_mentions {cfg : Cfg} : ∀ {r : Str} {bol : Bool} {h : Hit}, search cfg bol r = some h → MentionsFrom bol r h.pfx
  | [], _, _, hs => matchAt_mentions hs
  | c :: r, bol, h, hs => by
    unfold search at hs
    split at hs
    · rename_i h' hm
      cases hs
      exact matchAt_mentions hm
    · refine (search_mentions hs).append (s := [c]) fun hb => .inr ⟨[], c, rfl, ?_⟩
      have : c = '\n' := by simpa using hb
      subst this
      decide

theorem isWs_of_ascii {c : Char} (h : isAsciiWs c = true) : isWs c = true := by
  simp only [isAsciiWs, Bool.or_eq_true, beq_iff_eq] at h
  rcases h with (((rfl | rfl) | rfl) | rfl) | rfl <;> decide

theorem tokens_mentions {cfg : Cfg} : ∀ (n : Nat) (bol : Bool) (r : Str) {p : Str}, p ∈ (tokens cfg n bol r).2 → MentionsFrom bol r p
  | 0, _, _, p, h => by simp [tokens] at h
  | _ + 1, _, [], p, h => by simp [tokens] at h
  | n + 1, bol, c :: r, p, h => by
    unfold tokens at h
    by_cases h0 : c = '\x00'
    · rw [if_pos h0] at h; simp at h
    rw [if_neg h0] at h
    dsimp only at h
    split at h
    · simp at h
    · rename_i x hx
      have hw : (c :: r) = (c :: r).takeWhile isAsciiWs ++ (c :: r).dropWhile isAsciiWs := List.takeWhile_append_dropWhile.symm
      generalize hwe : (c :: r).takeWhile isAsciiWs = ws at hx hw h
      have hmem : ∀ y ∈ ws, isAsciiWs y = true := by
        rw [← hwe]
        exact List.all_eq_true.1 List.all_takeWhile
      rw [hw]
      dsimp only at h
      rcases List.mem_append.1 h with h | h
      · split_ifs at h with hc
        · simp at h
        · rw [List.mem_singleton] at h
          subst h
          refine (search_mentions hx).append fun hb => ?_
          split_ifs at hb with hn
          · exact .inl ⟨hn, hb⟩
          · obtain ⟨ws', y, rfl⟩ := List.eq_nil_or_concat'  ws |>.resolve_left hn
            exact .inr ⟨ws', y, rfl, isWs_of_ascii (hmem y (by simp))⟩
      · have ih := tokens_mentions n false _ h
        obtain ⟨t, ht⟩ := (List.dropWhile_suffix (fun x : Char => x != '\n') (l := x.rest)).trans (search_suffix hx)
        rw [← ht, ← List.append_assoc]
        exact ih.append (by simp)

end Litcheck.Lex
