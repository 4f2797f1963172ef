import Verif.Proofs.WordsCompile

/-!
# What a regular expression matches is text

A regular expression matches whole characters, so that its match and what its groups capture can always be read as UTF-8,
whatever the input.
-/

namespace Litcheck.Regex
open RegexSpec

/-- The bytes are the UTF-8 encoding of a text. -/
def IsText (b : Buf) (i j : Nat) : Prop := ∃ s : Str, sliceOf b i j = utf8 s

theorem sliceOf_split (b : Buf) {i k j : Nat} (h1 : i ≤ k) (h2 : k ≤ j) : sliceOf b i j = sliceOf b i k ++ sliceOf b k j := by
  apply List.ext_getElem?
  intro n
  rw [List.getElem?_append, sliceOf_get]
  have hl : (sliceOf b i k).length = min k b.length - i := by simp [sliceOf]
  rw [hl, sliceOf_get, sliceOf_get]
  by_cases h3 : n < min k b.length - i
  · rw [if_pos h3, if_pos (by omega), if_pos (by omega)]
  · rw [if_neg h3]
    by_cases h4 : k < b.length
    · rw [show k + (n - (min k b.length - i)) = i + n by omega]
    · rw [List.getElem?_eq_none (show b.length ≤ i + n by omega), List.getElem?_eq_none (show b.length ≤ k + (n - (min k b.length - i)) by omega)]
      simp

theorem isText_refl (b : Buf) (i : Nat) : IsText b i i := by
  refine ⟨[], ?_⟩
  have : (sliceOf b i i).length = 0 := by simp [sliceOf]
  rw [List.length_eq_zero_iff.1 this]
  rfl

theorem IsText.trans {b : Buf} {i k j : Nat} (h1 : IsText b i k) (h2 : IsText b k j) (hik : i ≤ k) (hkj : k ≤ j) : IsText b i j := by
  obtain ⟨s, hs⟩ := h1
  obtain ⟨t, ht⟩ := h2
  exact ⟨s ++ t, by rw [sliceOf_split b hik hkj, hs, ht, utf8_append]⟩

theorem isText_decode {b : Buf} {i v n : Nat} (h : decode (b.drop i) = some (v, n)) : IsText b i (i + n) := by
  obtain ⟨h1, _, h3⟩ := decode_sound h
  refine ⟨[Char.ofNat v], ?_⟩
  have hv : (Char.ofNat v).toNat = v := by
    have : v.isValidChar := by unfold Scalar at h3; unfold Nat.isValidChar; omega
    simp [Char.ofNat, this, Char.toNat, Char.ofNatAux]
  rw [utf8_cons, hv, ← h1]
  simp only [sliceOf, utf8, List.flatMap_nil, List.append_nil]
  rw [List.drop_take, Nat.add_sub_cancel_left]

/-- All of a match is text, and so is what each group captures. -/
theorem lang_text {ic : Bool} {b : Buf} : ∀ (r : Re) (i j : Nat) (c : Caps), Lang ic b r i j c →
    IsText b i j ∧ ∀ x ∈ c, IsText b x.2.1 x.2.2
  | .eps, i, j, c, h => by obtain ⟨rfl, rfl⟩ := h; exact ⟨isText_refl _ _, by simp⟩
  | .cls neg ranges, i, j, c, h => by
    obtain ⟨v, n, h1, _, rfl, rfl⟩ := h
    exact ⟨isText_decode h1, by simp⟩
  | .bol, i, j, c, h => by obtain ⟨_, rfl, rfl⟩ := h; exact ⟨isText_refl _ _, by simp⟩
  | .eol, i, j, c, h => by obtain ⟨_, rfl, rfl⟩ := h; exact ⟨isText_refl _ _, by simp⟩
  | .cat r s, i, j, c, h => by
    obtain ⟨k, c1, c2, h1, h2, rfl⟩ := h
    have a1 := lang_text r _ _ _ h1
    have a2 := lang_text s _ _ _ h2
    refine ⟨a1.1.trans a2.1 (Lang.le r _ _ _ h1) (Lang.le s _ _ _ h2), ?_⟩
    intro x hx
    rcases List.mem_append.1 hx with hx | hx
    · exact a1.2 x hx
    · exact a2.2 x hx
  | .alt r s, i, j, c, h => by
    rcases h with h | h
    · exact lang_text r _ _ _ h
    · exact lang_text s _ _ _ h
  | .rep r min max g, i, j, c, h => by
    obtain ⟨n, _, _, h⟩ := h
    have key : ∀ (n i j : Nat) (c : Caps), Iter (Lang ic b r) n i j c → i ≤ j ∧ IsText b i j ∧ ∀ x ∈ c, IsText b x.2.1 x.2.2 := by
      intro n i j c h
      induction h with
      | zero => exact ⟨Nat.le_refl _, isText_refl _ _, by simp⟩
      | succ h1 _ ih =>
        have a1 := lang_text r _ _ _ h1
        have l1 := Lang.le r _ _ _ h1
        refine ⟨Nat.le_trans l1 ih.1, a1.1.trans ih.2.1 l1 ih.1, ?_⟩
        intro x hx
        rcases List.mem_append.1 hx with hx | hx
        · exact a1.2 x hx
        · exact ih.2.2 x hx
    exact (key n i j c h).2
  | .cap name r, i, j, c, h => by
    obtain ⟨d, h1, rfl⟩ := h
    have a1 := lang_text r _ _ _ h1
    refine ⟨a1.1, ?_⟩
    intro x hx
    rcases List.mem_append.1 hx with hx | hx
    · exact a1.2 x hx
    · rw [List.mem_singleton.1 hx]; exact a1.1

theorem IsText.read {b : Buf} {i j : Nat} (h : IsText b i j) : ∃ t, fromUtf8 b.length (sliceOf b i j) = some t := by
  obtain ⟨s, hs⟩ := h
  refine ⟨s, ?_⟩
  rw [hs]
  refine fromUtf8_utf8 s _ ?_
  have h1 := utf8_length s
  rw [← hs] at h1
  have : (sliceOf b i j).length ≤ b.length := by simp [sliceOf]
  omega

end Litcheck.Regex

namespace Litcheck.Smart
open Regex RegexSpec

/-- What the groups of a match capture can be read. -/
theorem captured_total {ic : Bool} {b : Buf} {re : Re} {h : Hit} (hl : Lang ic b re h.start h.stop h.caps) :
    ∀ caps : List Cap, ∃ cs, captured b h caps = some cs ∧ ∀ x ∈ cs, x.1 ∈ caps
  | [] => ⟨[], rfl, by simp⟩
  | c :: caps => by
    obtain ⟨cs, hcs, hm⟩ := captured_total hl caps
    unfold captured
    cases hg : h.group (symOf c.name) with
    | none => exact ⟨cs, hcs, fun x hx => List.mem_cons_of_mem _ (hm x hx)⟩
    | some x =>
      obtain ⟨s, e⟩ := x
      dsimp only
      unfold Hit.group at hg
      rw [Option.map_eq_some_iff] at hg
      obtain ⟨y, hy, hye⟩ := hg
      have hmem := List.mem_of_find?_eq_some hy
      rw [List.mem_reverse] at hmem
      have ht := (lang_text re _ _ _ hl).2 y hmem
      rw [hye] at ht
      obtain ⟨t, ht⟩ := ht.read
      dsimp only at ht
      rw [ht, hcs]
      refine ⟨_, rfl, ?_⟩
      intro x hx
      rcases List.mem_cons.1 hx with rfl | hx
      · exact List.mem_cons_self
      · exact List.mem_cons_of_mem _ (hm x hx)

/-- Strings can always be bound. -/
theorem bindAll_strings : ∀ {cs : List (Cap × Str)} (env : Vars), (∀ x ∈ cs, x.1.ty = .string) → ∃ env', bindAll env cs = some env'
  | [], env, _ => ⟨env, rfl⟩
  | (c, t) :: cs, env, h => by
    unfold bindAll
    rw [h (c, t) List.mem_cons_self]
    exact bindAll_strings _ fun x hx => h x (List.mem_cons_of_mem _ hx)

/-- A regular expression always answers, whatever it captures and whatever the input. -/
theorem regexPat_some {ic : Bool} {re : Re} {caps : List Cap} (n : Nat) (b : Buf) (r : Rng) (env : Vars) :
    ∃ m env', (regexPat (eng := engine) (ic, re) caps n).run b r env = (some m, env') := by
  simp only [regexPat]
  cases hf : engine.search (ic, re) b r.start r.stop false with
  | none => exact ⟨_, _, rfl⟩
  | some h =>
    have hf' : find ic re b r.start r.stop false = some h := hf
    obtain ⟨cs, hcs, _⟩ := captured_total (find_some hf').2.2.2.2.1 caps
    dsimp only
    rw [hcs]
    dsimp only
    cases bindAll env cs with
    | none => exact ⟨_, _, rfl⟩
    | some env' => exact ⟨_, _, rfl⟩

/-- A regular expression which captures only strings always answers: with a match, or that there is none. -/
theorem regexPat_answers {ic : Bool} {re : Re} {caps : List Cap} (hs : ∀ c ∈ caps, c.ty = .string) (n : Nat) (b : Buf) (r : Rng) (env : Vars) :
    ((regexPat (eng := engine) (ic, re) caps n).run b r env = (some matchNone, env)) ∨
    ∃ i env', (regexPat (eng := engine) (ic, re) caps n).run b r env = (some (.ok i), env') := by
  simp only [regexPat]
  cases hf : engine.search (ic, re) b r.start r.stop false with
  | none => exact .inl rfl
  | some h =>
    have hf' : find ic re b r.start r.stop false = some h := hf
    obtain ⟨cs, hcs, hm⟩ := captured_total (find_some hf').2.2.2.2.1 caps
    obtain ⟨env', he⟩ := bindAll_strings env (fun x hx => hs _ (hm x hx))
    right
    dsimp only
    rw [hcs]
    dsimp only
    rw [he]
    exact ⟨_, _, rfl⟩

end Litcheck.Smart
