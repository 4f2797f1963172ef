import Verif.Proofs.FileSound

/-!
# Patterns which never match the empty string, or more than a line; deciding whether a check file is good
-/

namespace Litcheck.Sets
open Litcheck.Smart Litcheck.Spec Litcheck.RegexSpec Litcheck.PatternSpec Litcheck.Pattern
open Litcheck.Regex hiding Items
open Litcheck.Lex (Part Match CPat CLine VarName Expr Op)

/-! ## Regular expressions -/

/-- May the regular expression match the empty string? -/
def canBeEmpty : Re → Bool
  | .eps | .bol | .eol => true
  | .cls _ _ => false
  | .cat r s => canBeEmpty r && canBeEmpty s
  | .alt r s => canBeEmpty r || canBeEmpty s
  | .rep r min _ _ => min == 0 || canBeEmpty r
  | .cap _ r => canBeEmpty r

theorem canBeEmpty_sound {ic : Bool} {b : Buf} : ∀ (r : Re) (i : Nat) (c : Caps), Lang ic b r i i c → canBeEmpty r = true
  | .eps, i, c, _ => rfl
  | .bol, i, c, _ => rfl
  | .eol, i, c, _ => rfl
  | .cls neg ranges, i, c, h => by
    simp only [Lang] at h
    obtain ⟨v, n, h1, _, h2, _⟩ := h
    have := (decode_pos h1).1
    omega
  | .cat r s, i, c, h => by
    simp only [Lang] at h
    obtain ⟨k, c1, c2, h1, h2, _⟩ := h
    have := Lang.le r _ _ _ h1
    have := Lang.le s _ _ _ h2
    obtain rfl : k = i := by omega
    simp [canBeEmpty, canBeEmpty_sound r _ _ h1, canBeEmpty_sound s _ _ h2]
  | .alt r s, i, c, h => by
    simp only [Lang] at h
    rcases h with h | h
    · simp [canBeEmpty, canBeEmpty_sound r _ _ h]
    · simp [canBeEmpty, canBeEmpty_sound s _ _ h]
  | .rep r min max g, i, c, h => by
    simp only [Lang] at h
    obtain ⟨n, h1, _, h2⟩ := h
    cases n with
    | zero => simp [canBeEmpty, show min = 0 by omega]
    | succ n =>
      cases h2 with
      | @succ _ _ k _ c1 d1 h3 h4 =>
        have := Lang.le r _ _ _ h3
        have := Iter.le (Lang.le r) h4
        obtain rfl : k = i := by omega
        simp [canBeEmpty, canBeEmpty_sound r _ _ h3]
  | .cap name r, i, c, h => by
    simp only [Lang] at h
    obtain ⟨d, h1, _⟩ := h
    simp [canBeEmpty, canBeEmpty_sound r _ _ h1]

/-- The text matched by the regular expression does not have the byte. -/
def avoids (c : UInt8) (ic : Bool) : Re → Bool
  | .eps | .bol | .eol => true
  | .cls neg ranges => !inClass ic neg ranges c.toNat
  | .cat r s | .alt r s => avoids c ic r && avoids c ic s
  | .rep r _ _ _ => avoids c ic r
  | .cap _ r => avoids c ic r

/-- The part of the buffer does not have the byte. -/
def NoByte (c : UInt8) (b : Buf) (i j : Nat) : Prop := ∀ x, i ≤ x → x < j → b[x]? ≠ some c

theorem decode_noByte {c : UInt8} (hc128 : c.toNat < 128) {b : Buf} {v n : Nat} (h : decode b = some (v, n)) (hv : v ≠ c.toNat) :
    ∀ k, k < n → b[k]? ≠ some c := by
  have key : ∀ x : UInt8, 128 ≤ x.toNat → x ≠ c := by
    rintro x hx rfl
    omega
  unfold decode at h
  split at h
  · simp at h
  rename_i x xs
  dsimp only at h
  by_cases hx : x.toNat < 128
  · rw [if_pos hx] at h
    simp only [Option.some.injEq, Prod.mk.injEq] at h
    intro k hk
    obtain rfl : k = 0 := by omega
    simp only [List.getElem?_cons_zero, ne_eq, Option.some.injEq]
    rintro rfl
    exact hv h.1.symm
  · have h0 : x ≠ c := key x (by omega)
    rw [if_neg hx] at h
    split at h
    · simp at h
    · have two : ∀ (y : UInt8) (ys : Buf), isCont y = true → (∀ k, k < n - 2 → ys[k]? ≠ some c) → ∀ k, k < n → (x :: y :: ys)[k]? ≠ some c := by
        intro y ys hy hys k hk
        match k with
        | 0 => simpa using h0
        | 1 =>
          have : y ≠ c := key y (by simp only [isCont, Bool.and_eq_true, decide_eq_true_eq] at hy; exact hy.1)
          simpa using this
        | k + 2 => simpa using hys k (by omega)
      have hc : ∀ y : UInt8, isCont y = true → y ≠ c := fun y hy => key y (by
        simp only [isCont, Bool.and_eq_true, decide_eq_true_eq] at hy; exact hy.1)
      split at h
      · split at h
        · split at h
          · rename_i hy
            simp only [Bool.and_eq_true] at hy
            simp only [Option.some.injEq, Prod.mk.injEq] at h
            exact two _ _ hy.1 (fun k hk => by omega)
          · simp at h
        · simp at h
      · split at h
        · split at h
          · split at h
            · rename_i hy
              simp only [Bool.and_eq_true] at hy
              simp only [Option.some.injEq, Prod.mk.injEq] at h
              refine two _ _ hy.1.1.1 (fun k hk => ?_)
              obtain rfl : k = 0 := by omega
              simpa using hc _ hy.1.1.2
            · simp at h
          · simp at h
        · split at h
          · split at h
            · rename_i hy
              simp only [Bool.and_eq_true] at hy
              simp only [Option.some.injEq, Prod.mk.injEq] at h
              refine two _ _ hy.1.1.1.1 (fun k hk => ?_)
              match k with
              | 0 => simpa using hc _ hy.1.1.1.2
              | 1 => simpa using hc _ hy.1.1.2
              | k + 2 => omega
            · simp at h
          · simp at h

theorem noByte_append {c : UInt8} {b : Buf} {i k j : Nat} (h1 : NoByte c b i k) (h2 : NoByte c b k j) : NoByte c b i j := by
  intro x hx1 hx2
  rcases Nat.lt_or_ge x k with h | h
  · exact h1 x hx1 h
  · exact h2 x h hx2

theorem avoids_sound {c : UInt8} (hc : c.toNat < 128) {ic : Bool} {b : Buf} : ∀ (r : Re) (i j : Nat) (cs : Caps), avoids c ic r = true → Lang ic b r i j cs →
    NoByte c b i j
  | .eps, i, j, cs, _, h => by simp only [Lang] at h; intro x h1 h2; omega
  | .bol, i, j, cs, _, h => by simp only [Lang] at h; intro x h1 h2; omega
  | .eol, i, j, cs, _, h => by simp only [Lang] at h; intro x h1 h2; omega
  | .cls neg ranges, i, j, cs, ha, h => by
    simp only [Lang] at h
    obtain ⟨v, n, h1, h2, rfl, _⟩ := h
    have hv : v ≠ c.toNat := by
      intro hvc
      rw [hvc] at h2
      simp [avoids, h2] at ha
    intro x h3 h4 h5
    refine decode_noByte hc h1 hv (x - i) (by omega) ?_
    rw [List.getElem?_drop, show i + (x - i) = x by omega]
    exact h5
  | .cat r s, i, j, cs, ha, h => by
    simp only [Lang] at h
    obtain ⟨k, c1, c2, h1, h2, _⟩ := h
    simp only [avoids, Bool.and_eq_true] at ha
    exact noByte_append (avoids_sound hc r _ _ _ ha.1 h1) (avoids_sound hc s _ _ _ ha.2 h2)
  | .alt r s, i, j, cs, ha, h => by
    simp only [Lang] at h
    simp only [avoids, Bool.and_eq_true] at ha
    rcases h with h | h
    · exact avoids_sound hc r _ _ _ ha.1 h
    · exact avoids_sound hc s _ _ _ ha.2 h
  | .rep r min max g, i, j, cs, ha, h => by
    simp only [Lang] at h
    obtain ⟨n, hn1, hn2, h2⟩ := h
    clear hn1 hn2
    simp only [avoids] at ha
    have ih := fun i j cs => avoids_sound hc (b := b) r i j cs ha
    clear ha
    induction h2 with
    | zero => intro x h1 h2; omega
    | succ h3 _ ih2 => exact noByte_append (ih _ _ _ h3) ih2
  | .cap name r, i, j, cs, ha, h => by
    simp only [Lang] at h
    obtain ⟨d, h1, _⟩ := h
    exact avoids_sound hc r _ _ _ ha h1

/-- The regular expression matches no line feed. -/
abbrev avoidsLF (ic : Bool) : Re → Bool := avoids 10 ic

theorem avoidsLF_sound {ic : Bool} {b : Buf} (r : Re) (i j : Nat) (c : Caps) (h : avoidsLF ic r = true) (hl : Lang ic b r i j c) : NoLF b i j :=
  avoids_sound (by decide) r i j c h hl

theorem noLF_append {b : Buf} {i k j : Nat} (h1 : NoLF b i k) (h2 : NoLF b k j) : NoLF b i j := noByte_append (c := 10) h1 h2

/-! ## Parts -/

/-- The source of a regular expression which does not match the empty string. -/
def solidSrc (s : Str) : Bool := match Regex.parse s with | some r => !canBeEmpty r | none => true

/-- The part does not match the empty string. -/
def solidPart : Part → Bool
  | .literal s => !s.isEmpty
  | .regex s | .match_ (.substitution _ (some s)) => solidSrc s
  | .match_ (.substitution _ none) => false
  | .match_ (.numeric _ none none) => true
  | .match_ (.numeric _ none (some _)) => false
  | .match_ (.numeric _ (some _) _) => true

/-- The pattern does not match the empty string. -/
def solidPat (p : CPat) : Bool := (partsOf p).any solidPart

theorem solidSrc_sound {s : Str} (h : solidSrc s = true) {ic : Bool} {b : Buf} {i : Nat} : ¬ AsRegex ic b s i i := by
  rintro ⟨r, h1, c, h2⟩
  unfold solidSrc at h
  rw [h1] at h
  simp [canBeEmpty_sound r i c h2] at h

theorem occurs_empty {ic : Bool} {s : Str} {b : Buf} {i : Nat} (h : Occurs ic (utf8 s) b i i) : s = [] := by
  have h1 := h.1
  have h2 := utf8_length s
  exact List.length_eq_zero_iff.1 (by omega)

theorem spaced_nil {strict : Bool} {s : Str} (h : Spaced strict s []) : s = [] := by
  rcases h with h | ⟨_, h⟩
  · exact h.symm
  · exact List.map_eq_nil_iff.1 h.symm

theorem solidPart_sound {cx : PatternSpec.Ctx} {b : Buf} {env env' : Vars} {i : Nat} {p : Part} (h : solidPart p = true) :
    ¬ PartMatches cx b env i i env' p := by
  intro hm
  cases p with
  | literal s =>
    obtain ⟨_, s', h1, h2⟩ := hm
    rw [occurs_empty h2] at h1
    simp [solidPart, spaced_nil h1] at h
  | regex s => exact solidSrc_sound h hm.2
  | match_ m =>
    cases m with
    | substitution x pt =>
      cases pt with
      | none => simp [solidPart] at h
      | some s => exact solidSrc_sound h hm.1
    | numeric f cap e =>
      cases cap with
      | none =>
        cases e with
        | none =>
          obtain ⟨_, t, h1, h2⟩ := hm
          exact format_nonempty h1 (occurs_empty h2)
        | some e => simp [solidPart] at h
      | some x =>
        obtain ⟨t, v, f', h1, h2, _⟩ := hm
        exact Nat.lt_irrefl _ (slice_lt h2 h1)

theorem solidParts_sound {cx : PatternSpec.Ctx} {b : Buf} : ∀ {ps : List Part} {env env' : Vars} {i : Nat}, ps.any solidPart = true →
    ¬ PartsMatch cx b env ps i i env'
  | [], _, _, _, h => by simp at h
  | p :: ps, env, env', i, h => by
    intro hm
    cases hm with
    | cons h1 h2 =>
      rename_i k env1
      have a1 := partMatches_le h1
      have a2 := partsMatch_le h2
      obtain rfl : k = i := by omega
      simp only [List.any_cons, Bool.or_eq_true] at h
      rcases h with h | h
      · exact solidPart_sound h h1
      · exact solidParts_sound h h2

theorem solidPat_sound {o : Opts} {p : CPat} (h : solidPat p = true) : NeverEmpty o p := by
  intro cx _ _ env b i env'
  exact solidParts_sound h

/-- The part matches no line feed. -/
def linePart (ic : Bool) : Part → Bool
  | .literal s => !s.contains '\n'
  | .regex s | .match_ (.substitution _ (some s)) => match Regex.parse s with | some r => avoidsLF ic r | none => true
  | _ => false

/-- The pattern matches non-empty parts of lines. -/
def linePat (ic : Bool) (p : CPat) : Bool := solidPat p && (partsOf p).all (linePart ic)

theorem encode_byte {c : Char} {x : UInt8} (hx : x.toNat < 128) (h : x ∈ encode c.toNat) : c.toNat = x.toNat := by
  have h2 := decode_encode (char_scalar c) []
  by_contra hv
  rw [List.append_nil] at h2
  obtain ⟨k, hk⟩ := List.mem_iff_getElem?.1 h
  have hk' : k < (encode c.toNat).length := (List.getElem?_eq_some_iff.1 hk).1
  exact decode_noByte hx h2 hv k hk' hk

theorem encode_LF {c : Char} (h : (10 : UInt8) ∈ encode c.toNat) : c = '\n' :=
  Char.ext (UInt32.toNat_inj.1 (encode_byte (by decide) h))

theorem occurs_noLF {ic : Bool} {s : Str} {b : Buf} {i j : Nat} (hs : '\n' ∉ s) (h : Occurs ic (utf8 s) b i j) : NoLF b i j := by
  obtain ⟨rfl, h2⟩ := h
  intro x h3 h4 h5
  have hx : x - i < (utf8 s).length := by omega
  obtain ⟨y, h6, h7⟩ := h2 (x - i) _ (List.getElem?_eq_getElem hx)
  rw [show i + (x - i) = x by omega] at h6
  have hy : y = 10 := by
    have : b[x]? = some 10 := h5
    rw [this] at h6
    exact (Option.some.inj h6).symm
  subst hy
  have h8 : (utf8 s)[x - i] = 10 := by
    rcases h7 with h7 | ⟨_, h7⟩
    · exact h7
    · exfalso
      have : (10 : UInt8).toNat = 10 := rfl
      omega
  have h9 : (10 : UInt8) ∈ utf8 s := by rw [← h8]; exact List.getElem_mem hx
  unfold utf8 at h9
  obtain ⟨c, h10, h11⟩ := List.mem_flatMap.1 h9
  exact hs (encode_LF h11 ▸ h10)

theorem linePart_sound {cx : PatternSpec.Ctx} {b : Buf} {env env' : Vars} {i j : Nat} {p : Part} (h : linePart cx.ic p = true)
    (hm : PartMatches cx b env i j env' p) : NoLF b i j := by
  have hrx : ∀ s : Str, (match Regex.parse s with | some r => avoidsLF cx.ic r | none => true) = true → AsRegex cx.ic b s i j → NoLF b i j := by
    rintro s hs ⟨r, h1, c, h2⟩
    rw [h1] at hs
    exact avoidsLF_sound r _ _ _ hs h2
  cases p with
  | literal s =>
    obtain ⟨_, s', h1, h2⟩ := hm
    have hs : '\n' ∉ s := by simpa [linePart] using h
    refine occurs_noLF ?_ h2
    rcases h1 with rfl | ⟨_, rfl⟩
    · exact hs
    · intro h3
      obtain ⟨c, h4, h5⟩ := List.mem_map.1 h3
      split at h5
      · exact absurd h5 (by decide)
      · subst h5; exact hs h4
  | regex s => exact hrx s h hm.2
  | match_ m =>
    cases m with
    | substitution x pt =>
      cases pt with
      | none => simp [linePart] at h
      | some s => exact hrx s h hm.1
    | numeric f cap e => simp [linePart] at h

theorem lineParts_sound {cx : PatternSpec.Ctx} {b : Buf} : ∀ {ps : List Part} {env env' : Vars} {i j : Nat}, ps.all (linePart cx.ic) = true →
    PartsMatch cx b env ps i j env' → NoLF b i j
  | [], _, _, _, _, _, hm => by
    cases hm
    intro x h1 h2; omega
  | p :: ps, env, env', i, j, h, hm => by
    simp only [List.all_cons, Bool.and_eq_true] at h
    cases hm with
    | cons h1 h2 => exact noLF_append (linePart_sound h.1 h1) (lineParts_sound h.2 h2)

theorem linePat_sound {o : Opts} {p : CPat} (h : linePat o.ignoreCase p = true) : OneLine o p := by
  intro cx e1 e2 env b i j env' hm
  simp only [linePat, Bool.and_eq_true] at h
  refine ⟨?_, lineParts_sound (cx := cx) (by rw [e1]; exact h.2) hm⟩
  have hle := partsMatch_le hm
  rcases Nat.lt_or_ge i j with h3 | h3
  · exact h3
  · obtain rfl : i = j := by omega
    exact absurd hm (solidPat_sound h.1 cx e1 e2 env b i env')

/-! ## Check files -/

/-- `Items s l` for some `l`. -/
def hasItems (s : Str) : Bool :=
  match steps init s with
  | some ⟨.normal, _, ⟨none, [], _⟩, []⟩ => true
  | _ => false

theorem hasItems_sound {s : Str} (h : hasItems s = true) : ∃ l, Regex.Items s l := by
  unfold hasItems at h
  split at h
  · rename_i lz l heq
    exact ⟨l, lz, heq⟩
  · simp at h

/-- `Reads s r` for some `r`. -/
def readable (s : Str) : Bool :=
  match steps init s with
  | some ⟨.normal, _, ⟨none, _, _⟩, []⟩ => true
  | _ => false

theorem readable_sound {s : Str} (h : readable s = true) : ∃ r, Reads s r := by
  unfold readable at h
  split at h
  · rename_i lz alts l heq
    exact ⟨_, lz, alts, l, heq, rfl⟩
  · simp at h

/-- `validName`. -/
def validNameB (n : Str) : Bool := !n.isEmpty && n.head?.all (nameChar true) && n.tail.all (nameChar false)

theorem validNameB_sound {n : Str} (h : validNameB n = true) : validName n := by
  simp only [validNameB, Bool.and_eq_true] at h
  refine ⟨by simpa using h.1.1, ?_, by simpa using h.2⟩
  intro c hc
  have := h.1.2
  cases n with
  | nil => simp at hc
  | cons d n => simp at hc this; subst hc; exact this

def okPrecisionB : NumFmt → Bool
  | .unsigned p | .signed p => decide (p ≤ 39)
  | .hex p _ _ => decide (p ≤ 32)

theorem okPrecisionB_sound {f : NumFmt} (h : okPrecisionB f = true) : okPrecision f := by
  cases f <;> simpa [okPrecisionB, okPrecision] using h

/-- `PartOk`. -/
def partOkB : Part → Bool
  | .literal _ => true
  | .regex s => hasItems s
  | .match_ (.substitution x (some s)) => validNameB (symOf x) && readable s
  | .match_ (.substitution _ none) => true
  | .match_ (.numeric f none none) => okPrecisionB (f.getD plainFormat)
  | .match_ (.numeric _ none (some _)) => true
  | .match_ (.numeric f (some x) _) => validNameB (symOf x) && okPrecisionB (f.getD plainFormat)

theorem partOkB_sound {p : Part} (h : partOkB p = true) : PartOk p := by
  cases p with
  | literal s => trivial
  | regex s => exact hasItems_sound h
  | match_ m =>
    cases m with
    | substitution x pt =>
      cases pt with
      | none => trivial
      | some s =>
        simp only [partOkB, Bool.and_eq_true] at h
        exact ⟨validNameB_sound h.1, readable_sound h.2⟩
    | numeric f cap e =>
      cases cap with
      | none =>
        cases e with
        | none => exact okPrecisionB_sound h
        | some e => trivial
      | some x =>
        simp only [partOkB, Bool.and_eq_true] at h
        exact ⟨validNameB_sound h.1, okPrecisionB_sound h.2⟩

def partsOkB : CPat → Bool
  | .match_ ps => ps.all partOkB
  | _ => true

theorem partsOkB_sound {p : CPat} (h : partsOkB p = true) : ∀ ps, p = .match_ ps → ∀ x ∈ ps, PartOk x := by
  rintro ps rfl x hx
  simp only [partsOkB, List.all_eq_true] at h
  exact partOkB_sound (h x hx)

/-- The text of a literal part. -/
def litText : Part → Option Str
  | .literal s => some s
  | _ => none

/-- `WellFormed`. -/
def wellFormedB (p : CPat) : Bool :=
  partsOkB p && (((partsOf p).any fun x => (litText x).isNone) || !(Script.trim ((partsOf p).filterMap litText).flatten).isEmpty)

theorem wellFormedB_sound {p : CPat} (h : wellFormedB p = true) : WellFormed p := by
  simp only [wellFormedB, Bool.and_eq_true] at h
  refine ⟨partsOkB_sound h.1, ?_⟩
  intro t ht hne
  have h2 := h.2
  rw [ht] at h2
  have e : (t.map Part.literal).filterMap litText = t := by
    rw [List.filterMap_map]
    exact List.filterMap_some
  rw [e] at h2
  have e2 : ((t.map Part.literal).any fun x => (litText x).isNone) = false := by
    simp [litText]
  rw [e2] at h2
  simpa using h2

/-- No uses of variables, no captures of numbers. -/
def staticPart : Part → Bool
  | .match_ (.substitution _ none) | .match_ (.numeric _ _ (some _)) | .match_ (.numeric _ (some _) _) => false
  | _ => true

def canonicalB (strict : Bool) : Part → Bool
  | .literal s => strict || s.all fun c => !isNonCanonicalHorizontalWhitespace c
  | _ => true

/-- `StaticPat`. -/
def staticPatB (strict : Bool) (p : CPat) : Bool :=
  partsOkB p && (partsOf p).all staticPart && (partsOf p).all (canonicalB strict)

theorem staticPatB_sound {strict : Bool} {p : CPat} (h : staticPatB strict p = true) : StaticPat strict p := by
  simp only [staticPatB, Bool.and_eq_true, List.all_eq_true] at h
  refine ⟨partsOkB_sound h.1.1, ?_, ?_, ?_⟩
  · intro x hx hu
    have := h.1.2 x hx
    revert hu this
    cases x with
    | literal s => exact fun h _ => h
    | regex s => exact fun h _ => h
    | match_ m =>
      cases m with
      | substitution x pt => cases pt <;> simp [Uses, staticPart]
      | numeric f cap e => cases cap <;> cases e <;> simp [Uses, staticPart]
  · intro x hx hu
    have := h.1.2 x hx
    revert hu this
    cases x with
    | literal s => exact fun h _ => h
    | regex s => exact fun h _ => h
    | match_ m =>
      cases m with
      | substitution x pt => cases pt <;> simp [CapturesNumber, staticPart]
      | numeric f cap e => cases cap <;> cases e <;> simp [CapturesNumber, staticPart]
  · rintro x hx s rfl
    have := h.2 _ hx
    simp only [canonicalB, Bool.or_eq_true, List.all_eq_true, Bool.not_eq_true'] at this
    exact this

def distinctB (p q : CPat) : Bool :=
  match compact p, compact q with
  | .lit s, .rx r => s != r.src
  | _, _ => true

/-- `StaticGroup`. -/
def staticGroupB (o : Opts) (ps : List CPat) : Bool :=
  ps.all (fun p => staticPatB o.strictWs p && solidPat p) && ps.all fun p => ps.all fun q => distinctB p q

theorem staticGroupB_sound {o : Opts} {ps : List CPat} (h : staticGroupB o ps = true) : StaticGroup o ps := by
  simp only [staticGroupB, Bool.and_eq_true, List.all_eq_true] at h
  refine ⟨fun p hp => staticPatB_sound (h.1 p hp).1, fun p hp => solidPat_sound (h.1 p hp).2, ?_⟩
  intro p hp q hq s r h1 h2
  have := h.2 p hp q hq
  unfold distinctB at this
  rw [h1, h2] at this
  simpa using this

def litOf : CPat → Option Str
  | .literal s => some s
  | _ => none

/-- `LitGroup`. -/
def litGroupB (ps : List CPat) : Bool :=
  ps.all (fun p => (litOf p).isSome) && decide (ps.filterMap litOf).Nodup && (ps.filterMap litOf).all fun s => !s.isEmpty

theorem litGroupB_sound {ps : List CPat} (h : litGroupB ps = true) : LitGroup ps := by
  simp only [litGroupB, Bool.and_eq_true, decide_eq_true_eq] at h
  refine ⟨ps.filterMap litOf, ?_, h.1.2, fun s hs => by simpa using (List.all_eq_true.1 h.2) s hs⟩
  have h1 := h.1.1
  clear h
  induction ps with
  | nil => rfl
  | cons p ps ih =>
    simp only [List.all_cons, Bool.and_eq_true] at h1
    cases p with
    | literal s => simp only [List.filterMap_cons, litOf, List.map_cons]; rw [← ih h1.2]
    | empty => simp [litOf] at h1
    | regex s => simp [litOf] at h1
    | match_ ps => simp [litOf] at h1

theorem LitGroup.prefix {ps qs : List CPat} (h : LitGroup (ps ++ qs)) : LitGroup ps := by
  obtain ⟨ss, h1, h2, h3⟩ := h
  obtain ⟨s1, s2, rfl, e1, _⟩ := List.map_eq_append_iff.1 h1.symm
  exact ⟨s1, e1.symm, (List.nodup_append.1 h2).1, fun s hs => h3 s (by simp [hs])⟩

/-! ## `CHECK-DAG` groups with regular expressions -/

/-- The literal's characters are not the byte. -/
def charsAvoid (d : UInt8) (s : Str) : Bool := s.all fun c => c.toNat != d.toNat

/-- The text matched by the part does not have the byte (if letter case counts). -/
def partAvoids (d : UInt8) : Part → Bool
  | .literal s => charsAvoid d s
  | .regex s => match Regex.parse s with | some r => avoids d false r | none => true
  | .match_ (.substitution _ (some s)) => match Regex.parse s with | some r => avoids d false r | none => true
  | _ => false

/-- The pattern begins with a literal whose first character is the byte, which is not whitespace. -/
def headByte (p : CPat) : Option UInt8 :=
  match partsOf p with
  | .literal (c :: _) :: _ => if c.toNat < 128 ∧ c ≠ ' ' ∧ isNonCanonicalHorizontalWhitespace c = false then some (UInt8.ofNat c.toNat) else none
  | _ => none

/-- After the first character, the text matched by the pattern does not have the byte. -/
def tailAvoids (d : UInt8) (p : CPat) : Bool :=
  match partsOf p with
  | .literal (_ :: s) :: ps => charsAvoid d s && ps.all (partAvoids d)
  | _ => false

/-- `Apart`, if letter case counts. -/
def apartB (p q : CPat) : Bool :=
  match headByte p, headByte q with
  | some c, some d => tailAvoids d p && tailAvoids c q
  | _, _ => false

theorem occurs_noByte {s : Str} {d : UInt8} (hd : d.toNat < 128) {b : Buf} {i j : Nat} (hs : charsAvoid d s = true)
    (h : Occurs false (utf8 s) b i j) : NoByte d b i j := by
  obtain ⟨rfl, h2⟩ := h
  intro x h3 h4 h5
  have hx : x - i < (utf8 s).length := by omega
  obtain ⟨y, h6, h7⟩ := h2 (x - i) _ (List.getElem?_eq_getElem hx)
  rw [show i + (x - i) = x by omega, h5] at h6
  have hy : d = y := Option.some.inj h6
  subst hy
  have h8 : (utf8 s)[x - i] = d := by
    rcases h7 with h7 | ⟨h7, _⟩
    · exact h7
    · simp at h7
  have h9 : d ∈ utf8 s := by rw [← h8]; exact List.getElem_mem hx
  unfold utf8 at h9
  obtain ⟨c, h10, h11⟩ := List.mem_flatMap.1 h9
  have := (List.all_eq_true.1 hs) c h10
  rw [encode_byte hd h11] at this
  simp at this

theorem spaced_avoid {strict : Bool} {s s' : Str} {d : UInt8} (hd : d ≠ 32) (h : Spaced strict s s') (hs : charsAvoid d s = true) :
    charsAvoid d s' = true := by
  rcases h with rfl | ⟨_, rfl⟩
  · exact hs
  · unfold charsAvoid at hs ⊢
    rw [List.all_eq_true] at hs ⊢
    intro c hc
    obtain ⟨x, h4, h5⟩ := List.mem_map.1 hc
    split at h5
    · subst h5
      have : (32 : Nat) ≠ d.toNat := fun h => hd (UInt8.toNat_inj.1 h.symm)
      simpa using this
    · subst h5; exact hs x h4

theorem partAvoids_sound {cx : PatternSpec.Ctx} (hic : cx.ic = false) {b : Buf} {env env' : Vars} {i j : Nat} {p : Part} {d : UInt8}
    (hd : d.toNat < 128) (hd2 : d ≠ 32) (h : partAvoids d p = true) (hm : PartMatches cx b env i j env' p) : NoByte d b i j := by
  cases p with
  | literal s =>
    obtain ⟨_, s', h1, h2⟩ := hm
    rw [hic] at h2
    exact occurs_noByte hd (spaced_avoid hd2 h1 h) h2
  | regex s =>
    obtain ⟨_, r, h1, c, h2⟩ := hm
    simp only [partAvoids, h1] at h
    rw [hic] at h2
    exact avoids_sound hd r _ _ _ h h2
  | match_ m =>
    cases m with
    | numeric => simp [partAvoids] at h
    | substitution x o =>
      cases o with
      | none => simp [partAvoids] at h
      | some s =>
        obtain ⟨⟨r, h1, c, h2⟩, _⟩ := hm
        simp only [partAvoids, h1] at h
        rw [hic] at h2
        exact avoids_sound hd r _ _ _ h h2

theorem partsAvoid_sound {cx : PatternSpec.Ctx} (hic : cx.ic = false) {b : Buf} {d : UInt8} (hd : d.toNat < 128) (hd2 : d ≠ 32) :
    ∀ {ps : List Part} {env env' : Vars} {i j : Nat}, ps.all (partAvoids d) = true → PartsMatch cx b env ps i j env' → NoByte d b i j
  | [], _, _, _, _, _, hm => by
    cases hm
    intro x h1 h2; omega
  | p :: ps, env, env', i, j, h, hm => by
    simp only [List.all_cons, Bool.and_eq_true] at h
    cases hm with
    | cons h1 h2 => exact noByte_append (partAvoids_sound hic hd hd2 h.1 h1) (partsAvoid_sound hic hd hd2 h.2 h2)

/-- A match of a pattern with a head: the first byte, and the others. -/
theorem headByte_sound {cx : PatternSpec.Ctx} (hic : cx.ic = false) {b : Buf} {env env' : Vars} {i j : Nat} {p : CPat} {c : UInt8}
    (h : headByte p = some c) (hm : meaning cx p env b i j env') :
    c.toNat < 128 ∧ c ≠ 32 ∧ i < j ∧ b[i]? = some c ∧
      ∀ d : UInt8, d.toNat < 128 → d ≠ 32 → tailAvoids d p = true → NoByte d b (i + 1) j := by
  unfold headByte at h
  unfold tailAvoids
  unfold meaning at hm
  split at h
  · rename_i x s ps hp
    split at h
    · rename_i hx
      obtain ⟨x1, x2, x3⟩ := hx
      simp only [Option.some.injEq] at h
      have hcn : c.toNat = x.toNat := by rw [← h, UInt8.toNat_ofNat_of_lt' (show x.toNat < 256 by omega)]
      have hc32 : c ≠ 32 := by
        intro h0
        apply x2
        apply Char.ext
        apply UInt32.toNat_inj.1
        show x.toNat = 32
        rw [← hcn, h0]; rfl
      rw [hp] at hm
      cases hm with
      | @cons _ _ _ _ k _ _ _ h1 h2 =>
        obtain ⟨_, s', h3, h4⟩ := h1
        rw [hic] at h4
        have hs' : ∃ t, s' = x :: t ∧ ∀ d : UInt8, d ≠ 32 → charsAvoid d s = true → charsAvoid d t = true := by
          rcases h3 with rfl | ⟨_, rfl⟩
          · exact ⟨s, rfl, fun _ _ h => h⟩
          · refine ⟨_, by rw [List.map_cons, x3]; rfl, ?_⟩
            intro d hd hs
            exact spaced_avoid hd (.inr ⟨‹_›, rfl⟩) hs
        obtain ⟨t, rfl, ht⟩ := hs'
        have henc : utf8 (x :: t) = c :: utf8 t := by
          unfold utf8
          rw [List.flatMap_cons]
          unfold encode
          rw [if_pos x1, show x.toNat.toUInt8 = c from h]; rfl
        rw [henc] at h4
        obtain ⟨hk, h5⟩ := h4
        rw [List.length_cons] at hk
        have hk2 := partsMatch_le h2
        have h0 : b[i]? = some c := by
          obtain ⟨y, h6, h7⟩ := h5 0 c rfl
          rcases h7 with h7 | ⟨h7, _⟩
          · rw [h7]; exact h6
          · simp at h7
        refine ⟨by omega, hc32, by omega, h0, ?_⟩
        intro d hd hd2 hav
        simp only [Bool.and_eq_true] at hav
        refine noByte_append (k := k) ?_ (partsAvoid_sound hic hd hd2 hav.2 h2)
        refine occurs_noByte hd (ht d hd2 hav.1) ⟨by omega, ?_⟩
        intro n y hy
        obtain ⟨z, h6, h7⟩ := h5 (n + 1) y (by simpa using hy)
        exact ⟨z, by rw [← h6]; congr 1; omega, h7⟩
    · simp at h
  · simp at h

theorem apartB_sound {o : Opts} (hic : o.ignoreCase = false) {p q : CPat} (h : apartB p q = true) : Apart o p q := by
  unfold apartB at h
  split at h
  · rename_i c d hc hd
    simp only [Bool.and_eq_true] at h
    intro cx cx' e1 _ e3 _ b env i j env' env1 i' j' env1' m1 m2
    obtain ⟨a1, a2, a3, a4, a5⟩ := headByte_sound (e1.trans hic) hc m1
    obtain ⟨b1, b2, b3, b4, b5⟩ := headByte_sound (e3.trans hic) hd m2
    exact ⟨fun hh => a5 d b1 b2 h.1 i' (by omega) (by omega) b4, fun hh => b5 c a1 a2 h.2 i (by omega) (by omega) a4⟩
  · simp at h

/-- All pairs satisfy `R`. -/
def pairwiseB {α : Type} (R : α → α → Bool) : List α → Bool
  | [] => true
  | x :: xs => xs.all (R x) && pairwiseB R xs

theorem pairwiseB_sound {α : Type} {R : α → α → Bool} : ∀ {l : List α}, pairwiseB R l = true → l.Pairwise (fun x y => R x y = true)
  | [], _ => .nil
  | x :: xs, h => by
    simp only [pairwiseB, Bool.and_eq_true, List.all_eq_true] at h
    exact .cons h.1 (pairwiseB_sound h.2)

/-- `RxGroup`. -/
def rxGroupB (o : Opts) (ps : List CPat) : Bool :=
  !o.ignoreCase && staticGroupB o ps && decide (ps.map srcText).Nodup && pairwiseB apartB ps

theorem rxGroupB_sound {o : Opts} {ps : List CPat} (h : rxGroupB o ps = true) : RxGroup o ps := by
  simp only [rxGroupB, Bool.and_eq_true, decide_eq_true_eq, Bool.not_eq_true'] at h
  obtain ⟨⟨⟨h1, h2⟩, h4⟩, h5⟩ := h
  exact ⟨staticGroupB_sound h2, h4, (pairwiseB_sound h5).imp (apartB_sound h1)⟩

/-- `DagGroup`. -/
def dagGroupB (o : Opts) (ps : List CPat) : Bool := litGroupB ps || rxGroupB o ps

theorem dagGroupB_sound {o : Opts} {ps : List CPat} (h : dagGroupB o ps = true) : DagGroup o ps := by
  simp only [dagGroupB, Bool.or_eq_true] at h
  exact h.imp litGroupB_sound rxGroupB_sound

theorem DagGroup.prefix {o : Opts} {ps qs : List CPat} (h : DagGroup o (ps ++ qs)) : DagGroup o ps :=
  h.imp LitGroup.prefix (fun h => h.mono (List.sublist_append_left _ _))

def isDag (l : CLine) : Bool := l.kind == .dag

/-- The groups of consecutive `CHECK-DAG` lines are as required. -/
def dagsB (o : Opts) : List CLine → Bool
  | [] => true
  | l :: ls => dagGroupB o (((l :: ls).takeWhile isDag).map CLine.pattern) && dagsB o ls

theorem dagsB_sound {o : Opts} : ∀ {ls : List CLine}, dagsB o ls = true → ∀ a b c, ls = a ++ b ++ c → (∀ l ∈ b, l.kind = .dag) → DagGroup o (b.map CLine.pattern)
  | ls, h, l :: a, b, c, he, hk => by
    subst he
    simp only [List.cons_append, dagsB, Bool.and_eq_true] at h
    exact dagsB_sound h.2 a b c (by simp) hk
  | ls, h, [], [], c, he, hk => .inl ⟨[], rfl, by simp, by simp⟩
  | ls, h, [], l :: b, c, he, hk => by
    subst he
    simp only [List.nil_append, List.cons_append, dagsB, Bool.and_eq_true] at h
    have h1 := dagGroupB_sound h.1
    rw [← List.cons_append, List.takeWhile_append_of_pos (by intro x hx; simp [isDag, hk x hx]), List.map_append] at h1
    exact h1.prefix

/-- `GoodFile`. -/
def goodFile (run : Run) (imp : List Str) (ls : List CLine) : Bool :=
  (ls.all fun l => match l.kind with
    | .not | .dag | .empty => true
    | .label => partsOkB l.pattern && linePat run.opts.ignoreCase l.pattern
    | _ => l.literal || wellFormedB l.pattern) &&
  staticGroupB run.opts ((ls.filter fun l => l.kind == .not).map CLine.pattern ++ if imp.isEmpty then [] else [.regex (implicitSrc imp)]) &&
  dagsB run.opts ls &&
  (!(ls.any fun l => l.kind == .label) ||
    (ls.takeWhile fun l => l.kind != .label).all fun l => l.kind == .empty || l.kind == .not || solidPat l.pattern)

theorem goodFile_sound {run : Run} {imp : List Str} {ls : List CLine} (h : goodFile run imp ls = true) : GoodFile run imp ls := by
  simp only [goodFile, Bool.and_eq_true] at h
  obtain ⟨⟨⟨h1, h2⟩, h3⟩, h4⟩ := h
  rw [List.all_eq_true] at h1
  refine ⟨?_, ?_, staticGroupB_sound h2, dagsB_sound h3, ?_⟩
  · intro l hl k1 k2 k3 k4 hlit
    have := h1 l hl
    split at this
    · exact absurd ‹_› k1
    · exact absurd ‹_› k2
    · exact absurd ‹_› k3
    · exact absurd ‹_› k4
    · rw [hlit] at this
      exact wellFormedB_sound (by simpa using this)
  · intro l hl hk
    have := h1 l hl
    rw [hk] at this
    simp only [Bool.and_eq_true] at this
    exact ⟨partsOkB_sound this.1, linePat_sound this.2⟩
  · rintro a l c rfl ⟨x, hx, hxk⟩ ha k1 k2 k3
    have hany : ((a ++ l :: c).any fun l => l.kind == .label) = true := by
      rw [List.any_eq_true]
      exact ⟨x, by simp [hx], by simp [hxk]⟩
    rw [hany] at h4
    simp only [Bool.not_true, Bool.false_or] at h4
    rw [List.takeWhile_append_of_pos (by intro y hy; simp [ha y hy]), List.takeWhile_cons_of_pos (by simp [k1]), List.all_eq_true] at h4
    have := h4 l (by simp)
    simp only [Bool.or_eq_true, beq_iff_eq] at this
    rcases this with (this | this) | this
    · exact absurd this k2
    · exact absurd this k3
    · exact solidPat_sound this

end Litcheck.Sets
