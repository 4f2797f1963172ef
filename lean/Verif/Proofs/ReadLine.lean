import Verif.Proofs.ParseLines
import Verif.Spec.CheckLine
import Verif.Props.Number

/-! # What a directive means: the reader and its specification -/

namespace Litcheck.Lex

open Litcheck.Num (fromStrRadix)
open Litcheck.Script (trim trimStart trimEnd)
open LexSpec

/-! ## The parts of a pattern are determined -/

theorem append_trichotomy {a b c d : Str} (h : a ++ b = c ++ d) :
    (a = c ∧ b = d) ∨ (∃ x, x ≠ [] ∧ c = a ++ x ∧ b = x ++ d) ∨ ∃ x, x ≠ [] ∧ a = c ++ x ∧ d = x ++ b := by
  rw [List.append_eq_append_iff] at h
  obtain ⟨x, h1, h2⟩ | ⟨x, h1, h2⟩ := h
  · by_cases hx : x = []
    · subst hx; simp at h1 h2; exact .inl ⟨h1.symm, h2⟩
    · exact .inr (.inl ⟨x, hx, h1, h2⟩)
  · by_cases hx : x = []
    · subst hx; simp at h1 h2; exact .inl ⟨h1, h2.symm⟩
    · exact .inr (.inr ⟨x, hx, h1, h2⟩)

theorem first_unique {P : Str → Str → Prop} {a b c d : Str} (h1 : First P a b) (h2 : First P c d) (h : a ++ b = c ++ d) : a = c ∧ b = d := by
  obtain h | ⟨x, hx, rfl, rfl⟩ | ⟨x, hx, rfl, rfl⟩ := append_trichotomy h
  · exact h
  · exact absurd h1.1 (h2.2 a x rfl hx)
  · exact absurd h2.1 (h1.2 c x rfl hx)

theorem first_never {P : Str → Str → Prop} {a b s : Str} (h1 : First P a b) (h2 : Never P s) (h : s = a ++ b) : False :=
  h2 a b h h1.1

theorem opens_regex (r : Str) : Opens ('{' :: '{' :: r) := .inl ⟨r, rfl⟩

theorem opens_numeric (r : Str) : Opens ('[' :: '[' :: '#' :: r) := .inr ⟨_, rfl, by intro r' h; simp at h⟩

theorem opens_block {r : Str} (h : ∀ t, r ≠ '[' :: t) : Opens ('[' :: '[' :: r) := .inr ⟨r, rfl, h⟩

theorem block_head {s rest : Str} (h : ∀ r, s ≠ '[' :: r) : ∀ t, s ++ ']' :: ']' :: rest ≠ '[' :: t := by
  intro t he
  cases s with
  | nil => simp at he
  | cons c s => simp at he; exact h s (by rw [he.1])

theorem block_head' {s rest : Str} (h : ∀ r, s ≠ '#' :: r) : ∀ t, s ++ ']' :: ']' :: rest ≠ '#' :: t := by
  intro t he
  cases s with
  | nil => simp at he
  | cons c s => simp at he; exact h s (by rw [he.1])

theorem split_nil {l : Str} {segs : List Seg} {u : Option Open} (h : Split l segs u) (hl : l = []) : segs = [] ∧ u = none := by
  cases h with
  | nil => exact ⟨rfl, rfl⟩
  | text h1 => simp [h1] at hl
  | regex => simp [Seg.src] at hl
  | numeric => simp [Seg.src] at hl
  | block => simp [Seg.src] at hl
  | openRegex => simp at hl
  | openNumeric => simp at hl
  | openBlock => simp at hl

theorem split_opens {l : Str} {segs : List Seg} {u : Option Open} (h : Split l segs u) (hs : ∀ s segs', segs ≠ .text s :: segs') (hl : l ≠ []) :
    Opens l := by
  cases h with
  | nil => exact absurd rfl hl
  | text => exact absurd rfl (hs _ _)
  | regex => exact opens_regex _
  | numeric => exact opens_numeric _
  | block _ h2 => simp only [Seg.src, List.cons_append, List.append_assoc, List.nil_append]; exact opens_block (block_head h2)
  | openRegex => exact opens_regex _
  | openNumeric => exact opens_numeric _
  | openBlock _ h2 => exact opens_block h2

theorem split_text_not {s rest : Str} (h : ∀ a b, s = a ++ b → b ≠ [] → ¬ Opens (b ++ rest)) (hs : s ≠ []) : ¬ Opens (s ++ rest) :=
  h [] s rfl hs

theorem Split.unique {l : Str} {segs segs' : List Seg} {u u' : Option Open} (h : Split l segs u) (h' : Split l segs' u') :
    segs = segs' ∧ u = u' := by
  induction h generalizing segs' u' with
  | nil =>
    obtain ⟨rfl, rfl⟩ := split_nil h' rfl
    exact ⟨rfl, rfl⟩
  | @text s rest segs u h1 h2 h3 h4 ih =>
    have hno := split_text_not h2 h1
    generalize hl : s ++ rest = l at h' hno
    cases h' with
    | @text s' rest' segs' _ h1' h2' h3' h4' =>
      have : s = s' ∧ rest = rest' := by
        obtain h | ⟨x, hx, rfl, rfl⟩ | ⟨x, hx, rfl, rfl⟩ := append_trichotomy hl
        · exact h
        · obtain h3 | h3 := h3
          · simp [hx] at h3
          · exact absurd h3 (h2' s x rfl hx)
        · obtain h3' | h3' := h3'
          · simp [hx] at h3'
          · exact absurd h3' (h2 s' x rfl hx)
      obtain ⟨rfl, rfl⟩ := this
      obtain ⟨rfl, rfl⟩ := ih h4'
      exact ⟨rfl, rfl⟩
    | nil => simp [h1] at hl
    | regex => exact absurd (opens_regex _) hno
    | numeric => exact absurd (opens_numeric _) hno
    | block _ h6 =>
      exact absurd (by simp only [Seg.src, List.cons_append, List.append_assoc, List.nil_append]; exact opens_block (block_head h6)) hno
    | openRegex => exact absurd (opens_regex _) hno
    | openNumeric => exact absurd (opens_numeric _) hno
    | openBlock _ h6 => exact absurd (opens_block h6) hno
  | @regex s rest segs u h1 h2 ih =>
    generalize hl : (Seg.regex s).src ++ rest = l at h'
    simp only [Seg.src, List.cons_append, List.append_assoc, List.nil_append] at hl
    cases h' with
    | nil => simp at hl
    | text h1' h2' => exact absurd (hl ▸ opens_regex _) (split_text_not h2' h1')
    | @regex s' rest' segs' _ h1' h2' =>
      simp only [Seg.src, List.cons_append, List.append_assoc, List.nil_append, List.cons.injEq, true_and] at hl
      obtain ⟨rfl, h3⟩ := first_unique h1 h1' hl
      simp at h3
      subst h3
      obtain ⟨rfl, rfl⟩ := ih h2'
      exact ⟨rfl, rfl⟩
    | numeric => simp [Seg.src] at hl
    | block => simp [Seg.src] at hl
    | openRegex h6 => simp at hl; exact (first_never h1 h6 hl.symm).elim
    | openNumeric => simp at hl
    | openBlock => simp at hl
  | @numeric s rest segs u h1 h2 ih =>
    generalize hl : (Seg.block true s).src ++ rest = l at h'
    simp only [Seg.src, List.cons_append, List.append_assoc, List.nil_append] at hl
    cases h' with
    | nil => simp at hl
    | text h1' h2' => exact absurd (hl ▸ opens_numeric _) (split_text_not h2' h1')
    | regex => simp [Seg.src] at hl
    | @numeric s' rest' segs' _ h1' h2' =>
      simp only [Seg.src, List.cons_append, List.append_assoc, List.nil_append, List.cons.injEq, true_and] at hl
      obtain ⟨rfl, h3⟩ := first_unique h1 h1' hl
      simp at h3
      subst h3
      obtain ⟨rfl, rfl⟩ := ih h2'
      exact ⟨rfl, rfl⟩
    | block h5 h6 =>
      simp only [Seg.src, List.cons_append, List.append_assoc, List.nil_append, List.cons.injEq, true_and] at hl
      exact absurd hl.symm (block_head' h5 _)
    | openRegex => simp at hl
    | openNumeric h6 => simp at hl; exact (first_never h1 h6 hl.symm).elim
    | openBlock h5 => simp at hl; exact absurd hl.symm (h5 _)
  | @block s rest segs u hs1 hs2 h1 h2 ih =>
    generalize hl : (Seg.block false s).src ++ rest = l at h'
    simp only [Seg.src, List.cons_append, List.append_assoc, List.nil_append] at hl
    cases h' with
    | nil => simp at hl
    | text h1' h2' => exact absurd (hl ▸ opens_block (block_head hs2)) (split_text_not h2' h1')
    | regex => simp [Seg.src] at hl
    | numeric =>
      simp only [Seg.src, List.cons_append, List.append_assoc, List.nil_append, List.cons.injEq, true_and] at hl
      exact absurd hl (block_head' hs1 _)
    | @block s' rest' segs' _ _ _ h1' h2' =>
      simp only [Seg.src, List.cons_append, List.append_assoc, List.nil_append, List.cons.injEq, true_and] at hl
      obtain ⟨rfl, h3⟩ := first_unique h1 h1' hl
      simp at h3
      subst h3
      obtain ⟨rfl, rfl⟩ := ih h2'
      exact ⟨rfl, rfl⟩
    | openRegex => simp at hl
    | openNumeric =>
      simp only [List.cons.injEq, true_and] at hl
      exact absurd hl (block_head' hs1 _)
    | openBlock _ _ h6 => simp at hl; exact (first_never h1 h6 hl.symm).elim
  | @openRegex s h1 =>
    generalize hl : '{' :: '{' :: s = l at h'
    cases h' with
    | nil => simp at hl
    | text h1' h2' => exact absurd (hl ▸ opens_regex _) (split_text_not h2' h1')
    | regex h2' => simp [Seg.src] at hl; exact (first_never h2' h1 hl).elim
    | numeric => simp [Seg.src] at hl
    | block => simp [Seg.src] at hl
    | openRegex => exact ⟨rfl, rfl⟩
    | openNumeric => simp at hl
    | openBlock => simp at hl
  | @openNumeric s h1 =>
    generalize hl : '[' :: '[' :: '#' :: s = l at h'
    cases h' with
    | nil => simp at hl
    | text h1' h2' => exact absurd (hl ▸ opens_numeric _) (split_text_not h2' h1')
    | regex h2' => simp [Seg.src] at hl
    | numeric h2' => simp [Seg.src] at hl; exact (first_never h2' h1 hl).elim
    | block h5 =>
      simp only [Seg.src, List.cons_append, List.append_assoc, List.nil_append, List.cons.injEq, true_and] at hl
      exact absurd hl.symm (block_head' h5 _)
    | openRegex => simp at hl
    | openNumeric => exact ⟨rfl, rfl⟩
    | openBlock h5 => simp at hl; exact absurd hl.symm (h5 _)
  | @openBlock s h5 h6 h1 =>
    generalize hl : '[' :: '[' :: s = l at h'
    cases h' with
    | nil => simp at hl
    | text h1' h2' => exact absurd (hl ▸ opens_block h6) (split_text_not h2' h1')
    | regex h2' => simp [Seg.src] at hl
    | numeric h2' => simp [Seg.src] at hl; exact absurd hl (h5 _)
    | block _ _ h2' => simp [Seg.src] at hl; exact (first_never h2' h1 hl).elim
    | openRegex => simp at hl
    | openNumeric => simp at hl; exact absurd hl (h5 _)
    | openBlock => exact ⟨rfl, rfl⟩

/-! ## Numbers and tokens -/

theorem isDigit_iff (c : Char) : c.isDigit = true ↔ Spec.IsDec c := by
  rw [Litcheck.isDec_iff]
  unfold Char.isDigit
  simp only [Bool.and_eq_true, decide_eq_true_eq]
  exact Iff.rfl

theorem isHexB_iff (c : Char) : (c.isDigit || ('a' ≤ c && c ≤ 'f') || ('A' ≤ c && c ≤ 'F')) = true ↔ Spec.IsHex .any c := by
  simp only [Bool.or_eq_true, isDigit_iff, Bool.and_eq_true, decide_eq_true_eq, Spec.IsHex, or_assoc]

theorem takeWhile_stop {p : Char → Bool} {a b : Str} (h : ∀ c ∈ a, p c = true) (hb : ∀ c ∈ b.head?, p c = false) :
    (a ++ b).takeWhile p = a ∧ (a ++ b).dropWhile p = b := by
  induction a with
  | nil =>
    cases b with
    | nil => exact ⟨rfl, rfl⟩
    | cons c b => simp [List.takeWhile_cons, List.dropWhile_cons, hb c (by simp)]
  | cons c a ih =>
    have h1 := h c (by simp)
    have h2 := ih fun x hx => h x (by simp [hx])
    simp [List.takeWhile_cons, List.dropWhile_cons, h1, h2]

theorem takeWhile_mem {p : Char → Bool} {s : Str} {c : Char} (h : c ∈ s.takeWhile p) : p c = true := by
  have := all_takeWhile p s
  rw [List.all_eq_true] at this
  exact this c h

theorem dropWhile_head {p : Char → Bool} {s : Str} : ∀ c ∈ (s.dropWhile p).head?, p c = false := by
  intro c h
  have := List.head?_dropWhile_not p s
  rw [Option.mem_def.1 h] at this
  simpa using this

theorem i128Max_lt (n : Nat) : n ≤ Num.i128Max ↔ n < 2 ^ 127 := by
  unfold Num.i128Max
  omega

theorem toDigit_bin {c : Char} (h : c = '0' ∨ c = '1') : Num.toDigit 2 c = some (Spec.digitValue c) := by
  obtain rfl | rfl := h <;> decide

/-- What the lexer makes of a number. -/
def numberOf (s : Str) : Option (Int × Str) :=
  match fromStrRadix (numberAt s).1 (numberAt s).2.2 with
  | some v => some (v, s.drop ((numberAt s).2.1 + (numberAt s).2.2.length))
  | none => none

theorem drop_takeWhile {p : Char → Bool} {s : Str} : s.drop (s.takeWhile p).length = s.dropWhile p := by
  conv => lhs; rw [← List.takeWhile_append_dropWhile (p := p) (l := s)]
  have : ((s.takeWhile p) ++ s.dropWhile p).takeWhile p = s.takeWhile p := by rw [List.takeWhile_append_dropWhile]
  rw [this, List.drop_left]

theorem fromStr_dec {ds : Str} (hne : ds ≠ []) (h : ∀ c ∈ ds, c.isDigit = true) :
    fromStrRadix 10 ds = if Spec.positional 10 ds < 2 ^ 127 then some (Spec.positional 10 ds : Int) else none := by
  rw [fromStrRadix_unsigned (by decide) hne (fun c hc => toDigit_dec ((isDigit_iff c).1 (h c hc)))
    (fun c hc => dec_not_sign ((isDigit_iff c).1 (h c hc)))]
  simp only [i128Max_lt]

theorem fromStr_hex {ds : Str} (hne : ds ≠ []) (h : ∀ c ∈ ds, Spec.IsHex .any c) :
    fromStrRadix 16 ds = if Spec.positional 16 ds < 2 ^ 127 then some (Spec.positional 16 ds : Int) else none := by
  rw [fromStrRadix_unsigned (by decide) hne (fun c hc => toDigit_hex (h c hc))
    (fun c hc => ⟨(hex_not_sign (h c hc)).1, (hex_not_sign (h c hc)).2.1⟩)]
  simp only [i128Max_lt]

theorem fromStr_bin {ds : Str} (hne : ds ≠ []) (h : ∀ c ∈ ds, c = '0' ∨ c = '1') :
    fromStrRadix 2 ds = if Spec.positional 2 ds < 2 ^ 127 then some (Spec.positional 2 ds : Int) else none := by
  rw [fromStrRadix_unsigned (by decide) hne (fun c hc => toDigit_bin (h c hc))
    (fun c hc => by obtain rfl | rfl := h c hc <;> decide)]
  simp only [i128Max_lt]

theorem numberOf_sound {s : Str} {v : Int} {r : Str} (hd : ∀ c ∈ s.head?, c.isDigit = true) (h : numberOf s = some (v, r)) :
    ∃ n : Nat, v = n ∧ NumberAt s n r := by
  unfold numberOf at h
  split at h
  · rename_i v' hv
    obtain ⟨rfl, rfl⟩ := (by simpa using h : v' = v ∧ _ = r)
    unfold numberAt at hv ⊢
    split at hv
    · rename_i r1
      dsimp only at hv ⊢
      have hne : r1.takeWhile (fun c => c.isDigit || ('a' ≤ c && c ≤ 'f') || ('A' ≤ c && c ≤ 'F')) ≠ [] := by
        intro h0; rw [h0] at hv; simp [fromStrRadix] at hv
      have hmem : ∀ c ∈ r1.takeWhile (fun c => c.isDigit || ('a' ≤ c && c ≤ 'f') || ('A' ≤ c && c ≤ 'F')), Spec.IsHex .any c :=
        fun c hc => (isHexB_iff c).1 (takeWhile_mem (p := fun c => c.isDigit || ('a' ≤ c && c ≤ 'f') || ('A' ≤ c && c ≤ 'F')) hc)
      rw [fromStr_hex hne hmem] at hv
      split at hv
      · rename_i hlt
        refine ⟨_, by simpa using hv.symm, ?_⟩
        rw [Nat.add_comm, List.drop_succ_cons, List.drop_succ_cons, drop_takeWhile]
        conv => arg 1; rw [← List.takeWhile_append_dropWhile (p := fun c => c.isDigit || ('a' ≤ c && c ≤ 'f') || ('A' ≤ c && c ≤ 'F')) (l := r1)]
        refine .hex hne hmem (fun c hc hx => ?_) hlt
        have := dropWhile_head (p := fun c => c.isDigit || ('a' ≤ c && c ≤ 'f') || ('A' ≤ c && c ≤ 'F')) c hc
        rw [← isHexB_iff, this] at hx
        cases hx
      · cases hv
    · rename_i r1
      dsimp only at hv ⊢
      have hne : r1.takeWhile (fun c => c == '0' || c == '1') ≠ [] := by
        intro h0; rw [h0] at hv; simp [fromStrRadix] at hv
      have hmem : ∀ c ∈ r1.takeWhile (fun c => c == '0' || c == '1'), c = '0' ∨ c = '1' :=
        fun c hc => by simpa using takeWhile_mem (p := fun c => c == '0' || c == '1') hc
      rw [fromStr_bin hne hmem] at hv
      split at hv
      · rename_i hlt
        refine ⟨_, by simpa using hv.symm, ?_⟩
        rw [Nat.add_comm, List.drop_succ_cons, List.drop_succ_cons, drop_takeWhile]
        conv => arg 1; rw [← List.takeWhile_append_dropWhile (p := fun c => c == '0' || c == '1') (l := r1)]
        refine .bin hne hmem (fun c hc => ?_) hlt
        have := dropWhile_head (p := fun c => c == '0' || c == '1') c hc
        simpa using this
      · cases hv
    · rename_i hx hb
      dsimp only at hv ⊢
      have hne : s.takeWhile Char.isDigit ≠ [] := by
        intro h0; rw [h0] at hv; simp [fromStrRadix] at hv
      have hmem : ∀ c ∈ s.takeWhile Char.isDigit, c.isDigit = true := fun c hc => takeWhile_mem hc
      rw [fromStr_dec hne hmem] at hv
      split at hv
      · rename_i hlt
        refine ⟨_, by simpa using hv.symm, ?_⟩
        rw [Nat.zero_add, drop_takeWhile]
        have key := NumberAt.dec (r := s.dropWhile Char.isDigit) hne (by rw [List.all_eq_true]; exact hmem) dropWhile_head
          (by rw [List.takeWhile_append_dropWhile]; exact hx) (by rw [List.takeWhile_append_dropWhile]; exact hb) hlt
        rwa [List.takeWhile_append_dropWhile] at key
      · cases hv
  · cases h

theorem numberOf_complete {s : Str} {n : Nat} {r : Str} (h : NumberAt s n r) : numberOf s = some ((n : Int), r) := by
  unfold numberOf
  cases h with
  | @dec ds r hne hd hr hx hb hlt =>
    have h1 := takeWhile_stop (by rw [List.all_eq_true] at hd; exact hd) hr
    have hn : numberAt (ds ++ r) = (10, 0, ds) := by
      unfold numberAt
      split
      · rename_i heq; exact absurd heq (hx _)
      · rename_i heq; exact absurd heq (hb _)
      · rw [h1.1]
    rw [hn]
    dsimp only
    rw [fromStr_dec hne (by rw [List.all_eq_true] at hd; exact hd), if_pos hlt]
    simp
  | @hex ds r hne hd hr hlt =>
    have h1 := takeWhile_stop (p := fun c => c.isDigit || ('a' ≤ c && c ≤ 'f') || ('A' ≤ c && c ≤ 'F')) (a := ds) (b := r)
      (fun c hc => (isHexB_iff c).2 (hd c hc)) (fun c hc => by
        have := hr c hc
        rw [← isHexB_iff] at this
        simpa using this)
    have hn : numberAt ('0' :: 'x' :: (ds ++ r)) = (16, 2, ds) := by
      show (16, 2, (ds ++ r).takeWhile _) = _
      rw [h1.1]
    rw [hn]
    dsimp only
    rw [fromStr_hex hne hd, if_pos hlt, Nat.add_comm]
    simp
  | @bin ds r hne hd hr hlt =>
    have h1 := takeWhile_stop (p := fun c => c == '0' || c == '1') (a := ds) (b := r)
      (fun c hc => by simpa using hd c hc) (fun c hc => by simpa using hr c hc)
    have hn : numberAt ('0' :: 'b' :: (ds ++ r)) = (2, 2, ds) := by
      show (2, 2, (ds ++ r).takeWhile _) = _
      rw [h1.1]
    rw [hn]
    dsimp only
    rw [fromStr_bin hne hd, if_pos hlt, Nat.add_comm]
    simp

theorem numberAt_head {s : Str} {n : Nat} {r : Str} (h : NumberAt s n r) : ∃ c t, s = c :: t ∧ c.isDigit = true ∧ r.length < s.length := by
  cases h with
  | @dec ds r hne hd hr hx hb hlt =>
    cases ds with
    | nil => exact absurd rfl hne
    | cons c ds =>
      simp only [List.all_cons, Bool.and_eq_true] at hd
      exact ⟨c, ds ++ r, rfl, hd.1, by simp⟩
  | hex => exact ⟨_, _, rfl, by decide, by simp; omega⟩
  | bin => exact ⟨_, _, rfl, by decide, by simp; omega⟩

theorem wordToken_eq (s : Str) : keywordOrIdent s = wordToken s := rfl

theorem symbol_iff {b : Bool} {c : Char} {t : Token} {b' : Bool} :
    Symbol b c t b' ↔ ∃ s, single c = some (t, s) ∧ s.getD b = b' := by
  constructor
  · intro h
    cases h <;> exact ⟨_, rfl, rfl⟩
  · rintro ⟨s, h1, rfl⟩
    unfold single at h1
    split at h1 <;> simp at h1 <;> obtain ⟨rfl, rfl⟩ := h1 <;> constructor

theorem single_none_alpha {c : Char} (h : (c.isAlpha || c == '_') = true) : single c = none ∧ c ≠ '=' ∧ c ≠ ':' := by
  unfold single
  split <;> first | exact absurd h (by decide) | skip
  refine ⟨rfl, ?_, ?_⟩ <;> rintro rfl <;> exact absurd h (by decide)

theorem single_none_digit {c : Char} (h : c.isDigit = true) : single c = none ∧ c ≠ '=' ∧ c ≠ ':' ∧ (c.isAlpha || c == '_') = false := by
  unfold single
  split <;> first | exact absurd h (by decide) | skip
  refine ⟨rfl, ?_, ?_, ?_⟩
  · rintro rfl; exact absurd h (by decide)
  · rintro rfl; exact absurd h (by decide)
  · rw [isDigit_iff, Litcheck.isDec_iff] at h
    rw [Bool.or_eq_false_iff]
    constructor
    · cases ha : c.isAlpha with
      | false => rfl
      | true =>
        exfalso
        unfold Char.isAlpha Char.isUpper Char.isLower at ha
        rw [Bool.or_eq_true] at ha
        have h1 : c.val.toNat = c.toNat := rfl
        obtain ha | ha := ha
        · have := (of_decide_eq_true ha).1
          have h2 : 65 ≤ c.val.toNat := UInt32.le_iff_toNat_le.1 this
          omega
        · rw [Bool.and_eq_true] at ha
          have := of_decide_eq_true ha.1
          have h2 : 97 ≤ c.val.toNat := UInt32.le_iff_toNat_le.1 this
          omega
    · rw [beq_eq_false_iff_ne]
      rintro rfl
      exact absurd h (by decide)

theorem single_none_ws {c : Char} (h : asciiWs c = true) :
    single c = none ∧ c ≠ '=' ∧ c ≠ ':' ∧ (c.isAlpha || c == '_') = false ∧ c.isDigit = false := by
  unfold asciiWs at h
  simp only [Bool.or_eq_true, beq_iff_eq] at h
  obtain (((rfl | rfl) | rfl) | rfl) | rfl := h <;> decide

/-- Reading the inside of a block. -/
theorem lexBlock_iff (nm : Bool) (n : Nat) (b : Bool) (s : Str) (hn : s.length ≤ n) (ts : List Token) :
    innerTokens (lexBlock nm n b s) = .ok ts ↔ Lexes nm b s ts := by
  have hcons : ∀ (t : Token) (l : List Lexed) (ts : List Token), (∀ e, t ≠ .error e) →
      (innerTokens (.ok t :: l) = .ok ts ↔ ∃ ts', ts = t :: ts' ∧ innerTokens l = .ok ts') := by
    intro t l ts ht
    have : innerTokens (.ok t :: l) = (innerTokens l).map (t :: ·) := by
      cases t <;> first | rfl | exact absurd rfl (ht _)
    rw [this]
    cases innerTokens l with
    | error e => simp [Except.map]
    | ok l' => simp [Except.map, eq_comm]
  induction n generalizing b s ts with
  | zero =>
    have : s = [] := by cases s <;> simp_all
    subst this
    rw [lexBlock]
    constructor
    · intro h
      obtain rfl : [] = ts := by simpa [innerTokens] using h
      exact .nil
    · intro h
      cases h with
      | nil => rfl
      | number h => obtain ⟨c, t, h, -⟩ := numberAt_head h; cases h
  | succ n ih =>
    cases s with
    | nil =>
      rw [lexBlock.eq_def]
      constructor
      · intro h
        obtain rfl : [] = ts := by simpa [innerTokens] using h
        exact .nil
      · intro h
        cases h with
        | nil => rfl
        | number h => obtain ⟨c, t, h, -⟩ := numberAt_head h; cases h
    | cons c r =>
      have hr : r.length ≤ n := by simpa using hn
      rw [lexBlock.eq_def]
      dsimp only
      cases hs : single c with
      | some x =>
        obtain ⟨t, s'⟩ := x
        dsimp only
        have hne : ∀ e, t ≠ .error e := by
          intro e h
          subst h
          unfold single at hs
          split at hs <;> simp at hs
        rw [hcons t _ _ hne]
        constructor
        · rintro ⟨ts', rfl, h⟩
          exact .symbol (symbol_iff.2 ⟨s', hs, rfl⟩) ((ih _ r hr _).1 h)
        · intro h
          cases h with
          | space h1 => rw [(single_none_ws h1).1] at hs; cases hs
          | symbol h1 h2 =>
            obtain ⟨s2, h3, rfl⟩ := symbol_iff.1 h1
            rw [hs] at h3
            simp at h3
            obtain ⟨rfl, rfl⟩ := h3
            exact ⟨_, rfl, (ih _ r hr _).2 h2⟩
          | equals => simp [single] at hs
          | colon => simp [single] at hs
          | pattern => simp [single] at hs
          | word h1 => rw [(single_none_alpha h1).1] at hs; cases hs
          | number h1 =>
            obtain ⟨c', t', h, hd, -⟩ := numberAt_head h1
            simp at h
            rw [h.1, (single_none_digit hd).1] at hs
            cases hs
      | none =>
        dsimp only
        by_cases heq : c = '=' ∧ r.head? = some '='
        · rw [if_pos heq, hcons _ _ _ (by simp)]
          obtain ⟨rfl, h1⟩ := heq
          cases r with
          | nil => simp at h1
          | cons c2 r =>
            simp at h1
            subst h1
            have hr2 : r.length ≤ n := by simp at hr; omega
            constructor
            · rintro ⟨ts', rfl, h⟩
              exact .equals ((ih _ r hr2 _).1 h)
            · intro h
              generalize hg : '=' :: '=' :: r = s' at h
              cases h with
              | nil => cases hg
              | space h1 => simp at hg; rw [← hg.1] at h1; exact absurd h1 (by decide)
              | symbol h1 h2 => simp at hg; rw [← hg.1] at h1; cases h1
              | equals h2 => simp at hg; subst hg; exact ⟨_, rfl, (ih _ r hr2 _).2 h2⟩
              | colon => simp at hg
              | pattern => simp at hg
              | word h1 => simp at hg; rw [← hg.1] at h1; exact absurd h1 (by decide)
              | number h1 =>
                obtain ⟨c', t', h, hd, -⟩ := numberAt_head h1
                rw [h] at hg
                simp at hg
                rw [← hg.1] at hd
                exact absurd hd (by decide)
        · rw [if_neg heq]
          by_cases hc : c = ':'
          · subst hc
            rw [if_pos rfl]
            cases nm with
            | true =>
              rw [if_pos rfl, hcons _ _ _ (by simp)]
              constructor
              · rintro ⟨ts', rfl, h⟩
                exact .colon rfl ((ih _ r hr _).1 h)
              · intro h
                cases h with
                | space h1 => exact absurd h1 (by decide)
                | symbol h1 h2 => cases h1
                | colon h1 h2 => exact ⟨_, rfl, (ih _ r hr _).2 h2⟩
                | pattern h1 => cases h1
                | word h1 => exact absurd h1 (by decide)
                | number h1 =>
                  obtain ⟨c', t', h, hd, -⟩ := numberAt_head h1
                  simp at h
                  rw [← h.1] at hd
                  exact absurd hd (by decide)
            | false =>
              rw [if_neg (by simp), hcons _ _ _ (by simp)]
              constructor
              · rintro ⟨ts', rfl, h⟩
                obtain rfl : [.raw r] = ts' := by simpa [innerTokens, Except.map] using h
                exact .pattern rfl
              · intro h
                cases h with
                | space h1 => exact absurd h1 (by decide)
                | symbol h1 h2 => cases h1
                | colon h1 h2 => cases h1
                | pattern h1 => exact ⟨_, rfl, rfl⟩
                | word h1 => exact absurd h1 (by decide)
                | number h1 =>
                  obtain ⟨c', t', h, hd, -⟩ := numberAt_head h1
                  simp at h
                  rw [← h.1] at hd
                  exact absurd hd (by decide)
          · rw [if_neg hc]
            by_cases hal : (c.isAlpha || c == '_') = true
            · rw [if_pos hal, hcons _ _ _ (by
                intro e he
                unfold keywordOrIdent at he
                repeat' split at he
                all_goals simp at he)]
              have hdl : (r.dropWhile isWord).length ≤ n := Nat.le_trans (List.dropWhile_suffix _).length_le hr
              constructor
              · rintro ⟨ts', rfl, h⟩
                have := Lexes.word (b := b) (w := r.takeWhile isWord) (r := r.dropWhile isWord) hal (all_takeWhile isWord r) dropWhile_head ((ih _ _ hdl _).1 h)
                rwa [List.takeWhile_append_dropWhile] at this
              · intro h
                generalize hg : c :: r = s' at h
                cases h with
                | nil => cases hg
                | space h1 =>
                  simp at hg
                  rw [hg.1, (single_none_ws h1).2.2.2.1] at hal
                  cases hal
                | symbol h1 h2 =>
                  simp at hg
                  obtain ⟨s2, h3, -⟩ := symbol_iff.1 h1
                  rw [← hg.1, hs] at h3
                  cases h3
                | equals => simp at hg; rw [hg.1] at hal; exact absurd hal (by decide)
                | colon => simp at hg; exact absurd hg.1 hc
                | pattern => simp at hg; exact absurd hg.1 hc
                | @word _ c' w r' ts' h1 h2 h3 h4 =>
                  simp at hg
                  obtain ⟨rfl, rfl⟩ := hg
                  have ht := takeWhile_stop (p := isWord) (a := w) (b := r') (by rw [List.all_eq_true] at h2; exact h2) h3
                  rw [ht.1, ht.2]
                  rw [ht.2] at hdl
                  exact ⟨_, rfl, (ih _ _ hdl _).2 h4⟩
                | number h1 =>
                  obtain ⟨c', t', h, hd, -⟩ := numberAt_head h1
                  rw [h] at hg
                  simp at hg
                  rw [← hg.1] at hd
                  rw [(single_none_digit hd).2.2.2] at hal
                  cases hal
            · rw [if_neg hal]
              by_cases hdg : c.isDigit = true
              · rw [if_pos hdg]
                have hnum : ∀ v r', numberOf (c :: r) = some (v, r') → r' = (c :: r).drop ((numberAt (c :: r)).2.1 + (numberAt (c :: r)).2.2.length) ∧
                    fromStrRadix (numberAt (c :: r)).1 (numberAt (c :: r)).2.2 = some v := by
                  intro v r' h
                  unfold numberOf at h
                  split at h
                  · rename_i v' hv'
                    simp at h
                    exact ⟨h.2.symm, by rw [hv', h.1]⟩
                  · cases h
                cases hf : fromStrRadix (numberAt (c :: r)).1 (numberAt (c :: r)).2.2 with
                | none =>
                  constructor
                  · intro h
                    simp [innerTokens] at h
                  · intro h
                    exfalso
                    have : ∃ n' r', NumberAt (c :: r) n' r' := by
                      generalize hg : c :: r = s' at h
                      cases h with
                      | nil => cases hg
                      | space h1 =>
                        simp at hg
                        rw [hg.1, (single_none_ws h1).2.2.2.2] at hdg
                        cases hdg
                      | symbol h1 h2 =>
                        simp at hg
                        obtain ⟨s2, h3, -⟩ := symbol_iff.1 h1
                        rw [← hg.1, hs] at h3
                        cases h3
                      | equals => simp at hg; rw [hg.1] at hdg; exact absurd hdg (by decide)
                      | colon => simp at hg; exact absurd hg.1 hc
                      | pattern => simp at hg; exact absurd hg.1 hc
                      | word h1 => simp at hg; rw [← hg.1] at h1; exact absurd h1 hal
                      | number h1 => exact ⟨_, _, h1⟩
                    obtain ⟨n', r', h1⟩ := this
                    have := (hnum _ _ (numberOf_complete h1)).2
                    rw [hf] at this
                    cases this
                | some v =>
                  dsimp only
                  rw [hcons _ _ _ (by simp)]
                  have hno : numberOf (c :: r) = some (v, (c :: r).drop ((numberAt (c :: r)).2.1 + (numberAt (c :: r)).2.2.length)) := by
                    unfold numberOf
                    rw [hf]
                  obtain ⟨k, rfl, hk⟩ := numberOf_sound (by simpa using hdg) hno
                  obtain ⟨-, -, -, -, hlt⟩ := numberAt_head hk
                  have hle : ((c :: r).drop ((numberAt (c :: r)).2.1 + (numberAt (c :: r)).2.2.length)).length ≤ n := by
                    simp at hlt hr ⊢
                    omega
                  constructor
                  · rintro ⟨ts', rfl, h⟩
                    exact .number hk ((ih _ _ hle _).1 h)
                  · intro h
                    generalize hg : c :: r = s' at h
                    cases h with
                    | nil => cases hg
                    | space h1 =>
                      simp at hg
                      rw [hg.1, (single_none_ws h1).2.2.2.2] at hdg
                      cases hdg
                    | symbol h1 h2 =>
                      simp at hg
                      obtain ⟨s2, h3, -⟩ := symbol_iff.1 h1
                      rw [← hg.1, hs] at h3
                      cases h3
                    | equals => simp at hg; rw [hg.1] at hdg; exact absurd hdg (by decide)
                    | colon => simp at hg; exact absurd hg.1 hc
                    | pattern => simp at hg; exact absurd hg.1 hc
                    | word h1 => simp at hg; rw [← hg.1] at h1; exact absurd h1 hal
                    | number h1 h2 =>
                      subst hg
                      have := numberOf_complete h1
                      rw [hno] at this
                      simp only [Option.some.injEq, Prod.mk.injEq, Int.natCast_inj] at this
                      obtain ⟨rfl, rfl⟩ := this
                      exact ⟨_, rfl, (ih _ _ hle _).2 h2⟩
              · rw [if_neg hdg]
                by_cases hw : (isAsciiWs c && b) = true
                · rw [if_pos hw]
                  rw [Bool.and_eq_true] at hw
                  obtain ⟨hw1, rfl⟩ := hw
                  refine (ih _ r hr ts).trans ?_
                  constructor
                  · exact .space hw1
                  · intro h
                    generalize hg : c :: r = s' at h
                    cases h with
                    | nil => cases hg
                    | space h1 h2 => simp at hg; rw [hg.2]; exact h2
                    | symbol h1 h2 =>
                      simp at hg
                      obtain ⟨s2, h3, -⟩ := symbol_iff.1 h1
                      rw [← hg.1, hs] at h3
                      cases h3
                    | equals => simp at hg; rw [hg.1] at hw1; exact absurd hw1 (by decide)
                    | colon => simp at hg; exact absurd hg.1 hc
                    | pattern => simp at hg; exact absurd hg.1 hc
                    | word h1 => simp at hg; rw [← hg.1] at h1; exact absurd h1 hal
                    | number h1 =>
                      obtain ⟨c', t', h, hd, -⟩ := numberAt_head h1
                      rw [h] at hg
                      simp at hg
                      rw [← hg.1] at hd
                      exact absurd hd hdg
                · rw [if_neg hw]
                  constructor
                  · intro h
                    simp [innerTokens] at h
                  · intro h
                    exfalso
                    generalize hg : c :: r = s' at h
                    cases h with
                    | nil => cases hg
                    | space h1 => simp at hg; rw [← hg.1] at h1; exact hw (by rw [Bool.and_eq_true]; exact ⟨h1, rfl⟩)
                    | symbol h1 h2 =>
                      simp at hg
                      obtain ⟨s2, h3, -⟩ := symbol_iff.1 h1
                      rw [← hg.1, hs] at h3
                      cases h3
                    | equals => simp at hg; exact heq ⟨hg.1, by rw [hg.2]; rfl⟩
                    | colon => simp at hg; exact absurd hg.1 hc
                    | pattern => simp at hg; exact absurd hg.1 hc
                    | word h1 => simp at hg; rw [← hg.1] at h1; exact absurd h1 hal
                    | number h1 =>
                      obtain ⟨c', t', h, hd, -⟩ := numberAt_head h1
                      rw [h] at hg
                      simp at hg
                      rw [← hg.1] at hd
                      exact absurd hd hdg

end Litcheck.Lex
