import Verif.Proofs.Search
import Verif.Proofs.StaticComplete
import Verif.Proofs.Expr
import Verif.Spec.Words

/-!
# Patterns of words: literals and uses of variables, then a part without variables

The search for such a pattern goes on where the last word was found; no match is missed if the words cannot overlap
themselves.
-/

namespace Litcheck.Pattern
open Litcheck.Smart Litcheck.Spec Litcheck.RegexSpec Litcheck.PatternSpec
open Litcheck.Regex hiding Items
open Litcheck.Lex (Part Match CPat VarName Expr Op)

theorem sameLetter_trans {ic : Bool} {x y z : UInt8} (h1 : SameLetter ic x y) (h2 : SameLetter ic z y) : SameLetter ic x z := by
  unfold SameLetter at *
  rcases h1 with rfl | ⟨hi, h1⟩
  · rcases h2 with rfl | ⟨hi, h2⟩
    · exact .inl rfl
    · exact .inr ⟨hi, by omega⟩
  · rcases h2 with rfl | ⟨_, h2⟩
    · exact .inr ⟨hi, h1⟩
    · by_cases h : x.toNat = z.toNat
      · exact .inl (UInt8.toNat_inj.1 h)
      · exfalso; omega

theorem hitAt_append {ic : Bool} {b : Buf} {hi p : Nat} {x y : Buf} :
    hitAt ic b hi p (x ++ y) = true ↔ hitAt ic b hi p x = true ∧ hitAt ic b hi (p + x.length) y = true := by
  simp only [hitAt_iff]
  have h := occurs_append (ic := ic) (b := b) (x := x) (y := y) (i := p) (j := p + (x ++ y).length)
  have e1 : Occurs ic (x ++ y) b p (p + (x ++ y).length) ↔ OccursAt ic (x ++ y) b p := by simp [Occurs]
  rw [← e1, h]
  simp only [List.length_append]
  constructor
  · rintro ⟨h1, k, ⟨rfl, h2⟩, h3, h4⟩
    exact ⟨⟨by omega, h2⟩, by omega, h4⟩
  · rintro ⟨⟨h1, h2⟩, h3, h4⟩
    exact ⟨by omega, p + x.length, ⟨rfl, h2⟩, by omega, h4⟩

/-- Two overlapping occurrences. -/
theorem bordered_of {ic : Bool} {b : Buf} {hi s s' : Nat} {w z : Buf} (h1 : hitAt ic b hi s w = true) (h2 : hitAt ic b hi s' (w ++ z) = true)
    (hlt : s < s') (hlt' : s' < s + w.length) : Bordered ic w := by
  refine ⟨s' - s, by omega, by omega, ?_⟩
  intro i x hx
  rw [List.getElem?_take] at hx
  split at hx
  · rename_i hi'
    obtain ⟨y, hy, hs⟩ := (hitAt_iff.1 (hitAt_append.1 h2).1).2 i x hx
    have hlen : s' - s + i < w.length := by omega
    have hz : w[s' - s + i]? = some w[s' - s + i] := List.getElem?_eq_getElem hlen
    obtain ⟨y', hy', hs'⟩ := (hitAt_iff.1 h1).2 _ _ hz
    rw [show s + (s' - s + i) = s' + i by omega, hy, Option.some.injEq] at hy'
    subst hy'
    exact ⟨_, hz, sameLetter_trans hs hs'⟩
  · simp at hx

theorem chars_names : ∀ s : Str, (seqRe (s.map Re.char).reverse).names = []
  | [] => rfl
  | c :: s => by rw [List.map_cons, List.reverse_cons, names_seq_append, chars_names s]; rfl

section
variable {cf : Conf engine} {b : Buf} {hi : Nat} {env : Vars}

/-- The operation looks for this word. -/
structure WordOp (cf : Conf engine) (b : Buf) (hi : Nat) (env : Vars) (op : MOp engine) (w : Buf) : Prop where
  kind : (∃ l, op = .literal l) ∨ ∃ e ty, op = .subst e ty
  anchored : ∀ st : Smart.St, st.anchored = true →
    matchPart cf b hi env st op = if hitAt cf.ignoreCase b hi st.pos w then .yes (st, st.pos, st.pos + w.length) else .no ⟨.noneButExpected, true⟩
  first : ∀ st : Smart.St, st.anchored = false → st.pos ≤ hi →
    (∃ s, st.pos ≤ s ∧ hitAt cf.ignoreCase b hi s w = true ∧ (∀ q, st.pos ≤ q → q < s → hitAt cf.ignoreCase b hi q w = false) ∧
      matchPart cf b hi env st op = .yes (st, s, s + w.length)) ∨
    ((∀ q, st.pos ≤ q → hitAt cf.ignoreCase b hi q w = false) ∧ ∃ f, matchPart cf b hi env st op = .no f)

theorem literal_wordOp (w : Buf) : WordOp cf b hi env (.literal w) w where
  kind := .inl ⟨_, rfl⟩
  anchored := by
    intro st ha
    simp only [matchPart, ha, if_true]
  first := by
    intro st ha hp
    simp only [matchPart, ha, Bool.false_eq_true, if_false]
    cases hf : findSet cf.ignoreCase [w] b hi (hi - st.pos) st.pos with
    | none =>
      right
      refine ⟨?_, _, rfl⟩
      intro q hq
      by_cases hle : q ≤ hi
      · exact findSet_none hf q hq (by omega) w (by simp)
      · cases hh : hitAt cf.ignoreCase b hi q w with
        | false => rfl
        | true => have := (hitAt_iff.1 hh).1; omega
    | some x =>
      obtain ⟨pid, s, e⟩ := x
      left
      obtain ⟨h1, h2, ⟨l, h3, h4, h5⟩, h6, _⟩ := findSet_some hf
      have hl : l = w := by
        rcases Nat.eq_zero_or_pos pid with rfl | hpos
        · simpa using h3.symm
        · rw [List.getElem?_eq_none (by simp; omega)] at h3; simp at h3
      subst hl
      exact ⟨s, h1, h5, fun q a1 a2 => h6 q a1 a2 l (by simp), by rw [h4]⟩

theorem subst_wordOp {e : Expr} {ty : Option Ty} {v : Evald} (hev : evalExpr cf.checked cf.line env ty e = .yes v)
    (hpl : plainText (substText v ty) = true) : WordOp cf b hi env (.subst e ty) (utf8 (substText v ty)) := by
  have hb : engine.build cf.ignoreCase (substText v ty) = some (cf.ignoreCase, seqRe ((substText v ty).map Re.char).reverse) := by
    show (parse (substText v ty)).map (cf.ignoreCase, ·) = _
    rw [reads_parse (plain_items _ hpl).reads (by rw [chars_names]; exact List.nodup_nil)]
    rfl
  have hm : ∀ s e', RegexSpec.Matches cf.ignoreCase b (seqRe ((substText v ty).map Re.char).reverse) s e' ↔ Occurs cf.ignoreCase (utf8 (substText v ty)) b s e' := by
    intro s e'
    constructor
    · rintro ⟨c, h⟩; exact ((lang_chars _).1 h).1
    · intro h; exact ⟨[], (lang_chars _).2 ⟨h, rfl⟩⟩
  have hhit : ∀ s, hitAt cf.ignoreCase b hi s (utf8 (substText v ty)) = true ↔
      ∃ e', e' ≤ hi ∧ RegexSpec.Matches cf.ignoreCase b (seqRe ((substText v ty).map Re.char).reverse) s e' := by
    intro s
    rw [hitAt_iff]
    constructor
    · rintro ⟨h1, h2⟩; exact ⟨_, h1, (hm _ _).2 ⟨rfl, h2⟩⟩
    · rintro ⟨e', h1, h2⟩
      obtain ⟨rfl, h3⟩ := (hm _ _).1 h2
      exact ⟨h1, h3⟩
  refine ⟨.inr ⟨_, _, rfl⟩, ?_, ?_⟩
  · intro st ha
    simp only [matchPart, hev, Smart.Step.bind, hb]
    have hse : engine.search (cf.ignoreCase, seqRe ((substText v ty).map Re.char).reverse) b st.pos hi st.anchored =
      find cf.ignoreCase (seqRe ((substText v ty).map Re.char).reverse) b st.pos hi st.anchored := rfl
    rw [hse]
    cases hf : find cf.ignoreCase (seqRe ((substText v ty).map Re.char).reverse) b st.pos hi st.anchored with
    | none =>
      rw [if_neg]
      intro hh
      obtain ⟨e', h1, h2⟩ := (hhit _).1 hh
      exact find_none hf _ _ (le_refl _) h1 (fun _ => rfl) h2
    | some h =>
      obtain ⟨h1, h2, h3, h4, h5, h6⟩ := find_some hf
      obtain ⟨⟨h7, h8⟩, _⟩ := (lang_chars _).1 h5
      have hs := h4 ha
      rw [if_pos (hitAt_iff.2 ⟨by omega, by rw [← hs]; exact h8⟩)]
      simp only [hs, h7]
  · intro st ha hp
    simp only [matchPart, hev, Smart.Step.bind, hb]
    have hse : engine.search (cf.ignoreCase, seqRe ((substText v ty).map Re.char).reverse) b st.pos hi st.anchored =
      find cf.ignoreCase (seqRe ((substText v ty).map Re.char).reverse) b st.pos hi st.anchored := rfl
    rw [hse]
    cases hf : find cf.ignoreCase (seqRe ((substText v ty).map Re.char).reverse) b st.pos hi st.anchored with
    | none =>
      right
      refine ⟨?_, _, rfl⟩
      intro q hq
      cases hh : hitAt cf.ignoreCase b hi q (utf8 (substText v ty)) with
      | false => rfl
      | true =>
        obtain ⟨e', h1, h2⟩ := (hhit _).1 hh
        exact absurd h2 (find_none hf _ _ hq h1 (by simp [ha]))
    | some h =>
      left
      obtain ⟨h1, h2, h3, h4, h5, h6⟩ := find_some hf
      obtain ⟨⟨h7, h8⟩, _⟩ := (lang_chars _).1 h5
      refine ⟨h.start, h1, hitAt_iff.2 ⟨by omega, h8⟩, ?_, by dsimp only; rw [h7]⟩
      intro q a1 a2
      cases hh : hitAt cf.ignoreCase b hi q (utf8 (substText v ty)) with
      | false => rfl
      | true =>
        obtain ⟨e', h1', h2'⟩ := (hhit _).1 hh
        exact absurd h2' (h6 q e' a1 a2 h1')

theorem matchParts_word {op : MOp engine} {w : Buf} (hw : WordOp cf b hi env op w) {ops : List (MOp engine)} {st : Smart.St} (hp : ¬ hi ≤ st.pos) :
    matchParts cf b hi (op :: ops) env st = (matchPart cf b hi env st op).bind fun x =>
      matchParts cf b hi ops env { x.1 with mend := x.2.2, pos := min x.2.2 b.length } := by
  rcases hw.kind with ⟨l, rfl⟩ | ⟨e, ty, rfl⟩ <;> simp only [matchParts, hp, if_false]

theorem stoppedAt_word {op : MOp engine} {w : Buf} (hw : WordOp cf b hi env op w) {ops : List (MOp engine)} {st : Smart.St} (hp : ¬ hi ≤ st.pos) :
    stoppedAt cf b hi (op :: ops) env st = match matchPart cf b hi env st op with
      | .yes x => stoppedAt cf b hi ops env { x.1 with mend := x.2.2, pos := min x.2.2 b.length }
      | _ => st.mend := by
  rcases hw.kind with ⟨l, rfl⟩ | ⟨e, ty, rfl⟩ <;> (rw [stoppedAt.eq_def]; simp only [if_neg hp]; rfl)

/-- Words one after the other: all are there, or one is missing. -/
theorem words_run (hhi : hi ≤ b.length) (tail : List (MOp engine)) : ∀ {ops : List (MOp engine)} {ws : List Buf},
    List.Forall₂ (WordOp cf b hi env) ops ws → (∀ w ∈ ws, w ≠ []) →
    ∀ st : Smart.St, st.anchored = true → st.mend = st.pos → st.pos ≤ hi →
    (hitAt cf.ignoreCase b hi st.pos ws.flatten = true ∧
      matchParts cf b hi (ops ++ tail) env st =
        matchParts cf b hi tail env { st with mend := st.pos + ws.flatten.length, pos := st.pos + ws.flatten.length } ∧
      stoppedAt cf b hi (ops ++ tail) env st =
        stoppedAt cf b hi tail env { st with mend := st.pos + ws.flatten.length, pos := st.pos + ws.flatten.length }) ∨
    ∃ k, k < ws.length ∧ hitAt cf.ignoreCase b hi st.pos (ws.take k).flatten = true ∧
      hitAt cf.ignoreCase b hi st.pos (ws.take (k + 1)).flatten = false ∧
      (∃ f, matchParts cf b hi (ops ++ tail) env st = .no f) ∧
      stoppedAt cf b hi (ops ++ tail) env st = st.pos + (ws.take k).flatten.length
  | _, _, .nil, _, st, ha, hm, hp => by
    left
    refine ⟨hitAt_iff.2 ⟨by simpa using hp, by simp [OccursAt]⟩, ?_⟩
    have e : { st with mend := st.pos + ([] : List Buf).flatten.length, pos := st.pos + ([] : List Buf).flatten.length } = st := by
      obtain ⟨a1, a2, a3, a4, a5, a6, a7⟩ := st
      dsimp only at hm
      subst hm
      rfl
    rw [e]
    exact ⟨rfl, rfl⟩
  | op :: ops, w :: ws, .cons hw hws, hne, st, ha, hm, hp => by
    by_cases hend : hi ≤ st.pos
    · right
      refine ⟨0, by simp, hitAt_iff.2 ⟨by simpa using hp, by simp [OccursAt]⟩, ?_, ⟨⟨.noneButExpected, true⟩, ?_⟩, ?_⟩
      · cases hh : hitAt cf.ignoreCase b hi st.pos ((w :: ws).take (0 + 1)).flatten with
        | false => rfl
        | true =>
          have := (hitAt_iff.1 hh).1
          have hpos := List.length_pos_iff.2 (hne w (by simp))
          simp at this
          omega
      · rw [List.cons_append, matchParts.eq_def]; simp only [if_pos hend]
      · rw [List.cons_append, stoppedAt.eq_def]; simp only [if_pos hend, hm]; simp
    · rw [List.cons_append, matchParts_word hw hend, stoppedAt_word hw hend, hw.anchored st ha]
      by_cases hh : hitAt cf.ignoreCase b hi st.pos w = true
      · rw [if_pos hh]
        have hle := (hitAt_iff.1 hh).1
        simp only [Smart.Step.bind, Nat.min_eq_left (show st.pos + w.length ≤ b.length by omega)]
        rcases words_run hhi tail hws (fun x hx => hne x (by simp [hx])) { st with mend := st.pos + w.length, pos := st.pos + w.length } ha rfl hle with
          ⟨h1, h2, h3⟩ | ⟨k, h1, h2, h3, h4, h5⟩
        · left
          dsimp only at h1 h2 h3
          refine ⟨by rw [List.flatten_cons, hitAt_append]; exact ⟨hh, h1⟩, ?_, ?_⟩
          · rw [h2, List.flatten_cons, List.length_append, Nat.add_assoc]
          · rw [h3, List.flatten_cons, List.length_append, Nat.add_assoc]
        · right
          dsimp only at h2 h3 h5
          refine ⟨k + 1, by simpa using h1, ?_, ?_, h4, ?_⟩
          · rw [List.take_succ_cons, List.flatten_cons, hitAt_append]; exact ⟨hh, h2⟩
          · cases hx : hitAt cf.ignoreCase b hi st.pos ((w :: ws).take (k + 1 + 1)).flatten with
            | false => rfl
            | true =>
              rw [List.take_succ_cons, List.flatten_cons, hitAt_append] at hx
              rw [hx.2] at h3; cases h3
          · rw [h5, List.take_succ_cons, List.flatten_cons, List.length_append, Nat.add_assoc]
      · right
        rw [if_neg hh]
        refine ⟨0, by simp, hitAt_iff.2 ⟨by simpa using hp, by simp [OccursAt]⟩, ?_, ⟨_, rfl⟩, by simp [hm]⟩
        cases hx : hitAt cf.ignoreCase b hi st.pos ((w :: ws).take (0 + 1)).flatten with
        | false => rfl
        | true => simp at hx; exact absurd hx hh

/-- What the operations after the words do: `T q` says that they can match at `q`, `Q q` that the words can end there, and
`safe` that there is neither a diagnostic nor a panic. -/
def TailOp (cf : Conf engine) (b : Buf) (hi : Nat) (env : Vars) (tail : List (MOp engine)) (T Q : Nat → Prop) (safe : Prop) : Prop :=
  ∀ st : Smart.St, st.anchored = true → st.mend = st.pos → st.pos ≤ hi → Q st.pos →
    match matchParts cf b hi tail env st with
    | .yes x => x.1.mstart = st.mstart ∧ x.1.pat = true ∧ (convertible st.caps = true → convertible x.1.caps = true)
    | .no _ => stoppedAt cf b hi tail env st = st.pos ∧ ¬ T st.pos
    | .err => ¬ safe
    | .panic _ => ¬ safe

/-- The search for words. -/
theorem search_words (hhi : hi ≤ b.length) {op : MOp engine} {ops tail : List (MOp engine)} {w : Buf} {ws : List Buf} {T Q : Nat → Prop} {safe : Prop} {lo : Nat}
    (hw : WordOp cf b hi env op w) (hws : List.Forall₂ (WordOp cf b hi env) ops ws) (hne : ∀ x ∈ w :: ws, x ≠ [])
    (ht : TailOp cf b hi env tail T Q safe)
    (hQ : ∀ s, lo ≤ s → hitAt cf.ignoreCase b hi s (w :: ws).flatten = true → Q (s + (w :: ws).flatten.length))
    (hbd : ∀ k, 0 < k → k ≤ (w :: ws).length → (k = (w :: ws).length → tail ≠ []) → ¬ Bordered cf.ignoreCase ((w :: ws).take k).flatten) :
    ∀ (fuel p : Nat), lo ≤ p → p ≤ hi → hi < fuel + p → ∃ x, search cf b hi false op (ops ++ tail) env fuel p = some x ∧
      match x with
      | .found st _ => p ≤ st.mstart ∧ st.pat = true ∧ convertible st.caps = true ∧ ∀ s, p ≤ s → s < st.mstart → hitAt cf.ignoreCase b hi s (w :: ws).flatten = true → ¬ T (s + (w :: ws).flatten.length)
      | .absent => ∀ s, p ≤ s → hitAt cf.ignoreCase b hi s (w :: ws).flatten = true → ¬ T (s + (w :: ws).flatten.length)
      | .err => ¬ safe
      | .panic _ => ¬ safe
  | 0, p, hlo, hp, hf => by omega
  | fuel + 1, p, hlo, hp, hf => by
    have hpos : 0 < w.length := List.length_pos_iff.2 (hne w (by simp))
    have hst : (start b false p).pos = p := by simp [start]; omega
    have hanch : (start b false p).anchored = false := rfl
    unfold search attempt
    dsimp only
    rcases hw.first (start b false p) hanch (by rw [hst]; exact hp) with ⟨s0, h1, h2, h3, h4⟩ | ⟨h1, f, h2⟩
    · rw [hst] at h1 h3
      rw [h4]
      dsimp only
      have hle := (hitAt_iff.1 h2).1
      rw [Nat.min_eq_left (show s0 + w.length ≤ b.length by omega)]
      -- no match starts before the first word
      have before : ∀ s, p ≤ s → s < s0 → hitAt cf.ignoreCase b hi s (w :: ws).flatten = true → False := by
        intro s a1 a2 a3
        rw [List.flatten_cons, hitAt_append, h3 s a1 a2] at a3
        exact absurd a3.1 (by simp)
      generalize hst1 : ({ (start b false p) with mstart := s0, mend := s0 + w.length, pos := s0 + w.length, anchored := true } : Smart.St) = st1
      have e1 : st1.pos = s0 + w.length := by rw [← hst1]
      have e2 : st1.mend = s0 + w.length := by rw [← hst1]
      have e3 : st1.mstart = s0 := by rw [← hst1]
      have e4 : st1.anchored = true := by rw [← hst1]
      have e5 : convertible st1.caps = true := by rw [← hst1]; rfl
      have next : ∀ k, 0 < k → k ≤ (w :: ws).length → (k = (w :: ws).length → tail ≠ []) →
          hitAt cf.ignoreCase b hi s0 ((w :: ws).take k).flatten = true →
          ((hitAt cf.ignoreCase b hi s0 (w :: ws).flatten = true) → ¬ T (s0 + (w :: ws).flatten.length)) →
          ∃ x, search cf b hi false op (ops ++ tail) env fuel (max (s0 + ((w :: ws).take k).flatten.length) ((start b false p).pos + 1)) = some x ∧
            match x with
            | .found st _ => p ≤ st.mstart ∧ st.pat = true ∧ convertible st.caps = true ∧ ∀ s, p ≤ s → s < st.mstart → hitAt cf.ignoreCase b hi s (w :: ws).flatten = true → ¬ T (s + (w :: ws).flatten.length)
            | .absent => ∀ s, p ≤ s → hitAt cf.ignoreCase b hi s (w :: ws).flatten = true → ¬ T (s + (w :: ws).flatten.length)
            | .err => ¬ safe
            | .panic _ => ¬ safe := by
        intro k k1 k2 k3 hk hfull
        have hlen := (hitAt_iff.1 hk).1
        have hwk : w.length ≤ ((w :: ws).take k).flatten.length := by
          obtain ⟨k', rfl⟩ : ∃ k', k = k' + 1 := ⟨k - 1, by omega⟩
          simp
        rw [hst, Nat.max_eq_left (by omega)]
        have skipped : ∀ s, p ≤ s → s < s0 + ((w :: ws).take k).flatten.length →
            hitAt cf.ignoreCase b hi s (w :: ws).flatten = true → ¬ T (s + (w :: ws).flatten.length) := by
          intro s a1 a2 a3
          rcases Nat.lt_trichotomy s s0 with hlt | rfl | hgt
          · exact (before s a1 hlt a3).elim
          · exact hfull a3
          · refine absurd ?_ (hbd k k1 k2 k3)
            refine bordered_of (z := ((w :: ws).drop k).flatten) hk ?_ hgt a2
            rw [← List.flatten_append, List.take_append_drop]
            exact a3
        obtain ⟨x, g1, g2⟩ := search_words hhi hw hws hne ht hQ hbd fuel _ (show lo ≤ s0 + ((w :: ws).take k).flatten.length by omega) (show s0 + ((w :: ws).take k).flatten.length ≤ hi by omega) (by omega)
        refine ⟨x, g1, ?_⟩
        split at g2
        · refine ⟨by omega, g2.2.1, g2.2.2.1, fun s a1 a2 a3 => ?_⟩
          by_cases hs : s < s0 + ((w :: ws).take k).flatten.length
          · exact skipped s a1 hs a3
          · exact g2.2.2.2 s (by omega) a2 a3
        · intro s a1 a3
          by_cases hs : s < s0 + ((w :: ws).take k).flatten.length
          · exact skipped s a1 hs a3
          · exact g2 s (by omega) a3
        · exact g2
        · exact g2
      rcases words_run hhi tail hws (fun x hx => hne x (by simp [hx])) st1 e4 (by rw [e1, e2]) (by omega) with
        ⟨g1, g2, g3⟩ | ⟨k, g1, g2, g3, ⟨f, g4⟩, g5⟩
      · rw [g2, g3]
        rw [e1] at g1
        have hfull : hitAt cf.ignoreCase b hi s0 (w :: ws).flatten = true := by
          rw [List.flatten_cons, hitAt_append]; exact ⟨h2, g1⟩
        have eL : st1.pos + ws.flatten.length = s0 + (w :: ws).flatten.length := by
          rw [e1, List.flatten_cons, List.length_append]; omega
        have hT := ht { st1 with mend := st1.pos + ws.flatten.length, pos := st1.pos + ws.flatten.length } e4 rfl
          (by show st1.pos + ws.flatten.length ≤ hi; rw [eL]; exact (hitAt_iff.1 hfull).1)
          (by show Q (st1.pos + ws.flatten.length); rw [eL]; exact hQ s0 (by omega) hfull)
        rw [eL] at hT ⊢
        cases hmp : matchParts cf b hi tail env { st1 with mend := s0 + (w :: ws).flatten.length, pos := s0 + (w :: ws).flatten.length } with
        | yes x =>
          rw [hmp] at hT
          dsimp only at hT ⊢
          refine ⟨_, rfl, ?_⟩
          dsimp only
          rw [hT.1, e3]
          exact ⟨h1, hT.2.1, hT.2.2 e5, fun s a1 a2 a3 => (before s a1 a2 a3).elim⟩
        | no f =>
          rw [hmp] at hT
          dsimp only at hT ⊢
          rw [hT.1]
          simp only [Bool.false_eq_true, if_false]
          have := next (w :: ws).length (by simp) (le_refl _) (fun _ htl => by subst htl; simp [matchParts] at hmp)
            (by rw [List.take_length]; exact hfull) (fun _ => hT.2)
          rw [List.take_length] at this
          exact this
        | err => rw [hmp] at hT; exact ⟨_, rfl, hT⟩
        | panic q => rw [hmp] at hT; exact ⟨_, rfl, hT⟩
      · rw [g4, g5]
        simp only [Bool.false_eq_true, if_false]
        rw [e1] at g2 g3 ⊢
        have hk : hitAt cf.ignoreCase b hi s0 ((w :: ws).take (k + 1)).flatten = true := by
          rw [List.take_succ_cons, List.flatten_cons, hitAt_append]; exact ⟨h2, g2⟩
        have := next (k + 1) (by omega) (by simp; omega) (fun he => by simp at he; omega) hk (fun hfull => by
          exfalso
          rw [List.flatten_cons, hitAt_append] at hfull
          have hsp : (ws.take (k + 1)).flatten ++ (ws.drop (k + 1)).flatten = ws.flatten := by
            rw [← List.flatten_append, List.take_append_drop]
          rw [← hsp, hitAt_append, g3] at hfull
          exact absurd hfull.2.1 (by simp))
        rw [List.take_succ_cons, List.flatten_cons, List.length_append, ← Nat.add_assoc] at this
        exact this
    · rw [h2]
      dsimp only
      refine ⟨_, rfl, ?_⟩
      dsimp only
      intro s a1 a2
      rw [hst] at h1
      rw [List.flatten_cons, hitAt_append, h1 s a1] at a2
      exact absurd a2.1 (by simp)

end
end Litcheck.Pattern
