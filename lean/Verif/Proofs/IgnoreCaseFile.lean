import Verif.Proofs.IgnoreCase
import Verif.Proofs.SimulateFile
import Verif.Proofs.TameText
import Verif.Proofs.Script
import Verif.Spec.IgnoreCase

/-!
# `--ignore-case`: check files
-/

namespace Litcheck.NoCase
open Spec Simulate PatternSpec
open Litcheck.Regex (Re engine)
open Litcheck.Smart Litcheck.Pattern Litcheck.Sets
open Litcheck.Lex (Part Match CPat CLine)

/-! ## The matchers of lines -/

/-- A matcher which captures nothing, and looks at the input without regard to case. -/
def CompBlind : Compiled engine → Prop
  | .regex prog caps => prog.1 = true ∧ caps = []
  | .smart ops => ∀ op ∈ ops, OpBlind op
  | _ => True

theorem build_blind {s : Str} {prog : engine.Prog} (h : engine.build true s = some prog) : prog.1 = true := by
  obtain ⟨ic, re⟩ := prog
  simp only [engine, Option.map_eq_some_iff, Prod.mk.injEq] at h
  obtain ⟨_, _, h, _⟩ := h
  exact h.symm

theorem lit_sim {b b' lit lit' : Buf} (hb : Same b b') (hl : Same lit lit') (n : Nat) :
    PatSim Eq b b' (litPat (E := Vars) true lit n) (litPat true lit' n) := by
  refine ⟨?_, rfl, rfl⟩
  rintro r e _ rfl
  unfold litPat
  dsimp only
  rw [findSet_same hb (.cons hl .nil)]
  exact ⟨rfl, rfl⟩

theorem run_sim {b b' : Buf} {p p' : Pat Vars} (h : ∀ r e, p'.run b' r e = p.run b r e) (h2 : p'.len = p.len) (h3 : p'.pspan = p.pspan) :
    PatSim Eq b b' p p' := by
  refine ⟨?_, h2, h3⟩
  rintro r e _ rfl
  rw [h]
  exact ⟨rfl, rfl⟩

theorem comp_sim {b b' : Buf} (hb : Same b b') {cf : Conf engine} (hic : cf.ignoreCase = true) {c : Compiled engine} (hc : CompBlind c) (n : Nat) :
    PatSim Eq b b' (c.pat cf n) (c.pat cf n) := by
  cases c with
  | always => exact run_sim (fun _ _ => rfl) rfl rfl
  | substring lit =>
    show PatSim Eq b b' (litPat cf.ignoreCase lit n) (litPat cf.ignoreCase lit n)
    rw [hic]
    exact lit_sim hb (refl_same _) n
  | regex prog caps =>
    obtain ⟨ic, re⟩ := prog
    obtain ⟨h1, rfl⟩ := hc
    dsimp only at h1
    subst h1
    refine run_sim ?_ rfl rfl
    intro r e
    have e : engine.search (true, re) b' r.start r.stop false = engine.search (true, re) b r.start r.stop false := find_same hb _ _ _ _
    show (regexPat (eng := engine) (true, re) [] n).run b' r _ = (regexPat (eng := engine) (true, re) [] n).run b r _
    unfold regexPat
    dsimp only
    rw [e]
    rfl
  | smart ops => exact run_sim (fun r e => smart_same hb hic hc n r e) rfl rfl
  | whitespace => exact run_sim (fun r e => whitespace_same hb n r e) rfl rfl

/-! ## Compilation -/

/-- A part made of parts which capture nothing. -/
def PartFree : CPart → Prop
  | .lit _ => True
  | .rx r => r.caps = []
  | .dyn (.substitution _ none) => True
  | .dyn (.numeric _ none (some _)) => True
  | .dyn _ => False

theorem flush_free {st : CSt} (h1 : ∀ p ∈ st.out, PartFree p) (h2 : st.caps = []) : ∀ p ∈ st.flush, PartFree p := by
  intro p hp
  unfold CSt.flush at hp
  split_ifs at hp
  · exact h1 p hp
  · rcases List.mem_append.1 hp with hp | hp
    · exact h1 p hp
    · rw [List.mem_singleton] at hp; subst hp; exact trivial
  · rcases List.mem_append.1 hp with hp | hp
    · exact h1 p hp
    · rw [List.mem_singleton] at hp; subst hp; exact h2

theorem step_free {st : CSt} (h1 : ∀ p ∈ st.out, PartFree p) (h2 : st.caps = []) {x : Part} (hx : ¬ Spec.Captures x) :
    (∀ p ∈ (compactStep st x).out, PartFree p) ∧ (compactStep st x).caps = [] := by
  have dyn : ∀ {m : Match}, PartFree (.dyn m) → ∀ p ∈ st.flush ++ [.dyn m], PartFree p := by
    intro m hm p hp
    rcases List.mem_append.1 hp with hp | hp
    · exact flush_free h1 h2 p hp
    · rw [List.mem_singleton] at hp; subst hp; exact hm
  cases x with
  | literal s => exact ⟨h1, h2⟩
  | regex s => exact ⟨h1, by simp [compactStep, CSt.addRx, h2]⟩
  | match_ m =>
    cases m with
    | substitution name o =>
      cases o with
      | none => exact ⟨dyn trivial, rfl⟩
      | some s => exact absurd trivial hx
    | numeric f c e =>
      cases c with
      | some c => exact absurd trivial hx
      | none =>
        cases e with
        | none => exact ⟨h1, by simp [compactStep, CSt.addRx, h2]⟩
        | some e => exact ⟨dyn trivial, rfl⟩

theorem fold_free : ∀ (ps : List Part) {st : CSt}, (∀ p ∈ st.out, PartFree p) → st.caps = [] → (∀ x ∈ ps, ¬ Spec.Captures x) →
    (∀ p ∈ (ps.foldl compactStep st).out, PartFree p) ∧ (ps.foldl compactStep st).caps = []
  | [], st, h1, h2, _ => ⟨h1, h2⟩
  | x :: ps, st, h1, h2, h => by
    obtain ⟨a, c⟩ := step_free h1 h2 (h x (by simp))
    exact fold_free ps a c fun y hy => h y (by simp [hy])

theorem compact_free {p : CPat} (h : ∀ x ∈ partsOf p, ¬ Spec.Captures x) :
    compact p = .empty ∨ (∃ s, compact p = .lit s) ∨ (∃ s, compact p = .rx ⟨s, []⟩) ∨ ∃ ps, compact p = .parts ps ∧ ∀ x ∈ ps, PartFree x := by
  cases p with
  | empty => exact .inl rfl
  | literal s => exact .inr (.inl ⟨s, rfl⟩)
  | regex s => exact .inr (.inr (.inl ⟨s, rfl⟩))
  | match_ ps =>
    cases ps with
    | nil => exact .inl rfl
    | cons q qs =>
      obtain ⟨h1, h2⟩ := fold_free (q :: qs) (st := ⟨[], [], [], true⟩) (by simp) rfl h
      rw [show compact (.match_ (q :: qs)) = (if ((q :: qs).foldl compactStep ⟨[], [], [], true⟩).out.isEmpty then
          if ((q :: qs).foldl compactStep ⟨[], [], [], true⟩).litMode then .lit ((q :: qs).foldl compactStep ⟨[], [], [], true⟩).text
          else .rx ⟨((q :: qs).foldl compactStep ⟨[], [], [], true⟩).text, ((q :: qs).foldl compactStep ⟨[], [], [], true⟩).caps⟩
        else .parts ((q :: qs).foldl compactStep ⟨[], [], [], true⟩).flush) from rfl]
      generalize (q :: qs).foldl compactStep ⟨[], [], [], true⟩ = st at h1 h2
      rw [h2]
      right
      split_ifs
      · exact .inl ⟨_, rfl⟩
      · exact .inr (.inl ⟨_, rfl⟩)
      · exact .inr (.inr ⟨_, rfl, flush_free h1 h2⟩)

section
variable {o : Opts} (ho : o.ignoreCase = true)
include ho

theorem compileRx_blind {s : Str} {c : Compiled engine} (h : compileRx engine o ⟨s, []⟩ = .ok (some c)) : CompBlind c := by
  unfold compileRx at h
  rw [ho] at h
  split at h
  · simp at h
  · rename_i prog hp
    simp only [Except.ok.injEq, Option.some.injEq] at h
    subst h
    exact ⟨build_blind hp, rfl⟩

theorem compileLit_blind {s : Str} {c : Compiled engine} (h : compileLit engine o s = .ok (some c)) : CompBlind c := by
  unfold compileLit at h
  rw [ho] at h
  split_ifs at h
  · simp at h
  · simp only [Except.ok.injEq, Option.some.injEq] at h; subst h; exact trivial
  · split at h
    · simp at h
    · rename_i prog hp
      simp only [Except.ok.injEq, Option.some.injEq] at h
      subst h
      exact ⟨build_blind hp, rfl⟩
  · simp only [Except.ok.injEq, Option.some.injEq] at h; subst h; exact trivial

theorem lowerPart_blind {p : CPart} (hp : PartFree p) {ops : List (MOp engine)} (h : lowerPart engine o p = .ok (some ops)) : ∀ op ∈ ops, OpBlind op := by
  cases p with
  | lit s =>
    unfold lowerPart buildLiteral at h
    dsimp only at h
    split_ifs at h
    simp only [Except.ok.injEq, Option.some.injEq] at h
    subst h
    simp [OpBlind]
  | rx r =>
    obtain ⟨s, cs⟩ := r
    have hcs : cs = [] := hp
    subst hcs
    unfold lowerPart buildRegex at h
    dsimp only at h
    rw [ho] at h
    split at h
    · simp at h
    · rename_i prog hp
      simp only [Except.ok.injEq, Option.some.injEq] at h
      subst h
      intro op hop
      simp only [List.reverse_nil, List.map_nil, List.mem_singleton] at hop
      subst hop
      exact ⟨build_blind hp, rfl⟩
  | dyn m =>
    cases m with
    | substitution name v =>
      cases v with
      | none =>
        simp only [lowerPart, lowerMatch, Except.ok.injEq, Option.some.injEq] at h
        subst h
        simp [OpBlind]
      | some s => exact absurd hp id
    | numeric f c e =>
      cases c with
      | some c => exact absurd hp id
      | none =>
        cases e with
        | none => exact absurd hp id
        | some e =>
          simp only [lowerPart, lowerMatch, Except.ok.injEq, Option.some.injEq] at h
          subst h
          simp [OpBlind]

theorem lowerParts_blind : ∀ (ps : List CPart) {ops : List (MOp engine)}, (∀ p ∈ ps, PartFree p) → lowerParts engine o ps = .ok (some ops) →
    ∀ op ∈ ops, OpBlind op
  | [], ops, _, h => by
    simp only [lowerParts, Except.ok.injEq, Option.some.injEq] at h
    subst h
    simp
  | p :: ps, ops, hp, h => by
    unfold lowerParts at h
    obtain ⟨u, h1, h2⟩ := bind_ok.1 h
    cases u with
    | none => simp at h2
    | some u =>
      dsimp only at h2
      obtain ⟨v, h3, h4⟩ := bind_ok.1 h2
      cases v with
      | none => simp at h4
      | some v =>
        simp only [Except.ok.injEq, Option.some.injEq] at h4
        subst h4
        intro op hop
        rcases List.mem_append.1 hop with hop | hop
        · exact lowerPart_blind ho (hp p (by simp)) h1 op hop
        · exact lowerParts_blind ps (fun q hq => hp q (by simp [hq])) h3 op hop

theorem compile_blind {p : CPat} (hp : ∀ x ∈ partsOf p, ¬ Spec.Captures x) {c : Compiled engine} (h : Pattern.compile engine o p = .ok (some c)) : CompBlind c := by
  unfold Pattern.compile at h
  rcases compact_free hp with e | ⟨s, e⟩ | ⟨s, e⟩ | ⟨ps, e, hps⟩
  · rw [e] at h
    simp only [Except.ok.injEq, Option.some.injEq] at h
    subst h
    exact trivial
  · rw [e] at h
    exact compileLit_blind ho h
  · rw [e] at h
    exact compileRx_blind ho h
  · rw [e] at h
    dsimp only at h
    obtain ⟨u, h1, h2⟩ := bind_ok.1 h
    cases u with
    | none => simp at h2
    | some u =>
      simp only [Except.ok.injEq, Option.some.injEq] at h2
      subst h2
      exact lowerParts_blind ho ps hps h1

theorem static_blind {p : CPat} (hp : ∀ x ∈ partsOf p, ¬ Spec.Captures x) {c : Compiled engine} (h : compileStatic engine o p = .ok (some c)) : CompBlind c := by
  unfold compileStatic at h
  rcases compact_free hp with e | ⟨s, e⟩ | ⟨s, e⟩ | ⟨ps, e, hps⟩
  · rw [e] at h
    simp at h
  · rw [e] at h
    dsimp only at h
    split_ifs at h
    simp only [Except.ok.injEq, Option.some.injEq] at h
    subst h
    exact trivial
  · rw [e] at h
    simp only [List.isEmpty_nil, if_true] at h
    exact compileRx_blind ho h
  · rw [e] at h
    simp at h

end

theorem literal_blind {o : Opts} {p : CPat} {c : Compiled engine} (h : compileLiteral engine o p = .ok (some c)) : CompBlind c := by
  unfold compileLiteral at h
  split at h
  · split_ifs at h
    simp only [Except.ok.injEq, Option.some.injEq] at h
    subst h
    exact trivial
  · simp at h

/-! ## Text in another case -/

theorem char_cases {c d : Char} (h : EitherCase c d) :
    c = d ∨ (65 ≤ c.toNat ∧ c.toNat ≤ 90 ∨ 97 ≤ c.toNat ∧ c.toNat ≤ 122) ∧ (65 ≤ d.toNat ∧ d.toNat ≤ 90 ∨ 97 ≤ d.toNat ∧ d.toNat ≤ 122) ∧
      (d.toNat = c.toNat + 32 ∨ c.toNat = d.toNat + 32) := by
  rcases h with h | h | h
  · exact .inl h
  · right; omega
  · right; omega

theorem isWs_letter {c : Char} (h : 65 ≤ c.toNat ∧ c.toNat ≤ 90 ∨ 97 ≤ c.toNat ∧ c.toNat ≤ 122) :
    BParse.isWs c = false ∧ isAsciiWs c.toNat = false ∧ isNonCanonicalHorizontalWhitespace c = false := by
  refine ⟨?_, ?_, ?_⟩
  · have e : ∀ k : Nat, k < 4294967296 → k ≠ c.toNat → (c.val == UInt32.ofNat k) = false := by
      intro k hk h
      simp only [beq_eq_false_iff_ne, ne_eq, ← UInt32.toNat_inj]
      intro h'
      apply h
      rw [show c.toNat = c.val.toNat from rfl, h', UInt32.toNat_ofNat', Nat.mod_eq_of_lt hk]
    have g : ∀ k : Nat, k < 4294967296 → decide (UInt32.ofNat k ≤ c.val) = decide (k ≤ c.toNat) := by
      intro k hk
      rw [decide_eq_decide, UInt32.le_iff_toNat_le, UInt32.toNat_ofNat', Nat.mod_eq_of_lt hk]
      rfl
    have g' : ∀ k : Nat, k < 4294967296 → decide (c.val ≤ UInt32.ofNat k) = decide (c.toNat ≤ k) := by
      intro k hk
      rw [decide_eq_decide, UInt32.le_iff_toNat_le, UInt32.toNat_ofNat', Nat.mod_eq_of_lt hk]
      rfl
    have e1 := e 0x20 (by omega) (by omega)
    have e2 := e 0x85 (by omega) (by omega)
    have e3 := e 0xA0 (by omega) (by omega)
    have e4 := e 0x1680 (by omega) (by omega)
    have e5 := e 0x2028 (by omega) (by omega)
    have e6 := e 0x2029 (by omega) (by omega)
    have e7 := e 0x202F (by omega) (by omega)
    have e8 := e 0x205F (by omega) (by omega)
    have e9 := e 0x3000 (by omega) (by omega)
    have e10 := g' 0xD (by omega)
    have e11 := g 0x2000 (by omega)
    rw [show decide (c.toNat ≤ 0xD) = false by simp; omega] at e10
    rw [show decide (0x2000 ≤ c.toNat) = false by simp; omega] at e11
    simp only [UInt32.reduceOfNat] at e1 e2 e3 e4 e5 e6 e7 e8 e9 e10 e11
    simp only [BParse.isWs, e1, e2, e3, e4, e5, e6, e7, e8, e9, e10, e11, Bool.and_false, Bool.false_and, Bool.or_false]
  · simp only [isAsciiWs, Bool.or_eq_false_iff, beq_eq_false_iff_ne]; omega
  · simp only [isNonCanonicalHorizontalWhitespace, Bool.or_eq_false_iff, beq_eq_false_iff_ne, Bool.and_eq_false_iff, decide_eq_false_iff_not]; omega

theorem class_same {c d : Char} (h : EitherCase c d) : BParse.isWs d = BParse.isWs c ∧ isAsciiWs d.toNat = isAsciiWs c.toNat ∧
    isNonCanonicalHorizontalWhitespace d = isNonCanonicalHorizontalWhitespace c := by
  rcases char_cases h with rfl | ⟨h1, h2, _⟩
  · exact ⟨rfl, rfl, rfl⟩
  · obtain ⟨a1, a2, a3⟩ := isWs_letter h1
    obtain ⟨c1, c2, c3⟩ := isWs_letter h2
    rw [a1, a2, a3, c1, c2, c3]
    exact ⟨rfl, rfl, rfl⟩

theorem encode_same {c d : Char} (h : EitherCase c d) : Same (Regex.encode c.toNat) (Regex.encode d.toNat) := by
  rcases char_cases h with rfl | ⟨h1, h2, h3⟩
  · exact refl_same _
  · unfold Regex.encode
    rw [if_pos (by omega), if_pos (by omega)]
    refine .cons ?_ .nil
    rw [lower_iff, ← UInt8.toNat_inj, asciiLower_toNat, asciiLower_toNat]
    have e1 : (c.toNat.toUInt8).toNat = c.toNat := by simp; omega
    have e2 : (d.toNat.toUInt8).toNat = d.toNat := by simp; omega
    rw [e1, e2]
    split_ifs <;> omega

theorem forall_append {α : Type} {S : α → α → Prop} : ∀ {a a' b b' : List α}, List.Forall₂ S a a' → List.Forall₂ S b b' → List.Forall₂ S (a ++ b) (a' ++ b')
  | _, _, _, _, .nil, h => h
  | _, _, _, _, .cons h hs, h2 => .cons h (forall_append hs h2)

theorem utf8_same : ∀ {s t : Str}, SameText s t → Same (Regex.utf8 s) (Regex.utf8 t)
  | _, _, .nil => .nil
  | _, _, .cons h hs => by
    have := forall_append (encode_same h) (utf8_same hs)
    simpa only [Regex.utf8, List.flatMap_cons] using this

theorem any_same {f : Char → Bool} (hf : ∀ c d, EitherCase c d → f d = f c) : ∀ {s t : Str}, SameText s t → t.any f = s.any f ∧ t.all f = s.all f
  | _, _, .nil => ⟨rfl, rfl⟩
  | _, _, .cons h hs => by
    obtain ⟨h1, h2⟩ := any_same hf hs
    simp only [List.any_cons, List.all_cons, hf _ _ h, h1, h2, and_self]

theorem either_refl (c : Char) : EitherCase c c := .inl rfl

theorem canon_same {s t : Str} (h : SameText s t) (strict : Bool) :
    SameText (canonicalizeHorizontalWhitespace s strict) (canonicalizeHorizontalWhitespace t strict) := by
  unfold canonicalizeHorizontalWhitespace
  rw [(any_same (fun c d h => (class_same h).2.2) h).1]
  split_ifs
  · exact h
  · unfold SameText
    rw [List.forall₂_map_left_iff, List.forall₂_map_right_iff]
    refine List.Forall₂.imp ?_ h
    intro c d h
    rw [(class_same h).2.2]
    split_ifs
    · exact .inl rfl
    · exact h
  · exact h

theorem litBytes_same {s t : Str} (h : SameText s t) (o : Opts) : Same (litBytes o s) (litBytes o t) := utf8_same (canon_same h _)

theorem empty_same {s t : Str} (h : SameText s t) : t.isEmpty = s.isEmpty := by cases h <;> rfl

theorem blank_same {s t : Str} (h : SameText s t) : (Script.trim t).isEmpty = (Script.trim s).isEmpty := by
  have := (any_same (f := BParse.isWs) (fun c d h => (class_same h).1) h).2
  rw [Bool.eq_iff_iff, Script.trim_empty, Script.trim_empty]
  unfold ScriptSpec.Blank
  rw [← List.all_eq_true, ← List.all_eq_true, this]

/-- Literals in another case compile to related matchers. -/
theorem compileLit_same {s t : Str} (h : SameText s t) {o : Opts} (ho : o.ignoreCase = true) {b b' : Buf} (hb : Same b b')
    {cf : Conf engine} (hic : cf.ignoreCase = true) (n : Nat) :
    RelP (OptSim (fun c c' : Compiled engine => PatSim Eq b b' (c.pat cf n) (c'.pat cf n))) (compileLit engine o s) (compileLit engine o t) := by
  have hws : compileLit engine o t = compileLit engine o s ∨
      (compileLit engine o s = .ok (some (.substring (litBytes o s))) ∧ compileLit engine o t = .ok (some (.substring (litBytes o t)))) := by
    unfold compileLit
    rw [empty_same h, blank_same h, (any_same (f := fun c => isAsciiWs c.toNat) (fun c d h => (class_same h).2.1) h).2]
    split_ifs
    · exact .inl rfl
    · exact .inl rfl
    · exact .inl rfl
    · exact .inr ⟨rfl, rfl⟩
  rcases hws with e | ⟨e1, e2⟩
  · rw [e]
    cases hc : compileLit engine o s with
    | error p => exact rfl
    | ok u =>
      cases u with
      | none => exact trivial
      | some c => exact comp_sim hb hic (compileLit_blind ho hc) n
  · rw [e1, e2]
    show PatSim Eq b b' (litPat cf.ignoreCase _ n) (litPat cf.ignoreCase _ n)
    rw [hic]
    exact lit_sim hb (litBytes_same h o) n

/-! ## Sets -/

theorem boundary_same {b b' : Buf} (hb : Same b b') (i : Nat) : isBoundary b' i = isBoundary b i := by
  unfold isBoundary
  rcases Nat.lt_or_ge i b.length with h | h
  · have h' : i < b'.length := by rw [← hb.length_eq]; exact h
    have e := List.Forall₂.get hb h h'
    simp only [List.get_eq_getElem] at e
    rw [List.getElem?_eq_getElem h, List.getElem?_eq_getElem h']
    dsimp only
    rcases letter_cases e with e | ⟨h1, h2, _⟩
    · rw [e]
    · simp [Regex.isCont, Nat.not_le.2 h1, Nat.not_le.2 h2]
  · rw [List.getElem?_eq_none_iff.2 h, List.getElem?_eq_none_iff.2 (by rw [← hb.length_eq]; exact h)]

theorem setHits_same {b b' : Buf} (hb : Same b b') (rxs : List SetRx) (lo hi : Nat) : setHits true rxs b' lo hi = setHits true rxs b lo hi := by
  have e : ∀ (x : SetRx × Nat) (s e : Nat), hits true x.1.re b' hi s e = hits true x.1.re b hi s e := by
    intro x s e
    unfold hits
    rw [ends_same hb, boundary_same hb]
  simp only [setHits, e]

theorem setMatch_same {b b' : Buf} {rxs : List SetRx} (hc : ∀ r ∈ rxs, r.caps = []) (rest : List (Nat × Nat × Nat)) (x : Nat × Nat × Nat) :
    setMatch true rxs b' rest x = setMatch true rxs b rest x := by
  have e : (rxs.all fun r => r.caps.isEmpty) = true := by
    rw [List.all_eq_true]
    intro r hr
    rw [hc r hr]
    rfl
  unfold setMatch
  rw [e]
  rfl

theorem visitRx_same {b b' : Buf} {rxs : List SetRx} (hc : ∀ r ∈ rxs, r.caps = []) : ∀ (xs : List (Nat × Nat × Nat)) (ms : Matches) (env : Vars),
    visitRx true rxs b' xs ms env = visitRx true rxs b xs ms env
  | [], ms, env => rfl
  | x :: xs, ms, env => by
    rw [visitRx.eq_def, visitRx.eq_def (b := b)]
    dsimp only
    rw [setMatch_same (b := b) hc]
    cases setMatch true rxs b xs x with
    | panic p => rfl
    | err => rfl
    | failed st m => rfl
    | found st le i vals =>
      dsimp only
      split_ifs
      · exact visitRx_same hc xs _ _
      · exact visitRx_same hc xs _ _
      · rfl
      · exact visitRx_same hc xs _ _

theorem findSet_nil (b : Buf) (stop : Nat) : ∀ (n p : Nat), findSet false [] b stop n p = none
  | 0, p => rfl
  | n + 1, p => by
    unfold findSet
    exact findSet_nil b stop n (p + 1)

theorem forall_mem {α β : Type} {S : α → β → Prop} : ∀ {l : List α} {l' : List β}, List.Forall₂ S l l' → ∀ {y : β}, y ∈ l' → ∃ x ∈ l, S x y
  | _, _, .nil, y, h => by simp at h
  | _, _, .cons h hs, y, hy => by
    rcases List.mem_cons.1 hy with rfl | hy
    · exact ⟨_, List.mem_cons_self, h⟩
    · obtain ⟨x, hx, e⟩ := forall_mem hs hy
      exact ⟨x, List.mem_cons_of_mem _ hx, e⟩

/-- The prefixes of a set. -/
theorem set_cases {o : Opts} {ps : List (CPat × Nat)} {set : MatchSet} (hp : ∀ x ∈ ps, Plain x.1) (h : compileSet o ps = .ok (some set)) :
    ((∃ lits, set = .literal lits) ∨ ∃ rxs, set = .regex rxs ∧ ∀ r ∈ rxs, r.caps = []) ∧
      ((∀ x ∈ ps, ∃ s, compact x.1 = .rx ⟨s, []⟩) → ∀ lits, set = .literal lits → lits = []) := by
  unfold compileSet at h
  obtain ⟨u, h1, h2⟩ := bind_ok.1 h
  cases u with
  | none => simp at h2
  | some u =>
    obtain ⟨u, sfx⟩ := u
    dsimp only at h2
    have hpop : ∀ x ∈ ps, (popPrefix (compact x.1)).2 = [] := by
      intro x hx
      rcases compact_plain (hp x hx) with ⟨_, e⟩ | ⟨s, e⟩ | ⟨s, e⟩ <;> rw [e] <;> rfl
    obtain ⟨a1, _, a3, _⟩ := collect_static ps 0 [] [] hpop rfl h1
    have hu : ∀ x ∈ u, x.1 = .empty ∨ (∃ s, x.1 = .lit s) ∨ ∃ s, x.1 = .rx ⟨s, []⟩ := by
      intro x hx
      rcases a3 x hx with h | ⟨y, hy, e, _⟩
      · simp at h
      · rw [e]
        rcases compact_plain (hp y hy) with ⟨_, e⟩ | ⟨s, e⟩ | ⟨s, e⟩ <;> rw [e]
        · exact .inl rfl
        · exact .inr (.inl ⟨s, rfl⟩)
        · exact .inr (.inr ⟨s, rfl⟩)
    have hrx : (∀ x ∈ ps, ∃ s, compact x.1 = .rx ⟨s, []⟩) → ∀ x ∈ u, ∃ r, x.1 = .rx r := by
      intro h x hx
      rcases a3 x hx with h | ⟨y, hy, e, _⟩
      · simp at h
      · obtain ⟨s, e'⟩ := h y hy
        rw [e'] at e
        exact ⟨_, e⟩
    have hsingle : (sfx.all fun ss => ss.all fun s => isAlways s.1) = true := a1
    unfold classify at h2
    dsimp only at h2
    rw [hsingle] at h2
    simp only [if_true] at h2
    split_ifs at h2 with c1 c2 c3
    · simp only [Except.ok.injEq, Option.some.injEq] at h2
      subst h2
      refine ⟨.inl ⟨_, rfl⟩, ?_⟩
      intro h lits hl
      have h3 := hrx h
      cases u with
      | nil => simp [setLits] at hl; exact hl
      | cons x u =>
        obtain ⟨r, e⟩ := h3 x (by simp)
        simp [e, Prefix.isLit] at c1
    · split at h2
      · simp at h2
      · rename_i rxs hm
        simp only [Except.ok.injEq, Option.some.injEq] at h2
        subst h2
        refine ⟨.inr ⟨rxs, rfl, ?_⟩, by simp⟩
        intro r hr
        have hf := mapM_forall₂ hm
        obtain ⟨x, hx, hb⟩ := forall_mem hf hr
        unfold buildSetRx at hb
        rcases hu x hx with e | ⟨s, e⟩ | ⟨s, e⟩ <;> rw [e] at hb
        · simp at hb
        · simp only [Option.map_eq_some_iff] at hb
          obtain ⟨_, _, rfl⟩ := hb
          rfl
        · simp only [Option.map_eq_some_iff] at hb
          obtain ⟨_, _, rfl⟩ := hb
          rfl
    · exfalso
      apply c3
      rw [List.all_eq_true]
      intro x hx
      rcases hu x hx with e | ⟨s, e⟩ | ⟨s, e⟩ <;> rw [e] <;> rfl

theorem not_set {b b' : Buf} (hb : Same b b') {o : Opts} {ps : List (CPat × Nat)} {set : MatchSet} (hp : ∀ x ∈ ps, Plain x.1)
    (h : compileSet o ps = .ok (some set)) (cfs : Nat → Conf engine) : PatSim Eq b b' (anyPat true cfs set) (anyPat true cfs set) := by
  refine run_sim ?_ rfl rfl
  intro r e
  have key : anyOut true cfs set b' r e = anyOut true cfs set b r e := by
    rcases (set_cases hp h).1 with ⟨lits, rfl⟩ | ⟨rxs, rfl, hc⟩
    · unfold anyOut litAny
      dsimp only
      rw [findSet_same hb (refls_same _)]
    · unfold anyOut
      dsimp only
      have e1 : startSearch true (.regex rxs) b' r = startSearch true (.regex rxs) b r := by
        unfold startSearch
        dsimp only
        rw [setHits_same hb]
      rw [e1]
      have e2 : nextMatch true cfs (.regex rxs) b' r e (startSearch true (.regex rxs) b r) =
          nextMatch true cfs (.regex rxs) b r e (startSearch true (.regex rxs) b r) := by
        unfold startSearch
        dsimp only
        cases setHits true rxs b r.start r.stop with
        | nil => rfl
        | cons x xs =>
          unfold nextMatch
          dsimp only
          rw [setMatch_same (b := b) hc]
      rw [e2]
  unfold anyPat
  dsimp only
  rw [key]

theorem dag_set {b b' : Buf} (hb : Same b b') {o : Opts} {ps : List (CPat × Nat)} {set : MatchSet} (hp : ∀ x ∈ ps, Plain x.1)
    (hrx : ∀ x ∈ ps, ∃ s, compact x.1 = .rx ⟨s, []⟩) (h : compileSet o ps = .ok (some set)) (cfs : Nat → Conf engine) (vs : Bool) :
    DagSim Eq b b' (setDag true cfs vs set) (setDag true cfs vs set) := by
  rintro r e _ rfl
  have key : dagOut true cfs vs set b' r e = dagOut true cfs vs set b r e := by
    obtain ⟨h1, h2⟩ := set_cases hp h
    rcases h1 with ⟨lits, rfl⟩ | ⟨rxs, rfl, hc⟩
    · rw [h2 hrx lits rfl]
      have : ∀ c : Buf, visitLoop [] c r.stop (r.stop - r.start + 1) r.start [] = some ([], none) := by
        intro c
        unfold visitLoop
        dsimp only
        rw [show List.map Prod.fst ([] : List (Buf × Nat)) = [] from rfl, findSet_nil]
        rfl
      unfold dagOut litDag
      dsimp only
      rw [this, this]
    · unfold dagOut
      dsimp only
      rw [setHits_same hb, visitRx_same (b := b) hc]
  unfold setDag
  dsimp only
  rw [key]
  cases dagOut true cfs vs set b r e with
  | result ms pos env' => exact .inr ⟨_, _, _, _, rfl, rfl, rfl⟩
  | err => exact .inl ⟨rfl, rfl⟩
  | panic p => exact .inl ⟨rfl, rfl⟩
  | hang => exact .inl ⟨rfl, rfl⟩

/-! ## Check files -/

theorem fold_lit : ∀ (ps : List Part) {st : CSt}, (∀ x ∈ ps, ∀ m, x ≠ Part.match_ m) → st.litMode = false ∨ (∃ x ∈ ps, IsRegex x) →
    (ps.foldl compactStep st).litMode = false
  | [], st, _, h => by rcases h with h | ⟨x, hx, _⟩; exact h; simp at hx
  | x :: ps, st, hm, h => by
    rw [List.foldl_cons]
    refine fold_lit ps (fun y hy => hm y (by simp [hy])) ?_
    cases x with
    | literal s =>
      rcases h with h | ⟨y, hy, hr⟩
      · exact .inl h
      · rcases List.mem_cons.1 hy with rfl | hy
        · exact hr.elim
        · exact .inr ⟨y, hy, hr⟩
    | regex s => exact .inl rfl
    | match_ m => exact absurd rfl (hm (.match_ m) (by simp) m)

theorem plain_of {p : CPat} (h : ∀ x ∈ partsOf p, TextOrRegex x) : Plain p := by
  rintro x hx m rfl
  exact h _ hx

theorem compact_regex {p : CPat} (h : ∀ x ∈ partsOf p, TextOrRegex x) (hr : ∃ x ∈ partsOf p, IsRegex x) : ∃ s, compact p = .rx ⟨s, []⟩ := by
  rcases compact_plain (plain_of h) with ⟨e, _⟩ | ⟨s, e⟩ | h
  · obtain ⟨x, hx, _⟩ := hr
    rw [e] at hx
    simp at hx
  · exfalso
    cases p with
    | empty => obtain ⟨x, hx, _⟩ := hr; simp [partsOf] at hx
    | literal t =>
      obtain ⟨x, hx, hx'⟩ := hr
      simp only [partsOf, List.mem_singleton] at hx
      subst hx
      exact hx'
    | regex t => simp [compact] at e
    | match_ ps =>
      cases ps with
      | nil => obtain ⟨x, hx, _⟩ := hr; simp [partsOf] at hx
      | cons q qs =>
        have hl := fold_lit (q :: qs) (st := ⟨[], [], [], true⟩) (plain_of h) (.inr hr)
        rw [show compact (.match_ (q :: qs)) = (if ((q :: qs).foldl compactStep ⟨[], [], [], true⟩).out.isEmpty then
          if ((q :: qs).foldl compactStep ⟨[], [], [], true⟩).litMode then .lit ((q :: qs).foldl compactStep ⟨[], [], [], true⟩).text
          else .rx ⟨((q :: qs).foldl compactStep ⟨[], [], [], true⟩).text, ((q :: qs).foldl compactStep ⟨[], [], [], true⟩).caps⟩
          else .parts ((q :: qs).foldl compactStep ⟨[], [], [], true⟩).flush) from rfl, hl] at e
        split_ifs at e <;> first | contradiction | simp at e
  · exact h

/-- The patterns of sets which the claim is about. -/
def SetOk (k : Kind) (p : CPat) : Prop :=
  (∀ x ∈ partsOf p, TextOrRegex x) ∧ (k = .dag → ∃ x ∈ partsOf p, IsRegex x)

theorem free_captures {l : CLine} (h : CaseFree l) : ∀ x ∈ partsOf l.pattern, ¬ Spec.Captures x := by
  have ht : ∀ x : Part, TextOrRegex x → ¬ Spec.Captures x := by
    intro x hx hc
    cases x with
    | literal s => exact hc
    | regex s => exact hc
    | match_ m => exact hx
  unfold CaseFree at h
  split at h
  · exact fun x hx => ht x (h x hx)
  · exact fun x hx => ht x (h.1 x hx)
  · exact h

theorem cline_sim {run : Run} (ho : run.opts.ignoreCase = true) {b b' : Buf} (hb : Same b b') {l l' : CLine} (hf : CaseFree l) (hs : SameCheck l l') :
    CLineSim Eq b b' run SetOk l l' := by
  have hic : ∀ n, (run.conf n).ignoreCase = true := fun n => ho
  have hcap := free_captures hf
  have opt : ∀ {n : Nat} {k : Kind} {u : P (Option (Compiled engine))}, (∀ c, u = .ok (some c) → CompBlind c) →
      RelP (OptSim (fun x x' : Line Vars => x'.kind = x.kind ∧ PatSim Eq b b' x.pat x'.pat))
        (do .ok ((← u).map fun c => ⟨k, c.pat (run.conf n) n, []⟩)) (do .ok ((← u).map fun c => ⟨k, c.pat (run.conf n) n, []⟩)) := by
    intro n k u hu
    rcases u with p | _ | c
    · exact rfl
    · exact trivial
    · exact ⟨rfl, comp_sim hb (hic n) (hu c rfl) n⟩
  rcases hs with rfl | ⟨hk, hl, hn, hd, s, t, h1, h2, hst⟩
  · refine ⟨rfl, ?_, ?_⟩
    · rintro (hk | hk)
      · refine ⟨rfl, ?_, by rw [hk]; simp⟩
        unfold CaseFree at hf
        rw [hk] at hf
        exact hf
      · unfold CaseFree at hf
        rw [hk] at hf
        exact ⟨rfl, hf.1, fun _ => hf.2⟩
    · intro n
      unfold compileLine
      split
      · exact ⟨rfl, none_sim⟩
      · exact ⟨rfl, none_sim⟩
      · exact ⟨rfl, none_sim⟩
      · exact opt fun c hc => static_blind ho hcap hc
      · dsimp only
        split_ifs
        · exact opt fun c hc => literal_blind hc
        · exact opt fun c hc => compile_blind ho hcap hc
  · refine ⟨hk, by rintro (h | h) <;> contradiction, ?_⟩
    intro n
    have hlit : RelP (OptSim (fun c c' : Compiled engine => PatSim Eq b b' (c.pat (run.conf n) n) (c'.pat (run.conf n) n)))
        (if s.isEmpty then .error .assertFailed else .ok (some (.substring (litBytes run.opts s))))
        (if t.isEmpty then .error .assertFailed else .ok (some (.substring (litBytes run.opts t)))) := by
      rw [empty_same hst]
      split_ifs
      · exact rfl
      · show PatSim Eq b b' (litPat (run.conf n).ignoreCase _ n) (litPat (run.conf n).ignoreCase _ n)
        rw [hic]
        exact lit_sim hb (litBytes_same hst _) n
    have opt2 : ∀ {k : Kind} {u v : P (Option (Compiled engine))},
        RelP (OptSim (fun c c' : Compiled engine => PatSim Eq b b' (c.pat (run.conf n) n) (c'.pat (run.conf n) n))) u v →
        RelP (OptSim (fun x x' : Line Vars => x'.kind = x.kind ∧ PatSim Eq b b' x.pat x'.pat))
          (do .ok ((← u).map fun c => ⟨k, c.pat (run.conf n) n, []⟩)) (do .ok ((← v).map fun c => ⟨k, c.pat (run.conf n) n, []⟩)) := by
      intro k u v huv
      refine RelP.bind huv ?_
      intro a c hac
      rcases a with _ | a <;> rcases c with _ | c <;> simp only [OptSim] at hac
      · exact trivial
      · exact ⟨rfl, hac⟩
    unfold compileLine
    rw [hk, hl, h1, h2]
    split
    · exact ⟨rfl, none_sim⟩
    · exact ⟨rfl, none_sim⟩
    · exact ⟨rfl, none_sim⟩
    · exact opt2 hlit
    · dsimp only
      split_ifs
      · exact opt2 hlit
      · exact opt2 (compileLit_same hst ho hb (hic n) n)

/-- `--ignore-case`: the verdict does not depend on the case of letters. -/
theorem lines_same {run : Run} (ho : run.opts.ignoreCase = true) {b b' : Buf} (hb : Same b b') {ls ls' : List CLine} (hf : ∀ l ∈ ls, CaseFree l)
    (hs : List.Forall₂ SameCheck ls ls') (imp : List Str) (env : Vars) : verifyLines run imp ls' env b' = verifyLines run imp ls env b := by
  refine verifyLines_sim (R := Eq) (G := SetOk) (same_lines hb) ?_ ?_ (by rintro e _ rfl; rfl) ?_ ?_ rfl
  · intro ps set hp hc
    rw [ho]
    exact not_set hb (fun x hx => plain_of (hp x hx).1) hc _
  · intro ps set hp hc
    rw [ho]
    exact dag_set hb (fun x hx => plain_of (hp x hx).1) (fun x hx => compact_regex (hp x hx).1 ((hp x hx).2 rfl)) hc _ _
  · intro _
    refine ⟨?_, by simp⟩
    intro x hx
    simp only [partsOf, List.mem_singleton] at hx
    subst hx
    exact trivial
  · have : ∀ {ls ls' : List CLine}, List.Forall₂ SameCheck ls ls' → (∀ l ∈ ls, CaseFree l) → List.Forall₂ (CLineSim Eq b b' run SetOk) ls ls' := by
      intro ls ls' h
      induction h with
      | nil => intro _; exact .nil
      | cons h hs ih => intro hf; exact .cons (cline_sim ho hb (hf _ List.mem_cons_self) h) (ih fun l hl => hf l (List.mem_cons_of_mem _ hl))
    exact this hs hf

end Litcheck.NoCase
