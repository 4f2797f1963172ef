import Verif.Proofs.SimulateFile
import Verif.Proofs.Script
import Verif.Spec.Spaces
import Verif.Props.Text

/-!
# Horizontal white space in check files
-/

namespace Litcheck.Spaces
open Spec Simulate
open Litcheck.Smart Litcheck.Pattern Litcheck.Sets
open Litcheck.Regex (engine)
open Litcheck.Lex (Part Match CPat CLine)

theorem pat_refl {b : Buf} (p : Pat Vars) : PatSim Eq b b p p := by
  refine ⟨?_, rfl, rfl⟩
  rintro r e _ rfl
  exact ⟨rfl, rfl⟩

theorem dag_refl {b : Buf} (x : Dag Vars) : DagSim Eq b b x x := by
  rintro r e _ rfl
  cases h : x.run b r e with
  | none => exact .inl ⟨rfl, rfl⟩
  | some y => exact .inr ⟨y.1, y.2.1, y.2.2, y.2.2, rfl, rfl, rfl⟩

theorem lines_refl {b : Buf} : SameLines b b := List.forall₂_same.2 fun _ _ => ⟨Iff.rfl, Iff.rfl⟩

/-- Lines which compile to the same matchers, with the same patterns for `CHECK-NOT` and `CHECK-DAG`: the same verdict. -/
theorem verifyLines_congr {run : Run} {ls ls' : List CLine}
    (h : List.Forall₂ (fun l l' => l'.kind = l.kind ∧ (l.kind = .not ∨ l.kind = .dag → l'.pattern = l.pattern) ∧
      ∀ n, compileLine run l' n = compileLine run l n) ls ls') (imp : List Str) (env : Vars) (b : Buf) :
    verifyLines run imp ls' env b = verifyLines run imp ls env b := by
  refine verifyLines_sim (R := Eq) (G := fun _ _ => True) lines_refl (fun _ _ _ _ => pat_refl _) (fun _ _ _ _ => dag_refl _)
    (by rintro e _ rfl; rfl) (fun _ => trivial) ?_ rfl
  refine List.Forall₂.imp ?_ h
  rintro l l' ⟨h1, h2, h3⟩
  refine ⟨h1, fun hk => ⟨h2 hk, trivial⟩, ?_⟩
  intro n
  rw [h3]
  refine RelP.self _ ?_
  intro o
  cases o with
  | none => exact trivial
  | some x => exact ⟨rfl, pat_refl _⟩

/-! ## The same text but for white space -/

theorem space_ws {c : Char} (h : HSpace c) : BParse.isWs c = true := by
  have : ∀ n ∈ horizontalSpaces, ∀ c : Char, c.toNat = n → BParse.isWs c = true := by
    intro n hn c hc
    have hv : c.val = UInt32.ofNat n := by
      rw [← UInt32.toNat_inj, UInt32.toNat_ofNat', ← hc]
      exact (Nat.mod_eq_of_lt c.val.toNat_lt).symm
    unfold BParse.isWs
    rw [hv]
    clear hv hc c
    revert n
    decide
  exact this _ h c rfl

theorem blank_space : ∀ {s t : Str}, SameUpToSpace s t → (ScriptSpec.Blank s ↔ ScriptSpec.Blank t)
  | _, _, .nil => Iff.rfl
  | x :: s, y :: t, .cons h hs => by
    have ih := blank_space hs
    unfold ScriptSpec.Blank at ih ⊢
    simp only [List.forall_mem_cons, ih]
    rcases h with rfl | ⟨h1, h2⟩
    · exact Iff.rfl
    · simp [space_ws h1, space_ws h2]

theorem space_empty {s t : Str} (h : SameUpToSpace s t) : t.isEmpty = s.isEmpty := by cases h <;> rfl

theorem space_bytes {s t : Str} (h : SameUpToSpace s t) {o : Opts} (ho : o.strictWs = false) : litBytes o t = litBytes o s := by
  unfold litBytes
  rw [ho, (C20_equal_iff s t).2 h]

theorem space_append {s t s' t' : Str} (h : SameUpToSpace s t) (h' : SameUpToSpace s' t') : SameUpToSpace (s ++ s') (t ++ t') := by
  induction h with
  | nil => exact h'
  | cons h hs ih => exact .cons h ih

theorem lit_space {s t : Str} (h : SameUpToSpace s t) (hs : ¬ ScriptSpec.Blank s) {o : Opts} (ho : o.strictWs = false) :
    compileLit engine o t = compileLit engine o s := by
  unfold compileLit
  rw [space_empty h, space_bytes h ho, if_neg (mt (Script.trim_empty s).1 hs), if_neg (mt (Script.trim_empty t).1 (mt (blank_space h).2 hs))]

/-! ## Patterns with variables -/

/-- The same part, but for white space. -/
inductive CSpace : CPart → CPart → Prop
  | lit {s t : Str} : SameUpToSpace s t → CSpace (.lit s) (.lit t)
  | dyn {m : Match} : CSpace (.dyn m) (.dyn m)

/-- The same state of `compact`, but for white space. -/
structure SSpace (st st' : CSt) : Prop where
  out : List.Forall₂ CSpace st.out st'.out
  text : SameUpToSpace st.text st'.text
  caps : st.caps = [] ∧ st'.caps = []
  mode : st.litMode = true ∧ st'.litMode = true

theorem fa_append {α : Type} {S : α → α → Prop} {a a' b b' : List α} (h : List.Forall₂ S a a') (h' : List.Forall₂ S b b') :
    List.Forall₂ S (a ++ b) (a' ++ b') := by
  induction h with
  | nil => exact h'
  | cons h hs ih => exact .cons h ih

theorem SSpace.flush {st st' : CSt} (h : SSpace st st') : List.Forall₂ CSpace st.flush st'.flush := by
  unfold CSt.flush
  rw [space_empty h.text, h.mode.1, h.mode.2]
  simp only [if_true]
  split_ifs
  · exact h.out
  · exact fa_append h.out (.cons (.lit h.text) .nil)

theorem SSpace.step {st st' : CSt} (h : SSpace st st') {x y : Part} (hxy : SpacePart x y) (hx : TextOrUse x) :
    SSpace (compactStep st x) (compactStep st' y) := by
  cases x with
  | regex s => exact hx.elim
  | literal s =>
    cases y with
    | literal t =>
      refine ⟨h.out, ?_, h.caps, h.mode⟩
      show SameUpToSpace (st.text ++ if st.litMode then s else Regex.escape s) (st'.text ++ if st'.litMode then t else Regex.escape t)
      rw [h.mode.1, h.mode.2]
      exact space_append h.text hxy
    | regex t => exact absurd (show Part.literal s = Part.regex t from hxy) (by simp)
    | match_ m => exact absurd (show Part.literal s = Part.match_ m from hxy) (by simp)
  | match_ m =>
    have hy : Part.match_ m = y := hxy
    subst hy
    have key : compactStep st (.match_ m) = ⟨st.flush ++ [.dyn m], [], [], true⟩ ∧ compactStep st' (.match_ m) = ⟨st'.flush ++ [.dyn m], [], [], true⟩ := by
      cases m with
      | substitution name o =>
        cases o with
        | none => exact ⟨rfl, rfl⟩
        | some s => exact hx.elim
      | numeric f c e =>
        cases e with
        | none => cases c <;> exact hx.elim
        | some e => cases c <;> exact ⟨rfl, rfl⟩
    rw [key.1, key.2]
    exact ⟨fa_append h.flush (.cons .dyn .nil), .nil, ⟨rfl, rfl⟩, ⟨rfl, rfl⟩⟩

theorem SSpace.fold : ∀ {ps qs : List Part}, List.Forall₂ SpacePart ps qs → (∀ x ∈ ps, TextOrUse x) → ∀ {st st' : CSt}, SSpace st st' →
    SSpace (ps.foldl compactStep st) (qs.foldl compactStep st')
  | _, _, .nil, _, _, _, h => h
  | _, _, .cons hx hs, hu, _, _, h => SSpace.fold hs (fun x hx => hu x (List.mem_cons_of_mem _ hx)) (h.step hx (hu _ List.mem_cons_self))

theorem lower_space {o : Opts} (ho : o.strictWs = false) : ∀ {ps qs : List CPart}, List.Forall₂ CSpace ps qs → lowerParts engine o qs = lowerParts engine o ps
  | _, _, .nil => rfl
  | _, _, .cons h hs => by
    have ih := lower_space ho hs
    cases h with
    | dyn => simp only [lowerParts, ih]
    | lit h =>
      unfold lowerParts
      rw [ih]
      unfold lowerPart buildLiteral
      dsimp only
      rw [space_empty h, space_bytes h ho]

/-- Something was seen: a variable, or text which is not blank. -/
def Seen (st : CSt) : Prop := st.out ≠ [] ∨ ¬ ScriptSpec.Blank st.text

theorem seen_step {st : CSt} (hm : st.litMode = true) {x : Part} (hx : TextOrUse x) (h : Seen st ∨ Shows x) :
    Seen (compactStep st x) ∧ (compactStep st x).litMode = true := by
  cases x with
  | regex s => exact hx.elim
  | literal s =>
    refine ⟨?_, hm⟩
    rcases h with (h | h) | h
    · exact .inl h
    · right
      intro hb
      apply h
      intro c hc
      exact hb c (List.mem_append_left _ hc)
    · right
      intro hb
      apply h
      intro c hc
      refine hb c (List.mem_append_right _ ?_)
      rw [hm]
      exact hc
  | match_ m =>
    have key : compactStep st (.match_ m) = ⟨st.flush ++ [.dyn m], [], [], true⟩ := by
      cases m with
      | substitution name o =>
        cases o with
        | none => rfl
        | some s => exact hx.elim
      | numeric f c e =>
        cases e with
        | none => cases c <;> exact hx.elim
        | some e => cases c <;> rfl
    rw [key]
    exact ⟨.inl (by simp), rfl⟩

theorem seen_keep {st : CSt} (hm : st.litMode = true) {x : Part} (hx : TextOrUse x) : (compactStep st x).litMode = true := by
  cases x with
  | regex s => exact hx.elim
  | literal s => exact hm
  | match_ m =>
    cases m with
    | substitution name o =>
      cases o with
      | none => rfl
      | some s => exact hx.elim
    | numeric f c e =>
      cases e with
      | none => cases c <;> exact hx.elim
      | some e => cases c <;> rfl

theorem seen_fold : ∀ (ps : List Part) {st : CSt}, st.litMode = true → (∀ x ∈ ps, TextOrUse x) → (Seen st ∨ ∃ x ∈ ps, Shows x) →
    Seen (ps.foldl compactStep st)
  | [], st, _, _, h => by rcases h with h | ⟨x, hx, _⟩; exact h; simp at hx
  | x :: ps, st, hm, hu, h => by
    rw [List.foldl_cons]
    have hx := hu x (by simp)
    refine seen_fold ps (seen_keep hm hx) (fun y hy => hu y (by simp [hy])) ?_
    rcases h with h | ⟨y, hy, hs⟩
    · exact .inl (seen_step hm hx (.inl h)).1
    · rcases List.mem_cons.1 hy with rfl | hy
      · exact .inl (seen_step hm hx (.inr hs)).1
      · exact .inr ⟨y, hy, hs⟩

theorem compact_cons (q : Part) (qs : List Part) (st : CSt) (h : (q :: qs).foldl compactStep ⟨[], [], [], true⟩ = st) :
    compact (.match_ (q :: qs)) = if st.out.isEmpty then if st.litMode then .lit st.text else .rx ⟨st.text, st.caps⟩ else .parts st.flush := by
  subst h
  rfl

/-- The patterns after `compact`. -/
theorem compact_space {p q : CPat} (h : SpacePattern p q) :
    (∃ s t, compact p = .lit s ∧ compact q = .lit t ∧ SameUpToSpace s t ∧ ¬ ScriptSpec.Blank s) ∨
      ∃ ps qs, compact p = .parts ps ∧ compact q = .parts qs ∧ List.Forall₂ CSpace ps qs := by
  cases h with
  | text h1 h2 => exact .inl ⟨_, _, rfl, rfl, h1, h2⟩
  | parts h1 h2 h3 =>
    cases h1 with
    | nil => obtain ⟨x, hx, _⟩ := h3; simp at hx
    | @cons x y xs ys hx hxs =>
      have hs := SSpace.fold (.cons hx hxs) h2 (st := ⟨[], [], [], true⟩) (st' := ⟨[], [], [], true⟩) ⟨.nil, .nil, ⟨rfl, rfl⟩, ⟨rfl, rfl⟩⟩
      have hseen := seen_fold (x :: xs) (st := ⟨[], [], [], true⟩) rfl h2 (.inr h3)
      rw [compact_cons x xs _ rfl, compact_cons y ys _ rfl]
      generalize (x :: xs).foldl compactStep ⟨[], [], [], true⟩ = st at hs hseen
      generalize (y :: ys).foldl compactStep ⟨[], [], [], true⟩ = st' at hs
      have hoe : st'.out.isEmpty = st.out.isEmpty := by have := hs.out; cases hh : st.out <;> cases hh' : st'.out <;> simp_all
      rw [hoe, hs.mode.1, hs.mode.2]
      simp only [if_true]
      split_ifs with he
      · refine .inl ⟨_, _, rfl, rfl, hs.text, ?_⟩
        rcases hseen with h | h
        · exact absurd (List.isEmpty_iff.1 he) h
        · exact h
      · exact .inr ⟨_, _, rfl, rfl, hs.flush⟩

theorem line_space {run : Run} (ho : run.opts.strictWs = false) {l l' : CLine} (h : SpaceCheck l l') :
    l'.kind = l.kind ∧ (l.kind = .not ∨ l.kind = .dag → l'.pattern = l.pattern) ∧ ∀ n, compileLine run l' n = compileLine run l n := by
  rcases h with rfl | ⟨h1, h2, h3, h4, h5⟩
  · exact ⟨rfl, fun _ => rfl, fun _ => rfl⟩
  · refine ⟨h1, by rintro (h | h) <;> contradiction, ?_⟩
    intro n
    have e1 : Pattern.compile engine run.opts l'.pattern = Pattern.compile engine run.opts l.pattern := by
      unfold Pattern.compile
      rcases compact_space h5 with ⟨s, t, c1, c2, c3, c4⟩ | ⟨ps, qs, c1, c2, c3⟩
      · rw [c1, c2]
        exact lit_space c3 c4 ho
      · rw [c1, c2]
        dsimp only
        rw [lower_space ho c3]
    have e2 : compileStatic engine run.opts l'.pattern = compileStatic engine run.opts l.pattern := by
      unfold compileStatic
      rcases compact_space h5 with ⟨s, t, c1, c2, c3, c4⟩ | ⟨ps, qs, c1, c2, c3⟩
      · rw [c1, c2]
        dsimp only
        rw [space_empty c3, space_bytes c3 ho]
      · rw [c1, c2]
    have e3 : compileLiteral engine run.opts l'.pattern = compileLiteral engine run.opts l.pattern := by
      unfold compileLiteral
      generalize l.pattern = u at h5
      generalize l'.pattern = v at h5
      cases h5 with
      | text h _ => dsimp only; rw [space_empty h, space_bytes h ho]
      | parts _ _ _ => rfl
    unfold compileLine
    rw [h1, h2, e1, e2, e3]

/-- Check files which differ only in white space. -/
theorem lines_space {run : Run} (ho : run.opts.strictWs = false) {ls ls' : List CLine} (h : List.Forall₂ SpaceCheck ls ls') (imp : List Str)
    (env : Vars) (b : Buf) : verifyLines run imp ls' env b = verifyLines run imp ls env b :=
  verifyLines_congr (List.Forall₂.imp (fun _ _ h => line_space ho h) h) imp env b

end Litcheck.Spaces
