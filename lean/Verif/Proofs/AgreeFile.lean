import Verif.Proofs.AgreeRun

/-!
# Environments which agree: check files
-/

namespace Litcheck.AgreeSpec
open Spec Simulate PatternSpec
open Litcheck.Regex (Re engine)
open Litcheck.Smart Litcheck.Pattern Litcheck.Sets
open Litcheck.Lex (Part Match CPat CLine VarName Expr)

variable {S : VarName → Prop} {o : Opts}

/-- The part asks only for variables of `S`. -/
def PartIn (S : VarName → Prop) : CPart → Prop
  | .dyn m => ∀ x ∈ needs (.match_ m), S x
  | _ => True

/-- The pattern asks only for variables of `S`. -/
def CompactIn (S : VarName → Prop) : Compact → Prop
  | .parts ps => ∀ p ∈ ps, PartIn S p
  | _ => True

theorem lowerMatch_in {m : Match} (hm : ∀ x ∈ needs (.match_ m), S x) {ops : List (MOp engine)} (h : lowerMatch engine o m = .ok (some ops)) :
    ∀ op ∈ ops, ∀ x ∈ opReads op, S x := by
  unfold lowerMatch at h
  split at h
  · simp only [Except.ok.injEq, Option.some.injEq] at h
    subst h
    intro op hop
    simp only [List.mem_singleton] at hop
    subst hop
    exact hm
  · split at h
    · simp at h
    · simp only [Except.ok.injEq, Option.some.injEq] at h
      subst h
      intro op hop x hx
      simp only [List.mem_cons, List.not_mem_nil, or_false] at hop
      rcases hop with rfl | rfl <;> simp [opReads] at hx
  · simp only [Except.ok.injEq, Option.some.injEq] at h
    subst h
    intro op hop x hx
    simp only [List.mem_singleton] at hop
    subst hop
    simp [opReads] at hx
  · simp only [Except.ok.injEq, Option.some.injEq] at h
    subst h
    intro op hop
    simp only [List.mem_singleton] at hop
    subst hop
    exact hm
  · simp only [Except.ok.injEq, Option.some.injEq] at h
    subst h
    intro op hop x hx
    simp only [List.mem_cons, List.not_mem_nil, or_false] at hop
    rcases hop with rfl | rfl <;> simp [opReads] at hx
  · simp only [Except.ok.injEq, Option.some.injEq] at h
    subst h
    intro op hop x hx
    simp only [List.mem_cons, List.not_mem_nil, or_false] at hop
    rcases hop with rfl | rfl | rfl
    · simp [opReads] at hx
    · exact hm x hx
    · simp [opReads] at hx

theorem lowerPart_in {p : CPart} (hp : PartIn S p) {ops : List (MOp engine)} (h : lowerPart engine o p = .ok (some ops)) :
    ∀ op ∈ ops, ∀ x ∈ opReads op, S x := by
  cases p with
  | lit s =>
    unfold lowerPart buildLiteral at h
    dsimp only at h
    split_ifs at h
    simp only [Except.ok.injEq, Option.some.injEq] at h
    subst h
    simp [opReads]
  | rx r =>
    unfold lowerPart buildRegex at h
    dsimp only at h
    split at h
    · simp at h
    · simp only [Except.ok.injEq, Option.some.injEq] at h
      subst h
      intro op hop x hx
      rcases List.mem_cons.1 hop with rfl | hop
      · simp [opReads] at hx
      · obtain ⟨c, _, rfl⟩ := List.mem_map.1 hop
        simp [opReads] at hx
  | dyn m => exact lowerMatch_in hp h

theorem lowerParts_in : ∀ (ps : List CPart) {ops : List (MOp engine)}, (∀ p ∈ ps, PartIn S p) → lowerParts engine o ps = .ok (some ops) →
    ∀ op ∈ ops, ∀ x ∈ opReads op, S x
  | [], ops, _, h => by
    simp only [lowerParts, Except.ok.injEq, Option.some.injEq] at h
    subst h
    simp
  | p :: ps, ops, hp, h => by
    obtain ⟨o1, o2, h1, h2, rfl⟩ := lowerParts_cons h
    intro op hop
    rcases List.mem_append.1 hop with hop | hop
    · exact lowerPart_in (hp p List.mem_cons_self) h1 op hop
    · exact lowerParts_in ps (fun q hq => hp q (List.mem_cons_of_mem _ hq)) h2 op hop

theorem compileLit_in {s : Str} {c : Compiled engine} (h : compileLit engine o s = .ok (some c)) : CompReads S c := by
  unfold compileLit at h
  split_ifs at h
  · simp at h
  · simp only [Except.ok.injEq, Option.some.injEq] at h; subst h; exact trivial
  · split at h
    · simp at h
    · simp only [Except.ok.injEq, Option.some.injEq] at h; subst h; exact trivial
  · simp only [Except.ok.injEq, Option.some.injEq] at h; subst h; exact trivial

theorem compileRx_in {r : Pattern.Rx} {c : Compiled engine} (h : compileRx engine o r = .ok (some c)) : CompReads S c := by
  unfold compileRx at h
  split at h
  · simp at h
  · simp only [Except.ok.injEq, Option.some.injEq] at h; subst h; exact trivial

theorem compileCompact_in {p : Compact} (hp : CompactIn S p) {c : Compiled engine} (h : compileCompact o p = .ok (some c)) : CompReads S c := by
  cases p with
  | empty =>
    simp only [compileCompact, Except.ok.injEq, Option.some.injEq] at h
    subst h
    exact trivial
  | lit s => exact compileLit_in h
  | rx r => exact compileRx_in h
  | parts ps =>
    unfold compileCompact at h
    obtain ⟨u, h1, h2⟩ := bind_ok.1 h
    cases u with
    | none => simp at h2
    | some u =>
      simp only [Except.ok.injEq, Option.some.injEq] at h2
      subst h2
      exact lowerParts_in ps hp h1

theorem compile_eq (o : Opts) (p : CPat) : Pattern.compile engine o p = compileCompact o (compact p) := by
  unfold Pattern.compile compileCompact
  cases compact p with
  | empty => rfl
  | lit s => rfl
  | rx r => rfl
  | parts ps =>
    dsimp only
    rcases lowerParts engine o ps with e | _ | u
    · rfl
    · rfl
    · rfl

theorem flush_in {st : CSt} (h : ∀ p ∈ st.out, PartIn S p) : ∀ p ∈ st.flush, PartIn S p := by
  intro p hp
  unfold CSt.flush at hp
  split_ifs at hp
  · exact h p hp
  · rcases List.mem_append.1 hp with hp | hp
    · exact h p hp
    · rw [List.mem_singleton] at hp; subst hp; exact trivial
  · rcases List.mem_append.1 hp with hp | hp
    · exact h p hp
    · rw [List.mem_singleton] at hp; subst hp; exact trivial

theorem step_in {st : CSt} (h : ∀ p ∈ st.out, PartIn S p) {x : Part} (hx : ∀ v ∈ needs x, S v) : ∀ p ∈ (compactStep st x).out, PartIn S p := by
  have dyn : ∀ {m : Match}, PartIn S (.dyn m) → ∀ p ∈ st.flush ++ [.dyn m], PartIn S p := by
    intro m hm p hp
    rcases List.mem_append.1 hp with hp | hp
    · exact flush_in h p hp
    · rw [List.mem_singleton] at hp; subst hp; exact hm
  cases x with
  | literal s => exact h
  | regex s => exact h
  | match_ m =>
    cases m with
    | substitution name v =>
      cases v with
      | none => exact dyn hx
      | some s => exact h
    | numeric f c e =>
      cases c <;> cases e
      · exact h
      · exact dyn hx
      · exact h
      · exact dyn hx

theorem fold_in : ∀ (ps : List Part) {st : CSt}, (∀ p ∈ st.out, PartIn S p) → (∀ x ∈ ps, ∀ v ∈ needs x, S v) →
    ∀ p ∈ (ps.foldl compactStep st).out, PartIn S p
  | [], _, h, _ => h
  | x :: ps, _, h, hx => fold_in ps (step_in h (hx x List.mem_cons_self)) fun y hy => hx y (List.mem_cons_of_mem _ hy)

theorem close_in {st : CSt} (h : ∀ p ∈ st.out, PartIn S p) :
    CompactIn S (if st.out.isEmpty then if st.litMode then .lit st.text else .rx ⟨st.text, st.caps⟩ else .parts st.flush) := by
  split_ifs
  · exact trivial
  · exact trivial
  · exact flush_in h

/-- The pattern asks only for variables of `S`. -/
def AsksIn (S : VarName → Prop) (p : CPat) : Prop := ∀ x ∈ partsOf p, ∀ v ∈ needs x, S v

theorem compact_in {p : CPat} (h : AsksIn S p) : CompactIn S (compact p) := by
  cases p with
  | empty => exact trivial
  | literal s => exact trivial
  | regex s => exact trivial
  | match_ ps =>
    cases ps with
    | nil => exact trivial
    | cons q qs => exact close_in (fold_in (q :: qs) (st := ⟨[], [], [], true⟩) (by simp) h)

theorem restep_in {st : CSt} (h : ∀ p ∈ st.out, PartIn S p) {x : CPart} (hx : PartIn S x) : ∀ p ∈ (recompactStep st x).out, PartIn S p := by
  cases x with
  | lit s => exact h
  | rx r => exact h
  | dyn m => exact step_in h hx

theorem refold_in : ∀ (ps : List CPart) {st : CSt}, (∀ p ∈ st.out, PartIn S p) → (∀ x ∈ ps, PartIn S x) →
    ∀ p ∈ (ps.foldl recompactStep st).out, PartIn S p
  | [], _, h, _ => h
  | x :: ps, _, h, hx => refold_in ps (restep_in h (hx x List.mem_cons_self)) fun y hy => hx y (List.mem_cons_of_mem _ hy)

theorem compileSuffix_in {ps : List CPart} (hp : ∀ p ∈ ps, PartIn S p) {c : Compiled engine} (h : compileSuffix o ps = .ok (some c)) : CompReads S c := by
  cases ps with
  | nil =>
    simp only [compileSuffix, Except.ok.injEq, Option.some.injEq] at h
    subst h
    exact trivial
  | cons p ps => exact compileCompact_in (close_in (refold_in (p :: ps) (st := ⟨[], [], [], true⟩) (by simp) hp)) h

/-- The prefix asks only for variables of `S`. -/
def PreIn (S : VarName → Prop) : Prefix → Prop
  | .dyn m => ∀ x ∈ needs (.match_ m), S x
  | _ => True

theorem popPrefix_in {p : Compact} (h : CompactIn S p) : PreIn S (popPrefix p).1 ∧ ∀ x ∈ (popPrefix p).2, PartIn S x := by
  cases p with
  | empty => exact ⟨trivial, by simp [popPrefix]⟩
  | lit s => exact ⟨trivial, by simp [popPrefix]⟩
  | rx r => exact ⟨trivial, by simp [popPrefix]⟩
  | parts ps =>
    cases ps with
    | nil => exact ⟨trivial, by simp [popPrefix]⟩
    | cons q qs =>
      have hr : ∀ x ∈ qs, PartIn S x := fun x hx => h x (List.mem_cons_of_mem _ hx)
      cases q with
      | lit s => exact ⟨trivial, hr⟩
      | rx r => exact ⟨trivial, hr⟩
      | dyn m => exact ⟨h (.dyn m) List.mem_cons_self, hr⟩

/-- The suffixes ask only for variables of `S`. -/
def SfxIn (S : VarName → Prop) (sfx : List (List Sfx)) : Prop := ∀ ss ∈ sfx, ∀ s ∈ ss, CompReads S s.1

theorem pushAt_in : ∀ {sfx sfx' : List (List Sfx)} {n : Nat} {x : Sfx}, SfxIn S sfx → CompReads S x.1 → pushAt sfx n x = some sfx' → SfxIn S sfx'
  | [], _, _, _, _, _, h => by simp [pushAt] at h
  | xs :: xss, sfx', 0, x, h1, h2, h => by
    simp only [pushAt, Option.some.injEq] at h
    subst h
    intro ss hss s hs
    rcases List.mem_cons.1 hss with rfl | hss
    · rcases List.mem_append.1 hs with hs | hs
      · exact h1 xs List.mem_cons_self s hs
      · rw [List.mem_singleton] at hs; subst hs; exact h2
    · exact h1 ss (List.mem_cons_of_mem _ hss) s hs
  | xs :: xss, sfx', n + 1, x, h1, h2, h => by
    simp only [pushAt, Option.map_eq_some_iff] at h
    obtain ⟨r, h3, rfl⟩ := h
    have ih := pushAt_in (fun ss hss => h1 ss (List.mem_cons_of_mem _ hss)) h2 h3
    intro ss hss
    rcases List.mem_cons.1 hss with rfl | hss
    · exact h1 ss List.mem_cons_self
    · exact ih ss hss

theorem collect_in : ∀ (ls : List (CPat × Nat)) (id : Nat) {u u' : List (Prefix × Nat × Nat)} {sfx sfx' : List (List Sfx)},
    (∀ x ∈ ls, AsksIn S x.1) → (∀ x ∈ u, PreIn S x.1) → SfxIn S sfx → collect o ls id u sfx = .ok (some (u', sfx')) →
    (∀ x ∈ u', PreIn S x.1) ∧ SfxIn S sfx'
  | [], _, u, u', sfx, sfx', _, h1, h2, h => by
    simp only [collect, Except.ok.injEq, Option.some.injEq, Prod.mk.injEq] at h
    obtain ⟨rfl, rfl⟩ := h
    exact ⟨h1, h2⟩
  | (p, ln) :: ls, id, u, u', sfx, sfx', hl, h1, h2, h => by
    obtain ⟨hp1, hp2⟩ := popPrefix_in (compact_in (hl (p, ln) List.mem_cons_self))
    have hl' : ∀ x ∈ ls, AsksIn S x.1 := fun x hx => hl x (List.mem_cons_of_mem _ hx)
    unfold collect at h
    dsimp only at h
    generalize popPrefix (compact p) = w at hp1 hp2 h
    obtain ⟨pre, rest⟩ := w
    dsimp only at hp1 hp2 h
    split at h
    · obtain ⟨c, h3, h4⟩ := bind_ok.1 h
      cases c with
      | none => simp at h4
      | some c =>
        dsimp only at h4
        split at h4
        · simp at h4
        · rename_i sfx1 hpush
          exact collect_in ls (id + 1) hl' h1 (pushAt_in h2 (compileSuffix_in hp2 h3) hpush) h4
    · split_ifs at h
      · simp at h
      · obtain ⟨c, h3, h4⟩ := bind_ok.1 h
        cases c with
        | none => simp at h4
        | some c =>
          dsimp only at h4
          refine collect_in ls (id + 1) hl' ?_ ?_ h4
          · intro x hx
            rcases List.mem_append.1 hx with hx | hx
            · exact h1 x hx
            · rw [List.mem_singleton] at hx; subst hx; exact hp1
          · intro ss hss
            rcases List.mem_append.1 hss with hss | hss
            · exact h2 ss hss
            · rw [List.mem_singleton] at hss
              subst hss
              intro s hs
              rw [List.mem_singleton] at hs
              subst hs
              exact compileSuffix_in hp2 h3

theorem compilePrefix_in {x : Prefix × Nat × Nat} (hx : PreIn S x.1) {p : SetPat} (h : compilePrefix o x = .ok (some p)) : PatReads S p := by
  obtain ⟨pre, i, ln⟩ := x
  cases pre with
  | empty => simp [compilePrefix] at h
  | lit s =>
    obtain ⟨c, h1, h2⟩ := bind_ok.1 h
    cases c with
    | none => simp at h2
    | some c =>
      simp only [Option.map_some, Except.ok.injEq, Option.some.injEq] at h2
      subst h2
      exact compileLit_in h1
  | sub s =>
    obtain ⟨c, h1, h2⟩ := bind_ok.1 h
    cases c with
    | none => simp at h2
    | some c =>
      simp only [Option.map_some, Except.ok.injEq, Option.some.injEq] at h2
      subst h2
      exact compileLit_in h1
  | rx r =>
    obtain ⟨c, h1, h2⟩ := bind_ok.1 h
    cases c with
    | none => simp at h2
    | some c =>
      simp only [Option.map_some, Except.ok.injEq, Option.some.injEq] at h2
      subst h2
      exact compileRx_in h1
  | dyn m =>
    obtain ⟨c, h1, h2⟩ := bind_ok.1 h
    cases c with
    | none => simp at h2
    | some c =>
      simp only [Option.map_some, Except.ok.injEq, Option.some.injEq] at h2
      subst h2
      exact lowerMatch_in hx h1

theorem compilePrefixes_in : ∀ (xs : List (Prefix × Nat × Nat)) {ps : List SetPat}, (∀ x ∈ xs, PreIn S x.1) →
    compilePrefixes o xs = .ok (some ps) → ∀ p ∈ ps, PatReads S p
  | [], ps, _, h => by
    simp only [compilePrefixes, Except.ok.injEq, Option.some.injEq] at h
    subst h
    simp
  | x :: xs, ps, hx, h => by
    unfold compilePrefixes at h
    obtain ⟨p, h1, h2⟩ := bind_ok.1 h
    cases p with
    | none => simp at h2
    | some p =>
      dsimp only at h2
      obtain ⟨qs, h3, h4⟩ := bind_ok.1 h2
      cases qs with
      | none => simp at h4
      | some qs =>
        simp only [Except.ok.injEq, Option.some.injEq] at h4
        subst h4
        intro q hq
        rcases List.mem_cons.1 hq with rfl | hq
        · exact compilePrefix_in (hx x List.mem_cons_self) h1
        · exact compilePrefixes_in xs (fun y hy => hx y (List.mem_cons_of_mem _ hy)) h3 q hq

theorem compileSet_in {ps : List (CPat × Nat)} (hp : ∀ x ∈ ps, AsksIn S x.1) {set : MatchSet} (h : compileSet o ps = .ok (some set)) : SetReads S set := by
  unfold compileSet at h
  obtain ⟨u, h1, h2⟩ := bind_ok.1 h
  cases u with
  | none => simp at h2
  | some u =>
    obtain ⟨u, sfx⟩ := u
    dsimp only at h2
    obtain ⟨hu, hs⟩ := collect_in ps 0 hp (by simp) (by intro ss hss; simp at hss) h1
    unfold classify at h2
    dsimp only at h2
    split_ifs at h2
    · simp only [Except.ok.injEq, Option.some.injEq] at h2
      subst h2
      exact ⟨by simp, by simp [sfxOf']⟩
    · simp only [Except.ok.injEq, Option.some.injEq] at h2
      subst h2
      exact ⟨by simp, hs⟩
    · split at h2
      · simp at h2
      · simp only [Except.ok.injEq, Option.some.injEq] at h2
        subst h2
        exact ⟨by simp, by simp [sfxOf']⟩
    · split at h2
      · simp at h2
      · simp only [Except.ok.injEq, Option.some.injEq] at h2
        subst h2
        exact ⟨by simp, hs⟩
    · obtain ⟨qs, h3, h4⟩ := bind_ok.1 h2
      cases qs with
      | none => simp at h4
      | some qs =>
        simp only [Except.ok.injEq, Option.some.injEq] at h4
        subst h4
        refine ⟨?_, hs⟩
        intro ps' sfx' he
        simp only [MatchSet.anyPrefix.injEq] at he
        rw [← he.1]
        exact compilePrefixes_in u hu h3

theorem static_in {p : CPat} {c : Compiled engine} (h : compileStatic engine o p = .ok (some c)) : CompReads S c := by
  unfold compileStatic at h
  split at h
  · simp at h
  · split_ifs at h
    simp only [Except.ok.injEq, Option.some.injEq] at h
    subst h
    exact trivial
  · split_ifs at h
    · exact compileRx_in h
    · simp at h
  · simp at h

theorem literal_in {p : CPat} {c : Compiled engine} (h : compileLiteral engine o p = .ok (some c)) : CompReads S c := by
  unfold compileLiteral at h
  split at h
  · split_ifs at h
    simp only [Except.ok.injEq, Option.some.injEq] at h
    subst h
    exact trivial
  · simp at h

theorem cline_agree (run : Run) (b : Buf) {l : CLine} (hl : AsksIn S l.pattern) : CLineSim (Agree S) b b run (fun _ p => AsksIn S p) l l := by
  have opt : ∀ {n : Nat} {k : Kind} {u : P (Option (Compiled engine))}, (∀ c, u = .ok (some c) → CompReads S c) →
      RelP (OptSim (fun x x' : Line Vars => x'.kind = x.kind ∧ PatSim (Agree S) b b x.pat x'.pat))
        (do .ok ((← u).map fun c => ⟨k, c.pat (run.conf n) n, []⟩)) (do .ok ((← u).map fun c => ⟨k, c.pat (run.conf n) n, []⟩)) := by
    intro n k u hu
    rcases u with p | _ | c
    · exact rfl
    · exact trivial
    · exact ⟨rfl, comp_agree (hu c rfl) _ b n⟩
  refine ⟨rfl, fun _ => ⟨rfl, hl⟩, ?_⟩
  intro n
  unfold compileLine
  split
  · exact ⟨rfl, none_sim⟩
  · exact ⟨rfl, none_sim⟩
  · exact ⟨rfl, none_sim⟩
  · exact opt fun c hc => static_in hc
  · dsimp only
    split_ifs
    · exact opt fun c hc => literal_in hc
    · exact opt fun c hc => compileCompact_in (compact_in hl) (compile_eq _ _ ▸ hc)

theorem sameLines_refl (b : Buf) : SameLines b b := List.forall₂_same.2 fun _ _ => ⟨Iff.rfl, Iff.rfl⟩

/-- The verdict depends on the variables asked for only. -/
theorem lines_agree (run : Run) (imp : List Str) {ls : List CLine} (b : Buf) (h : ∀ l ∈ ls, AsksIn S l.pattern) {e e' : Vars} (he : Agree S e e') :
    verifyLines run imp ls e' b = verifyLines run imp ls e b := by
  refine verifyLines_sim (R := Agree S) (G := fun _ p => AsksIn S p) (sameLines_refl b) ?_ ?_ (fun _ _ h => h.clear) ?_ ?_ he
  · intro ps set hp hc
    exact anyPat_agree (compileSet_in hp hc) b
  · intro ps set hp hc
    exact setDag_agree (compileSet_in hp hc) _ b
  · intro _ x hx v hv
    simp only [partsOf, List.mem_singleton] at hx
    subst hx
    simp [needs] at hv
  · induction ls with
    | nil => exact .nil
    | cons l ls ih => exact .cons (cline_agree run b (h l List.mem_cons_self)) (ih fun l hl => h l (List.mem_cons_of_mem _ hl))

end Litcheck.AgreeSpec
