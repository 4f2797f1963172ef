import Verif.Proofs.SmartFrame

/-!
# Properties C73 and C74 for every pattern

`Searched`: the pattern is compiled and searched for. `needs`, `captures` and `Defined` are in `Verif/Props/Variables.lean`.
-/

namespace Litcheck
open Spec RegexSpec PatternSpec Smart Pattern
open Litcheck.Lex (Part Match CPat VarName Expr Op)
open Litcheck.Regex (utf8 engine)

section
variable {o : Opts} {line : Nat} {checked : Bool} {p : CPat} {b : Buf} {r : Rng} {env env' : Vars} {m : MatchResult}

/-- **C73**: a pattern which needs the value of an undefined variable which no earlier part captures is not reported to match. -/
theorem C73_undefined {pre post : List Part} {q : Part} {x : VarName} (hp : partsOf p = pre ++ q :: post)
    (hx : x ∈ needs q) (hu : ¬ Defined env x) (hpre : ∀ y ∈ pre, ∀ z, captures y = some z → keyOf z ≠ keyOf x)
    (h : Searched o line checked p b r env m env') : m.isOk = false := by
  obtain ⟨c, hc, hs⟩ := h
  obtain ⟨opre, op, opost, rfl, h1, h2⟩ := compile_reads hc hp hx
  rcases smart_found hs with ⟨_, h3⟩ | ⟨op0, rest, st, y, st1, st2, env1, h3, h4, h5, h6⟩
  · exact h3
  · exfalso
    have hz : ∀ z ∈ opSets opre, keyOf z ≠ keyOf x := by
      intro z hz
      obtain ⟨y, hy, hcap⟩ := h2 z hz
      exact hpre y hy z hcap
    cases opre with
    | nil =>
      simp only [List.nil_append, List.cons.injEq] at h3
      rw [← h3.1] at h4
      exact hu ((matchPart_reads h4).1 x h1)
    | cons a opre =>
      simp only [List.cons_append, List.cons.injEq] at h3
      exact hu (runs_reads h5 h3.2.symm x h1 fun z h => hz z (sets_cons h))

theorem bindAll_frame {k : VName} : ∀ {cs : List (Cap × Str)} {env env' : Vars}, bindAll env cs = some env' →
    (∀ c ∈ cs, keyOf c.1.name ≠ k) → env'.get k = env.get k
  | [], env, env', h, _ => by simp only [bindAll, Option.some.injEq] at h; rw [h]
  | (c, t) :: cs, env, env', h, hk => by
    unfold bindAll at h
    split at h
    · rw [bindAll_frame h fun c hc => hk c (List.mem_cons_of_mem _ hc), get_insert_ne (hk (c, t) List.mem_cons_self)]
    · dsimp only at h
      split at h
      · rw [bindAll_frame h fun c hc => hk c (List.mem_cons_of_mem _ hc), get_insert_ne (hk (c, t) List.mem_cons_self)]
      · simp at h

theorem captured_mem {b : Buf} {h : Regex.Hit} : ∀ {caps : List Cap} {cs : List (Cap × Str)}, captured b h caps = some cs →
    ∀ c ∈ cs, c.1 ∈ caps
  | [], cs, hc => by simp only [captured, Option.some.injEq] at hc; subst hc; simp
  | c :: caps, cs, hc => by
    unfold captured at hc
    split at hc
    · exact fun d hd => List.mem_cons_of_mem _ (captured_mem hc d hd)
    · split at hc
      · rename_i h1
        simp only [Option.some.injEq] at hc
        subst hc
        intro d hd
        rcases List.mem_cons.1 hd with rfl | hd
        · exact List.mem_cons_self
        · exact List.mem_cons_of_mem _ (captured_mem h1 d hd)
      · simp at hc

theorem compact_sets (p : CPat) :
    match compact p with
    | .rx r => ∀ c ∈ r.caps, ∃ q ∈ partsOf p, captures q = some c.name
    | .parts cs => ∀ c ∈ cs, ∀ x ∈ cSets c, ∃ q ∈ partsOf p, captures q = some x
    | _ => True := by
  cases p with
  | empty => trivial
  | literal s => trivial
  | regex s => simp [compact]
  | match_ ps =>
    cases ps with
    | nil => trivial
    | cons a ps =>
      have hin := setsIn_fold (a :: ps) [] ⟨[], [], [], true⟩ ⟨by simp, by simp⟩
      rw [List.nil_append] at hin
      simp only [compact, partsOf]
      generalize (a :: ps).foldl compactStep ⟨[], [], [], true⟩ = st at hin
      by_cases h1 : st.out.isEmpty = true
      · rw [if_pos h1]
        by_cases h2 : st.litMode = true
        · rw [if_pos h2]; trivial
        · rw [if_neg h2]; exact hin.2
      · rw [if_neg h1]
        exact hin.flush

/-- **C74**: after a search, whether something was found or not, a variable which the pattern does not capture has its value
from before. -/
theorem C74_unchanged (h : Searched o line checked p b r env m env') {x : VarName}
    (hx : ∀ q ∈ partsOf p, ∀ z, captures q = some z → keyOf z ≠ keyOf x) : env'.get (keyOf x) = env.get (keyOf x) := by
  obtain ⟨c, hc, hs⟩ := h
  have hcs := compact_sets p
  unfold Pattern.compile at hc
  have hlit : ∀ s, compileLit engine o s = .ok (some c) → env' = env := by
    intro s h1
    unfold compileLit at h1
    split at h1
    · simp at h1
    · split at h1
      · split at h1
        · simp only [Except.ok.injEq, Option.some.injEq] at h1
          subst h1
          simp only [Compiled.pat, whitespacePat] at hs
          split at hs
          · simp only [Prod.mk.injEq] at hs; exact hs.2.symm
          · split at hs <;> (simp only [Prod.mk.injEq] at hs; exact hs.2.symm)
        · split at h1
          · simp at h1
          · simp only [Except.ok.injEq, Option.some.injEq] at h1
            subst h1
            simp only [Compiled.pat, regexPat] at hs
            split at hs
            · simp only [Prod.mk.injEq] at hs; exact hs.2.symm
            · simp only [captured, bindAll, Prod.mk.injEq] at hs; exact hs.2.symm
      · simp only [Except.ok.injEq, Option.some.injEq] at h1
        subst h1
        simp only [Compiled.pat, litPat] at hs
        split at hs <;> (simp only [Prod.mk.injEq] at hs; exact hs.2.symm)
  split at hc
  · simp only [Except.ok.injEq, Option.some.injEq] at hc
    subst hc
    simp only [Compiled.pat, alwaysPat, Prod.mk.injEq] at hs
    rw [hs.2]
  · rw [hlit _ hc]
  · rename_i rx hrx
    rw [hrx] at hcs
    dsimp only at hcs
    unfold compileRx at hc
    split at hc
    · simp at hc
    · simp only [Except.ok.injEq, Option.some.injEq] at hc
      subst hc
      simp only [Compiled.pat, regexPat] at hs
      split at hs
      · simp only [Prod.mk.injEq] at hs; rw [hs.2]
      · split at hs
        · simp at hs
        · rename_i cs hcap
          split at hs
          · rename_i env1 hb
            simp only [Prod.mk.injEq] at hs
            rw [← hs.2]
            refine bindAll_frame hb fun d hd => ?_
            obtain ⟨q, h1, h2⟩ := hcs d.1 (captured_mem hcap d hd)
            exact hx q h1 _ h2
          · simp only [Prod.mk.injEq] at hs; rw [hs.2]
  · rename_i ps hps
    rw [hps] at hcs
    dsimp only at hcs
    obtain ⟨w, h1, h2⟩ := bind_ok.1 hc
    cases w with
    | none => simp at h2
    | some ops =>
      simp only [Except.ok.injEq, Option.some.injEq] at h2
      subst h2
      rcases smart_found hs with ⟨rfl, _⟩ | ⟨op0, rest, st, y, st1, st2, env1, h3, h4, h5, h6⟩
      · rfl
      · rw [h6]
        apply merge_get
        apply runs_frame h5
        intro z hz
        obtain ⟨d, h7, h8⟩ := lowerParts_sets h1 z (by rw [h3]; exact sets_cons hz)
        obtain ⟨q, h9, h10⟩ := hcs d h7 z h8
        exact hx q h9 z h10

end

/-- `{{(}}{{a)}}[[A]]`: the first two parts cannot be read by themselves. -/
def oddPat : CPat := .match_ [.regex ['('], .regex ['a', ')'], .match_ (.substitution (.user ['A']) none)]

/-- It meets the hypotheses of C73, and is searched for: in `b` nothing is found. -/
example : (∃ m env', Searched plainOpts 1 true oddPat [98, 98] ⟨0, 2⟩ noVars m env') ∧ ¬ Defined noVars (.user ['A']) ∧
    partsOf oddPat = [.regex ['('], .regex ['a', ')']] ++ .match_ (.substitution (.user ['A']) none) :: [] ∧
    (VarName.user ['A']) ∈ needs (.match_ (.substitution (.user ['A']) none)) ∧
    ∀ y ∈ [Part.regex ['('], .regex ['a', ')']], ∀ z, captures y = some z → keyOf z ≠ keyOf (.user ['A']) :=
  ⟨⟨_, _, ⟨_, rfl, rfl⟩⟩, by rintro ⟨v, _, h⟩; simp [noVars, keyOf, Bindings.get] at h, rfl, by simp [needs], by simp [captures]⟩

/-- Where the parts before `[[A]]` match, there is a diagnostic. -/
example : ∃ c, Pattern.compile engine plainOpts oddPat = .ok (some c) ∧
    ((c.pat (pconf plainOpts 1 true) 0).run abBuf ⟨0, 2⟩ noVars).1 = none := ⟨_, rfl, rfl⟩

/-- And it is found if `A` is defined; `X` keeps its value (C74). -/
example : ∃ m env', Searched plainOpts 1 true oddPat abBuf ⟨0, 2⟩ (bVars.insert (.user "A") (.str ['b'])) m env' ∧ m.isOk = true ∧
    env'.get (keyOf (.user ['X'])) = .ok (some (.str ['b'])) :=
  ⟨_, _, ⟨_, rfl, rfl⟩, by decide +kernel, by decide +kernel⟩

end Litcheck
