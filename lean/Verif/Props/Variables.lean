import Verif.Proofs.Expr
import Verif.Props.Search

/-!
# Properties C72 – C74: expressions, undefined variables, captured values
-/

namespace Litcheck
open Spec RegexSpec PatternSpec Smart Pattern
open Litcheck.Lex (Part Match CPat VarName Expr Op)
open Litcheck.Regex (utf8 engine utf8_injective)

/-! ## C72: expressions -/

section
variable {ck : Bool} {line : Nat} {env : Vars} {ty : Option Ty} {e : Expr} {v : Int} {g : Option NumFmt}

/-- **C72**, what a release build computes: exactly the value of the specification, where results are reduced to 128 bits. -/
theorem C72_release_iff : evalExpr false line env ty e = .yes (.num v g) ↔ Value line env (explicitFormat ty) e v g :=
  ⟨fun h => (evalExpr_sound _ _ h).1 _ _ rfl, evalExpr_complete⟩

/-- **C72**, what a debug build computes is the value in the arithmetic of the integers. -/
theorem C72_checked (h : evalExpr true line env ty e = .yes (.num v g)) : ExactValue line env e v := evalExpr_checked h

/-- **C72**, if no result overflows: what any build computes is the value in the arithmetic of the integers, and any build
computes it if the formats agree. -/
theorem C72_exact_partial (hf : AllFit line env e) :
    (evalExpr ck line env ty e = .yes (.num v g) → ExactValue line env e v) ∧
    (Value line env (explicitFormat ty) e v g → evalExpr ck line env ty e = .yes (.num v g)) :=
  ⟨fun h => value_exact ((evalExpr_sound _ _ h).1 _ _ rfl) hf, evalExpr_builds hf⟩

end

/-- `A` is the number 7. -/
def sevenVars : Vars := noVars.insert (.user "A") (.num 7 none)

/-- `A+2*@LINE`, as `add(A, mul(2, @LINE))`. -/
def sumExpr : Expr := .bin .add (.var (.user ['A'])) (.bin .mul (.num 2) (.var (.pseudo "LINE".toList)))

example : evalExpr true 10 sevenVars none sumExpr = .yes (.num 27 none) := by rfl

theorem exact_unique {line : Nat} {env : Vars} {e : Expr} {x y : Int} (h : ExactValue line env e x) (h' : ExactValue line env e y) : x = y := by
  induction h generalizing y with
  | num n => cases h'; rfl
  | line =>
    cases h' with
    | line => rfl
    | var h => exact absurd h (get_pseudo _ _)
  | var h =>
    cases h' with
    | line => exact absurd h (get_pseudo _ _)
    | var h2 => rw [h] at h2; simp only [Except.ok.injEq, Option.some.injEq, Val.num.injEq] at h2; exact h2.1
  | @bin op _ _ _ _ _ _ _ hx ihl ihr =>
    cases h' with
    | bin h1 h2 hy =>
      obtain rfl := ihl h1
      obtain rfl := ihr h2
      cases op with
      | add => exact hx.trans hy.symm
      | sub => exact hx.trans hy.symm
      | mul => exact hx.trans hy.symm
      | div => exact hx.2.trans hy.2.symm
      | min => rcases hx with ⟨_, rfl⟩ | ⟨_, rfl⟩ <;> rcases hy with ⟨_, rfl⟩ | ⟨_, rfl⟩ <;> omega
      | max => rcases hx with ⟨_, rfl⟩ | ⟨_, rfl⟩ <;> rcases hy with ⟨_, rfl⟩ | ⟨_, rfl⟩ <;> omega

example : AllFit 10 sevenVars sumExpr := by
  have h1 : ExactValue 10 sevenVars (.bin .mul (.num 2) (.var (.pseudo "LINE".toList))) 20 := .bin (.num 2) .line rfl
  have h2 : ExactValue 10 sevenVars sumExpr 27 := .bin (.var (f := none) rfl) h1 rfl
  refine ⟨trivial, ⟨trivial, trivial, ?_⟩, ?_⟩
  · intro x h; rw [exact_unique h h1]; unfold Fits; decide
  · intro x h; rw [exact_unique h h2]; unfold Fits; decide

/-- The result of a release build need not be the exact value: `(2^127 - 1) + 1` is negative. -/
theorem C72_overflow_refuted : ∃ e v, evalExpr false 1 noVars none e = .yes (.num v none) ∧ v < 0 ∧ ExactValue 1 noVars e (2 ^ 127) :=
  ⟨.bin .add (.num (2 ^ 127 - 1)) (.num 1), -(2 ^ 127), by rfl, by decide, .bin (.num _) (.num _) (by unfold Exact; decide)⟩

/-- The outcome is a panic. -/
def isPanic : Outcome → Bool
  | .panic _ => true
  | _ => false

/-- A division by zero is not reported as an error of the check: `[[#div(8, 0)]]` panics. -/
theorem C72_zero_refuted : ∃ ops, Pattern.compile engine plainOpts
      (.match_ [.match_ (.numeric none none (some (.bin .div (.num 8) (.num 0))))]) = .ok (some (.smart ops)) ∧
    ∀ attempts b r checked, isPanic (tryMatch (pconf plainOpts 1 checked) ops 0 (attempts + 1) b r noVars) = true :=
  ⟨_, rfl, fun _ _ _ _ => rfl⟩

/-! ## C73, C74 -/

/-- The variables of an expression. -/
def exprVars : Expr → List VarName
  | .num _ => []
  | .var x => [x]
  | .bin _ l r => exprVars l ++ exprVars r

/-- The variables whose values a part needs. -/
def needs : Part → List VarName
  | .match_ (.substitution x none) => [x]
  | .match_ (.numeric _ _ (some e)) => exprVars e
  | _ => []

/-- The variable which a part captures. -/
def captures : Part → Option VarName
  | .match_ (.substitution x (some _)) => some x
  | .match_ (.numeric _ (some x) _) => some x
  | _ => none

/-- The variable has a value: `@LINE` always, no other variable of that kind; the others if they were bound. -/
def Defined (env : Vars) : VarName → Prop
  | .pseudo s => s = "LINE".toList
  | x => ∃ v, v ≠ Val.undef ∧ env.get (keyOf x) = .ok (some v)

theorem get_insert_ne {env : Vars} {k k' : VName} {v : Val} (h : k ≠ k') : (env.insert k v).get k' = env.get k' := by
  cases k <;> cases k' <;> simp_all [Bindings.insert, Bindings.get, Map.insert] <;> rw [if_neg (Ne.symm h)]

theorem get_insert_eq {env : Vars} {x : VarName} {v : Val} (h : ∀ s, x ≠ .pseudo s) : (env.insert (keyOf x) v).get (keyOf x) = .ok (some v) := by
  cases x with
  | user s => simp [keyOf, Bindings.insert, Bindings.get, Map.insert]
  | global s => simp [keyOf, Bindings.insert, Bindings.get, Map.insert]
  | pseudo s => exact absurd rfl (h s)

theorem value_defined {line : Nat} {env : Vars} {asked : Option NumFmt} {e : Expr} {v : Int} {g : Option NumFmt}
    (h : Value line env asked e v g) : ∀ x ∈ exprVars e, Defined env x := by
  induction h with
  | num n => simp [exprVars]
  | line => intro x hx; simp only [exprVars, List.mem_singleton] at hx; subst hx; rfl
  | @var y n f h =>
    intro x hx
    simp only [exprVars, List.mem_singleton] at hx
    subst hx
    cases x with
    | pseudo s => exact absurd h (get_pseudo _ _)
    | user s => exact ⟨_, by simp, h⟩
    | global s => exact ⟨_, by simp, h⟩
  | bin _ _ _ _ _ ihl ihr =>
    intro x hx
    rcases List.mem_append.1 hx with hx | hx
    · exact ihl x hx
    · exact ihr x hx

theorem text_defined {line : Nat} {env : Vars} {asked : Option NumFmt} {e : Expr} {t : Str} (h : Text line env asked e t) :
    ∀ x ∈ exprVars e, Defined env x := by
  cases h with
  | @str y s h =>
    intro x hx
    simp only [exprVars, List.mem_singleton] at hx
    subst hx
    cases x with
    | pseudo s => exact absurd h (get_pseudo _ _)
    | user s => exact ⟨_, by simp, h⟩
    | global s => exact ⟨_, by simp, h⟩
  | num h => exact value_defined h

theorem part_needs {cx : PatternSpec.Ctx} {b : Buf} {env env' : Vars} {i j : Nat} {q : Part} (h : PartMatches cx b env i j env' q) :
    ∀ x ∈ needs q, Defined env x := by
  cases q with
  | literal | regex => simp [needs]
  | match_ mm =>
    cases mm with
    | substitution x pt =>
      cases pt with
      | none => obtain ⟨_, t, ht, _⟩ := h; exact text_defined ht
      | some s => simp [needs]
    | numeric f cap e? =>
      cases e? with
      | none => simp [needs]
      | some e =>
        cases cap with
        | none => obtain ⟨_, t, ht, _⟩ := h; exact text_defined ht
        | some x =>
          obtain ⟨_, _, _, _, _, _, _, _, hc⟩ := h
          obtain ⟨w, g, hw, _⟩ := hc e rfl
          exact value_defined hw

theorem part_frame {cx : PatternSpec.Ctx} {b : Buf} {env env' : Vars} {i j : Nat} {q : Part} (h : PartMatches cx b env i j env' q)
    {k : VName} (hk : ∀ x, captures q = some x → keyOf x ≠ k) : env'.get k = env.get k := by
  unfold PartMatches at h
  split at h
  · rw [h.1]
  · rw [h.1]
  · obtain ⟨_, t, _, rfl⟩ := h; exact get_insert_ne (hk _ rfl)
  · rw [h.1]
  · rw [h.1]
  · rw [h.1]
  · obtain ⟨_, _, _, _, _, _, _, rfl, _⟩ := h; exact get_insert_ne (hk _ rfl)

theorem parts_frame {cx : PatternSpec.Ctx} {b : Buf} {env env' : Vars} {i j : Nat} {ps : List Part} (h : PartsMatch cx b env ps i j env')
    {k : VName} (hk : ∀ q ∈ ps, ∀ x, captures q = some x → keyOf x ≠ k) : env'.get k = env.get k := by
  induction h with
  | nil => rfl
  | cons h1 _ ih => rw [ih (fun q hq => hk q (by simp [hq])), part_frame h1 (hk _ (by simp))]

theorem parts_split {cx : PatternSpec.Ctx} {b : Buf} {q : Part} {post : List Part} : ∀ {pre : List Part} {env env' : Vars} {i j : Nat},
    PartsMatch cx b env (pre ++ q :: post) i j env' →
    ∃ e1 e2 s e, PartsMatch cx b env pre i s e1 ∧ PartMatches cx b e1 s e e2 q ∧ PartsMatch cx b e2 post e j env'
  | [], env, env', i, j, h => by
    cases h with
    | cons h1 h2 => exact ⟨_, _, _, _, .nil, h1, h2⟩
  | p :: pre, env, env', i, j, h => by
    cases h with
    | cons h1 h2 =>
      obtain ⟨e1, e2, s, e, h3, h4, h5⟩ := parts_split h2
      exact ⟨e1, e2, s, e, .cons h1 h3, h4, h5⟩

section
variable {o : Opts} {line : Nat} {checked : Bool} {p : CPat} {b : Buf} {r : Rng} {env env' : Vars} {m : MatchResult}

theorem defined_congr {env env' : Vars} {x : VarName} (h : env'.get (keyOf x) = env.get (keyOf x)) (hd : Defined env' x) : Defined env x := by
  cases x with
  | pseudo s => exact hd
  | user s => obtain ⟨v, h1, h2⟩ := hd; exact ⟨v, h1, by rw [← h, h2]⟩
  | global s => obtain ⟨v, h1, h2⟩ := hd; exact ⟨v, h1, by rw [← h, h2]⟩

/-- **C74**: after a match, a variable has the value of the last part which captures it: the text which that part
matched, or the number which this text denotes. -/
theorem C74_captured_partial (hw : WellFormed p) (hr : r.start ≤ r.stop) (hb : r.stop ≤ b.length)
    (h : Searched o line checked p b r env m env') (hok : m.isOk = true) {pre post : List Part} {q : Part} {x : VarName}
    (hp : partsOf p = pre ++ q :: post) (hq : captures q = some x) (hn : ∀ s, x ≠ .pseudo s)
    (hpost : ∀ y ∈ post, ∀ z, captures y = some z → keyOf z ≠ keyOf x) :
    ∃ i s e t, m.info = some i ∧ i.start ≤ s ∧ s ≤ e ∧ e ≤ i.stop ∧ utf8 t = sliceOf b s e ∧
      (∀ src, q = .match_ (.substitution x (some src)) →
        env'.get (keyOf x) = .ok (some (.str t)) ∧ AsRegex o.ignoreCase b src s e) ∧
      (∀ f e?, q = .match_ (.numeric f (some x) e?) → ∃ v f', env'.get (keyOf x) = .ok (some (.num v f')) ∧
        MatchesFormat t (f.getD plainFormat) ∧ Denotes t v (f.getD plainFormat) ∧ f'.getD plainFormat = f.getD plainFormat) := by
  obtain ⟨i, hi, _, _, _, hm⟩ := C68_reported_partial hw hr hb h hok
  unfold meaning at hm
  rw [hp] at hm
  obtain ⟨e1, e2, s, e, h1, h2, h3⟩ := parts_split hm
  have hf := parts_frame h3 hpost
  have l1 := partsMatch_le h1
  have l2 := partMatches_le h2
  have l3 := partsMatch_le h3
  unfold captures at hq
  split at hq
  · rename_i x' src
    simp only [Option.some.injEq] at hq
    subst hq
    obtain ⟨h4, t, h5, rfl⟩ := h2
    refine ⟨i, s, e, t, hi, l1, l2, l3, h5, ?_, by simp⟩
    intro src' he
    simp only [Part.match_.injEq, Match.substitution.injEq, Option.some.injEq, true_and] at he
    subst he
    exact ⟨hf.trans (get_insert_eq hn), h4⟩
  · rename_i f x' e?
    simp only [Option.some.injEq] at hq
    subst hq
    obtain ⟨t, v, f', h5, h6, h7, h8, rfl, _⟩ := h2
    refine ⟨i, s, e, t, hi, l1, l2, l3, h5, by simp, ?_⟩
    intro f0 e0 he
    simp only [Part.match_.injEq, Match.numeric.injEq, true_and] at he
    obtain ⟨rfl, rfl⟩ := he
    exact ⟨v, f', hf.trans (get_insert_eq hn), h6, h7, h8⟩
  · simp at hq

end

/-- In `mixedPat` the second part captures `N`: it is 42 after the match. -/
example : ∃ m env', Searched plainOpts 1 true mixedPat mixedBuf ⟨0, 10⟩ bangVars m env' ∧ m.isOk = true ∧
    env'.get (keyOf (.user ['N'])) = .ok (some (.num 42 none)) :=
  ⟨_, _, ⟨_, rfl, rfl⟩, by decide +kernel, by decide +kernel⟩

/-! ## C75: failed matches -/

theorem runs_pat {eng : Regex.Engine} {cf : Conf eng} {b : Buf} {hi : Nat} {ops : List (MOp eng)} {env env2 : Vars} {st st2 : Smart.St}
    (h : Runs cf b hi ops env st st2 env2) : st2.pat = true := by
  induction h <;> first | rfl | assumption

theorem search_pat {cf : Conf engine} {b : Buf} {hi : Nat} {anc : Bool} {op : MOp engine} {rest : List (MOp engine)} {env env2 : Vars}
    {st2 : Smart.St} : ∀ {fuel p : Nat}, search cf b hi anc op rest env fuel p = some (.found st2 env2) → st2.pat = true
  | 0, p, h => by simp [search] at h
  | fuel + 1, p, h => by
    unfold search at h
    split at h
    · rename_i st env' ha
      simp only [Option.some.injEq, Smart.Found.found.injEq] at h
      obtain ⟨rfl, _⟩ := h
      unfold attempt at ha
      dsimp only at ha
      split at ha
      · simp at ha
      · simp at ha
      · simp at ha
      · split at ha
        · simp at ha
        · simp at ha
        · rename_i hmps
          simp only [Attempt.found.injEq] at ha
          obtain ⟨rfl, rfl⟩ := ha
          exact runs_pat (matchParts_runs _ hmps)
        · split at ha <;> simp at ha
    · simp at h
    · simp at h
    · simp at h
    · exact search_pat h

/-- **C75**: a search which finds nothing, or which ends with a diagnostic, leaves the variables as they were. (The remaining
case is a number which was captured but cannot be converted.) -/
theorem C75_failed_partial {o : Opts} {line : Nat} {checked : Bool} {p : CPat} {c : Compiled engine} {b : Buf} {r : Rng} {env env' : Vars}
    {res : Option MatchResult} (_hc : Pattern.compile engine o p = .ok (some c))
    (h : (c.pat (pconf o line checked) 0).run b r env = (res, env')) (hn : res = none ∨ res = some matchNone) : env' = env := by
  cases c with
  | always => simp only [Compiled.pat, alwaysPat, Prod.mk.injEq] at h; exact h.2.symm
  | substring lit =>
    simp only [Compiled.pat, litPat] at h
    split at h <;> simp only [Prod.mk.injEq] at h <;> exact h.2.symm
  | whitespace =>
    simp only [Compiled.pat, whitespacePat] at h
    split at h
    · simp only [Prod.mk.injEq] at h; exact h.2.symm
    · split at h <;> simp only [Prod.mk.injEq] at h <;> exact h.2.symm
  | regex prog caps =>
    simp only [Compiled.pat, regexPat] at h
    split at h
    · simp only [Prod.mk.injEq] at h; exact h.2.symm
    · split at h
      · simp only [Prod.mk.injEq] at h; exact h.2.symm
      · split at h
        · simp only [Prod.mk.injEq] at h
          obtain ⟨rfl, _⟩ := h
          rcases hn with hn | hn <;> cases hn
        · simp only [Prod.mk.injEq] at h; exact h.2.symm
  | smart ops =>
    simp only [Compiled.pat, smartPat] at h
    cases ops with
    | nil => simp only [tryMatch, Prod.mk.injEq] at h; exact h.2.symm
    | cons op rest =>
      simp only [tryMatch] at h
      cases hs : search (pconf o line checked) b r.stop false op rest env (b.length + 2) r.start with
      | none => rw [hs] at h; simp only [Prod.mk.injEq] at h; exact h.2.symm
      | some x =>
        rw [hs] at h
        cases x with
        | panic => simp only [Prod.mk.injEq] at h; exact h.2.symm
        | err => simp only [Prod.mk.injEq] at h; exact h.2.symm
        | absent => simp only [Prod.mk.injEq] at h; exact h.2.symm
        | found st e2 =>
          simp only [search_pat hs, if_true] at h
          split at h
          · rename_i hx
            split at hx
            · simp only [Outcome.result.injEq] at hx
              obtain ⟨rfl, rfl⟩ := hx
              simp only [Prod.mk.injEq] at h
              obtain ⟨rfl, _⟩ := h
              rcases hn with hn | hn <;> cases hn
            · simp only [Outcome.result.injEq] at hx
              obtain ⟨rfl, rfl⟩ := hx
              simp only [Prod.mk.injEq] at h
              obtain ⟨rfl, _⟩ := h
              rcases hn with hn | hn <;> cases hn
          · rename_i hx
            split at hx <;> simp at hx
          · rename_i hx
            split at hx <;> simp at hx
          · rename_i hx
            split at hx <;> simp at hx

/-- `mixedPat` finds nothing in `ab`. -/
example : ∃ c env', Pattern.compile engine plainOpts mixedPat = .ok (some c) ∧
    (c.pat (pconf plainOpts 1 true) 0).run abBuf ⟨0, 2⟩ bangVars = (some matchNone, env') := ⟨_, _, rfl, rfl⟩

/-- `[[#%.2X,N:]]-[[X]]`. -/
def upperPat : CPat := .match_ [.match_ (.numeric (some (.hex 2 false .upper)) (some (.user ['N'])) none), .literal ['-'],
  .match_ (.substitution (.user ['X']) none)]

/-- With `--ignore-case`, `[[#%.2X,N:]]-[[X]]` fails on `ab-b`, but binds `N`. -/
theorem C75_failed_refuted : ∃ m env', Searched ⟨true, false⟩ 1 true upperPat [97, 98, 45, 98] ⟨0, 4⟩ bVars m env' ∧ m.isOk = false ∧
    env'.get (.user "N") = .ok (some (.num 171 (some (.hex 2 false .upper)))) ∧ bVars.get (.user "N") = .ok none :=
  ⟨_, _, ⟨_, rfl, rfl⟩, by decide +kernel, by decide +kernel, rfl⟩

end Litcheck
