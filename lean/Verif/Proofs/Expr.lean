import Verif.Proofs.SmartSound

/-!
# The value of an expression: completeness, and exact arithmetic
-/

namespace Litcheck.Pattern
open Litcheck.Smart Litcheck.Spec Litcheck.PatternSpec
open Litcheck.Lex (VarName Expr Op)
variable {ck : Bool} {line : Nat} {env : Vars} {ty : Option Ty} {asked : Option NumFmt}

theorem get_pseudo (s : Str) (x : Option Val) : env.get (keyOf (.pseudo s)) ≠ .ok x := by
  simp [keyOf, Bindings.get]

/-- In a build which wraps, an expression has the value which the specification gives it. -/
theorem evalExpr_complete {e : Expr} {v : Int} {g : Option NumFmt} (h : Value line env (explicitFormat ty) e v g) :
    evalExpr false line env ty e = .yes (.num v g) := by
  induction h with
  | num n => rfl
  | line => simp [evalExpr]
  | @var x n f h =>
    cases x with
    | user s => simp only [evalExpr]; rw [h]
    | global s => simp only [evalExpr]; rw [h]
    | pseudo s => exact absurd h (get_pseudo _ _)
  | @bin op l r lv lf rv rf x v g _ _ hx hr hf ihl ihr =>
    simp only [evalExpr, ihl, ihr, Smart.Step.bind]
    unfold ResultFormat at hf
    by_cases hn : lf = none ∧ rf = none ∧ explicitFormat ty = none
    · rw [if_pos hn] at hf
      obtain ⟨rfl, rfl, h3⟩ := hn
      rw [applyOp_of_exact hx hr]
      simp [Num.inferFormat, h3, hf]
    · rw [if_neg hn] at hf
      obtain ⟨h1, h2⟩ := hf
      rw [← h2]
      cases g with
      | none => exact absurd rfl h1
      | some f =>
        simp only [applyOp_of_exact hx hr, Smart.Step.yes.injEq, Evald.num.injEq, true_and]
        rw [if_neg]
        intro hb
        apply hn
        simp only [Bool.and_eq_true, Option.isNone_iff_eq_none] at hb
        exact ⟨hb.1.1, hb.1.2, hb.2⟩

theorem evalExpr_not_no : ∀ (e : Expr) (f : Failure), evalExpr ck line env ty e ≠ .no f
  | .num _, f, h => by simp [evalExpr] at h
  | .var (.pseudo s), f, h => by simp only [evalExpr] at h; split at h <;> simp at h
  | .var (.user s), f, h => by simp only [evalExpr] at h; split at h <;> simp at h
  | .var (.global s), f, h => by simp only [evalExpr] at h; split at h <;> simp at h
  | .bin op l r, f, h => by
    have ha : ∀ c x g, arith c x ≠ .no g := by
      intro c x g h
      unfold arith at h
      split at h
      · simp at h
      · split at h <;> simp at h
    have hop : ∀ x y g, applyOp ck op x y ≠ .no g := by
      intro x y g h
      cases op with
      | add => exact ha _ _ _ h
      | sub => exact ha _ _ _ h
      | mul => exact ha _ _ _ h
      | div =>
        simp only [applyOp] at h
        split at h
        · simp at h
        · exact ha _ _ _ h
      | min => simp [applyOp] at h
      | max => simp [applyOp] at h
    simp only [evalExpr] at h
    cases hl : evalExpr ck line env ty l with
    | no g => exact evalExpr_not_no l g hl
    | err => rw [hl] at h; simp [Smart.Step.bind] at h
    | panic => rw [hl] at h; simp [Smart.Step.bind] at h
    | yes lv =>
      cases hr : evalExpr ck line env ty r with
      | no g => exact evalExpr_not_no r g hr
      | err => rw [hl, hr] at h; simp [Smart.Step.bind] at h
      | panic => rw [hl, hr] at h; simp [Smart.Step.bind] at h
      | yes rv =>
        rw [hl, hr] at h
        simp only [Smart.Step.bind] at h
        split at h
        · rename_i a c d e'
          split at h
          · simp at h
          · cases hx : applyOp ck op a d with
            | no g => exact hop _ _ _ hx
            | err => rw [hx] at h; simp at h
            | panic => rw [hx] at h; simp at h
            | yes => rw [hx] at h; simp at h
        · simp at h

theorem value_unique {e : Expr} {v v' : Int} {g g' : Option NumFmt} (h : Value line env asked e v g) (h' : Value line env asked e v' g') :
    v = v' ∧ g = g' := by
  have h1 := evalExpr_complete (ty := some (.number asked)) h
  have h2 := evalExpr_complete (ty := some (.number asked)) h'
  rw [h1] at h2
  simpa using h2

theorem text_unique {e : Expr} {t t' : Str} (h : Text line env asked e t) (h' : Text line env asked e t') : t = t' := by
  have key : ∀ {x s v g}, env.get (keyOf x) = .ok (some (.str s)) → ¬ Value line env asked (.var x) v g := by
    intro x s v g h1 h2
    cases h2 with
    | line => exact absurd h1 (get_pseudo _ _)
    | var h2 => rw [h1] at h2; simp at h2
  cases h with
  | str h1 =>
    cases h' with
    | str h2 => rw [h1] at h2; simpa using h2
    | num h2 => exact absurd h2 (key h1)
  | num h1 =>
    cases h' with
    | str h2 => exact absurd h1 (key h2)
    | num h2 => obtain ⟨rfl, rfl⟩ := value_unique h1 h2; rfl

end Litcheck.Pattern

namespace Litcheck.Pattern
open Litcheck.Smart Litcheck.Spec Litcheck.PatternSpec
open Litcheck.Lex (VarName Expr Op)
variable {ck : Bool} {line : Nat} {env : Vars} {ty : Option Ty} {asked : Option NumFmt}

theorem value_exact {e : Expr} {v : Int} {g : Option NumFmt} (h : Value line env asked e v g) (hf : AllFit line env e) : ExactValue line env e v := by
  induction h with
  | num n => exact .num n
  | line => exact .line
  | var h => exact .var h
  | @bin op l r lv lf rv rf x v g _ _ hx hr _ ihl ihr =>
    have := ExactValue.bin (ihl hf.1) (ihr hf.2.1) hx
    obtain rfl := hr.1 (.inr (.inr (hf.2.2 x this)))
    exact this

/-- If no result overflows, all builds give the same. -/
theorem evalExpr_builds {e : Expr} (hf : AllFit line env e) {v : Int} {g : Option NumFmt} (h : Value line env (explicitFormat ty) e v g) :
    evalExpr ck line env ty e = .yes (.num v g) := by
  have hex := value_exact h hf
  have key : ∀ {op l r x}, Exact op l r x → Fits x → applyOp ck op l r = .yes x := by
    intro op l r x hx hfit
    have hr : Reduced op x x := ⟨fun _ => rfl, fun hn => absurd (.inr (.inr hfit)) hn⟩
    have h1 := applyOp_of_exact hx hr
    have h2 : ∀ y c, Fits y → arith c y = .yes y := by
      intro y c hy
      unfold arith
      rw [if_pos (inI128_iff.2 hy)]
    cases op with
    | add => cases hx; exact h2 _ _ hfit
    | sub => cases hx; exact h2 _ _ hfit
    | mul => cases hx; exact h2 _ _ hfit
    | div => exact h1
    | min => exact h1
    | max => exact h1
  clear hex
  induction h with
  | num n => rfl
  | line => simp [evalExpr]
  | @var x n f h =>
    cases x with
    | user s => simp only [evalExpr]; rw [h]
    | global s => simp only [evalExpr]; rw [h]
    | pseudo s => exact absurd h (get_pseudo _ _)
  | @bin op l r lv lf rv rf x v g h1 h2 hx hr hrf ihl ihr =>
    have hfit := hf.2.2 x (.bin (value_exact h1 hf.1) (value_exact h2 hf.2.1) hx)
    obtain rfl := hr.1 (.inr (.inr hfit))
    simp only [evalExpr, ihl hf.1, ihr hf.2.1, Smart.Step.bind]
    unfold ResultFormat at hrf
    by_cases hn : lf = none ∧ rf = none ∧ explicitFormat ty = none
    · rw [if_pos hn] at hrf
      obtain ⟨rfl, rfl, h3⟩ := hn
      rw [key hx hfit]
      simp [Num.inferFormat, h3, hrf]
    · rw [if_neg hn] at hrf
      obtain ⟨h3, h4⟩ := hrf
      rw [← h4]
      cases g with
      | none => exact absurd rfl h3
      | some f =>
        simp only [key hx hfit, Smart.Step.yes.injEq, Evald.num.injEq, true_and]
        rw [if_neg]
        intro hb
        apply hn
        simp only [Bool.and_eq_true, Option.isNone_iff_eq_none] at hb
        exact ⟨hb.1.1, hb.1.2, hb.2⟩

/-- A build which checks for overflow computes exactly. -/
theorem evalExpr_checked : ∀ {e : Expr} {v : Int} {g : Option NumFmt}, evalExpr true line env ty e = .yes (.num v g) →
    ExactValue line env e v
  | .num n, v, g, h => by simp only [evalExpr, Smart.Step.yes.injEq, Evald.num.injEq] at h; rw [← h.1]; exact .num n
  | .var x, v, g, h => by
    cases (evalExpr_sound _ _ h).1 _ _ rfl with
    | line => exact .line
    | var h => exact .var h
  | .bin op l r, v, g, h => by
    simp only [evalExpr] at h
    obtain ⟨lv, h1, h⟩ := Step.bind_yes h
    obtain ⟨rv, h2, h⟩ := Step.bind_yes h
    split at h
    · rename_i ln lf rn rf _
      split at h
      · simp at h
      · obtain ⟨w, h3, h⟩ := Step.bind_yes h
        simp only [Smart.Step.yes.injEq, Evald.num.injEq] at h
        obtain ⟨rfl, _⟩ := h
        refine .bin (evalExpr_checked h1) (evalExpr_checked h2) ?_
        obtain ⟨x, hx, hr⟩ := applyOp_exact h3
        have ha : ∀ {y z : Int}, arith true y = .yes z → z = y := by
          intro y z hy
          unfold arith at hy
          split at hy
          · simpa using hy.symm
          · simp at hy
        cases op with
        | add => exact ha h3
        | sub => exact ha h3
        | mul => exact ha h3
        | div =>
          simp only [applyOp] at h3
          split at h3
          · simp at h3
          · rename_i hr0; exact ⟨hr0, ha h3⟩
        | min => obtain rfl := hr.1 (.inl rfl); exact hx
        | max => obtain rfl := hr.1 (.inr (.inl rfl)); exact hx
    · simp at h

end Litcheck.Pattern
