import Verif.Proofs.Cli
import Verif.Proofs.Expr

/-!
# Definitions on the command line: evaluating them
-/

namespace Litcheck.Cli
open Litcheck.CliSpec Litcheck.Spec Litcheck.PatternSpec Litcheck.Pattern
open Litcheck.Lex (Expr VarName Op Token)
open Litcheck.Smart (Val Ty Vars Evald keyOf applyOp explicitFormat evalExpr substText)

variable {ck : Bool} {line dline : Nat} {env : Bindings Cell} {ty : Option Ty}

/-- Reading a variable which is no pseudo variable. -/
theorem eval_var {k : Nat} {d : Bool} {v : VarName} (hv : ∀ s, v ≠ .pseudo s) :
    eval ck line dline env ty (k + 1) d (.var v) =
      match env.get (keyOf v) with
      | .ok (some (.expr e)) => eval ck line dline env ty k true e
      | .ok (some (.val (.num n f))) => some (.yes (.num n f))
      | .ok (some (.val (.str s))) => some (.yes (.str s))
      | .ok (some (.val .undef)) => some (complain d)
      | .ok none => some (complain d)
      | .error p => some (.panic p) := by
  cases v with
  | pseudo s => exact absurd rfl (hv s)
  | user s => rfl
  | global s => rfl

theorem key_pseudo {v : VarName} (hv : ∀ s, v ≠ .pseudo s) : ∀ s, keyOf v ≠ .pseudo s := by
  cases v with
  | pseudo s => exact absurd rfl (hv s)
  | user s => simp [keyOf]
  | global s => simp [keyOf]

/-- More depth changes nothing. -/
theorem eval_mono : ∀ (k : Nat) {k' : Nat} {d : Bool} {e : Expr} {x : Smart.Step Evald}, k ≤ k' →
    eval ck line dline env ty k d e = some x → eval ck line dline env ty k' d e = some x
  | 0, _, _, _, _, _, h => by simp [eval] at h
  | k + 1, 0, _, _, _, hk, _ => by omega
  | k + 1, k' + 1, d, e, x, hk, h => by
    have hk : k ≤ k' := by omega
    cases e with
    | num n => exact h
    | var v =>
      by_cases hv : ∃ s, v = .pseudo s
      · obtain ⟨s, rfl⟩ := hv; exact h
      · have hv : ∀ s, v ≠ .pseudo s := fun s e => hv ⟨s, e⟩
        rw [eval_var hv] at h ⊢
        split at h
        · exact eval_mono k hk h
        all_goals exact h
    | bin op l r =>
      simp only [eval] at h ⊢
      cases hl : eval ck line dline env ty k d l with
      | none => rw [hl] at h; cases h
      | some xl =>
        rw [hl] at h
        rw [eval_mono k hk hl]
        cases xl with
        | yes lv =>
          dsimp only at h ⊢
          cases hr : eval ck line dline env ty k d r with
          | none => rw [hr] at h; cases h
          | some xr =>
            rw [hr] at h
            rw [eval_mono k hk hr]
            exact h
        | no f => exact h
        | err => exact h
        | panic p => exact h

theorem combine_sound {d : Bool} {op : Op} {l r : Evald} {v : Int} {g : Option NumFmt} (h : combine ck d ty op l r = .yes (.num v g)) :
    ∃ lv lf rv rf x, l = .num lv lf ∧ r = .num rv rf ∧ Exact op lv rv x ∧ Reduced op x v ∧ ResultFormat (explicitFormat ty) lf rf g := by
  unfold combine at h
  split at h
  · rename_i ln lf rn rf
    split at h
    · cases h
    · rename_i f hf
      obtain ⟨v', h3, h⟩ := Pattern.Step.bind_yes h
      simp only [Smart.Step.yes.injEq, Evald.num.injEq] at h
      obtain ⟨rfl, rfl⟩ := h
      obtain ⟨x, hx1, hx2⟩ := applyOp_exact h3
      refine ⟨ln, lf, rn, rf, x, rfl, rfl, hx1, hx2, ?_⟩
      unfold ResultFormat
      by_cases hn : lf = none ∧ rf = none ∧ explicitFormat ty = none
      · rw [if_pos hn]
        simp [hn.1, hn.2.1, hn.2.2]
      · rw [if_neg hn]
        have : (lf.isNone && rf.isNone && (explicitFormat ty).isNone) = false := by
          cases lf <;> cases rf <;> cases he : explicitFormat ty <;> simp_all
        rw [this]
        refine ⟨by simp, ?_⟩
        rw [hf]
        simp
  · unfold complain at h
    split at h <;> cases h

theorem combine_complete {d : Bool} {op : Op} {lv rv x v : Int} {lf rf g : Option NumFmt} (hx : Exact op lv rv x) (hr : Reduced op x v)
    (hf : ResultFormat (explicitFormat ty) lf rf g) (hop : applyOp ck op lv rv = .yes v) :
    combine ck d ty op (.num lv lf) (.num rv rf) = .yes (.num v g) := by
  simp only [combine]
  unfold ResultFormat at hf
  by_cases hn : lf = none ∧ rf = none ∧ explicitFormat ty = none
  · rw [if_pos hn] at hf
    obtain ⟨rfl, rfl, h3⟩ := hn
    rw [hop]
    simp [Num.inferFormat, h3, hf, Smart.Step.bind]
  · rw [if_neg hn] at hf
    obtain ⟨h1, h2⟩ := hf
    rw [← h2]
    cases g with
    | none => exact absurd rfl h1
    | some f =>
      simp only [hop, Smart.Step.bind, Smart.Step.yes.injEq, Evald.num.injEq, true_and]
      rw [if_neg]
      intro hb
      apply hn
      simp only [Bool.and_eq_true, Option.isNone_iff_eq_none] at hb
      exact ⟨hb.1.1, hb.1.2, hb.2⟩

theorem eval_sound : ∀ (k : Nat) {d : Bool} {e : Expr} {v : Int} {g : Option NumFmt},
    eval ck line dline env ty k d e = some (.yes (.num v g)) → CellValue line dline env (explicitFormat ty) d e v g
  | 0, _, _, _, _, h => by simp [eval] at h
  | k + 1, d, e, v, g, h => by
    cases e with
    | num n => simp only [eval] at h; cases h; exact .num _
    | var x =>
      by_cases hv : ∃ s, x = .pseudo s
      · obtain ⟨s, rfl⟩ := hv
        simp only [eval] at h
        split at h
        · rename_i hs
          subst hs
          cases h
          exact .line
        · unfold complain at h
          split at h <;> cases h
      · have hv : ∀ s, x ≠ .pseudo s := fun s e => hv ⟨s, e⟩
        rw [eval_var hv] at h
        split at h
        · rename_i hg; exact .defined hg (eval_sound k h)
        · rename_i hg; cases h; exact .var hg
        · cases h
        · unfold complain at h; split at h <;> cases h
        · unfold complain at h; split at h <;> cases h
        · cases h
    | bin op l r =>
      simp only [eval] at h
      split at h
      · rename_i lv hl
        split at h
        · rename_i rv hr
          simp only [Option.some.injEq] at h
          obtain ⟨lv, lf, rv, rf, x, rfl, rfl, h1, h2, h3⟩ := combine_sound h
          exact .bin (eval_sound k hl) (eval_sound k hr) h1 h2 h3
        · rename_i hne; exact absurd h (hne _)
      · rename_i hne; exact absurd h (hne _)

theorem eval_complete {d : Bool} {e : Expr} {v : Int} {g : Option NumFmt} (h : CellValue line dline env (explicitFormat ty) d e v g) :
    ∃ k, eval false line dline env ty k d e = some (.yes (.num v g)) := by
  induction h with
  | num n => exact ⟨1, rfl⟩
  | line => exact ⟨1, by simp [eval]⟩
  | @var d x n f h =>
    have hv : ∀ s, x ≠ .pseudo s := by rintro s rfl; simp [keyOf, Bindings.get] at h
    exact ⟨1, by rw [eval_var hv, h]⟩
  | @defined d x e n f h _ ih =>
    have hv : ∀ s, x ≠ .pseudo s := by rintro s rfl; simp [keyOf, Bindings.get] at h
    obtain ⟨k, hk⟩ := ih
    exact ⟨k + 1, by rw [eval_var hv, h]; exact hk⟩
  | @bin d op l r lv lf rv rf x v g _ _ hx hr hf ihl ihr =>
    obtain ⟨k1, h1⟩ := ihl
    obtain ⟨k2, h2⟩ := ihr
    refine ⟨max k1 k2 + 1, ?_⟩
    simp only [eval]
    rw [eval_mono k1 (Nat.le_max_left _ _) h1]
    dsimp only
    rw [eval_mono k2 (Nat.le_max_right _ _) h2]
    dsimp only
    rw [combine_complete hx hr hf (applyOp_of_exact hx hr)]

/-! ## Ending -/

/-- If the definitions named by an expression end, so does the expression. -/
theorem ends_of {d : Bool} {e : Expr}
    (h : ∀ x ∈ varsOf e, ∀ e', env.get (keyOf x) = .ok (some (.expr e')) → ∃ k, eval ck line dline env ty k true e' ≠ none) :
    ∃ k, eval ck line dline env ty k d e ≠ none := by
  induction e with
  | num n => exact ⟨1, by simp [eval]⟩
  | var x =>
    by_cases hv : ∃ s, x = .pseudo s
    · obtain ⟨s, rfl⟩ := hv; exact ⟨1, by simp [eval]⟩
    · have hv : ∀ s, x ≠ .pseudo s := fun s e => hv ⟨s, e⟩
      cases hg : env.get (keyOf x) with
      | error p => exact ⟨1, by rw [eval_var hv, hg]; simp⟩
      | ok c =>
        cases c with
        | none => exact ⟨1, by rw [eval_var hv, hg]; simp⟩
        | some c =>
          cases c with
          | expr e' =>
            obtain ⟨k, hk⟩ := h x (by simp [varsOf]) e' hg
            exact ⟨k + 1, by rw [eval_var hv, hg]; exact hk⟩
          | val v => exact ⟨1, by rw [eval_var hv, hg]; cases v <;> simp⟩
  | bin op l r ihl ihr =>
    obtain ⟨k1, h1⟩ := ihl (fun x hx => h x (by simp [varsOf, hx]))
    obtain ⟨k2, h2⟩ := ihr (fun x hx => h x (by simp [varsOf, hx]))
    obtain ⟨x1, h1⟩ := Option.ne_none_iff_exists'.1 h1
    obtain ⟨x2, h2⟩ := Option.ne_none_iff_exists'.1 h2
    refine ⟨max k1 k2 + 1, ?_⟩
    simp only [eval]
    rw [eval_mono k1 (Nat.le_max_left _ _) h1]
    cases x1 with
    | yes lv =>
      dsimp only
      rw [eval_mono k2 (Nat.le_max_right _ _) h2]
      cases x2 <;> simp
    | no f => simp
    | err => simp
    | panic p => simp

/-- Definitions with a rank end. -/
theorem ends_ranked (rank : VName → Nat)
    (h : ∀ x e, env.get (keyOf x) = .ok (some (.expr e)) → ∀ y ∈ varsOf e, ∀ e', env.get (keyOf y) = .ok (some (.expr e')) →
      rank (keyOf y) < rank (keyOf x)) (d : Bool) (e : Expr) :
    ∃ k, eval ck line dline env ty k d e ≠ none := by
  have main : ∀ n x e', rank (keyOf x) ≤ n → env.get (keyOf x) = .ok (some (.expr e')) → ∃ k, eval ck line dline env ty k true e' ≠ none := by
    intro n
    induction n with
    | zero =>
      intro x e' hr hx
      refine ends_of fun y hy e2 hy2 => ?_
      have := h x e' hx y hy e2 hy2
      omega
    | succ n ih =>
      intro x e' hr hx
      refine ends_of fun y hy e2 hy2 => ih y e2 ?_ hy2
      have := h x e' hx y hy e2 hy2
      omega
  exact ends_of fun x _ e' hx => main _ x e' (Nat.le_refl _) hx

/-! ## Constants -/

theorem constant_eval {e : Expr} {v : Int} (h : Constant e v) (d : Bool) :
    ∃ k g, eval ck line dline env ty k d e = some (.yes (.num v g)) ∧ (explicitFormat ty = none → g = none) := by
  induction h with
  | num n => exact ⟨1, none, rfl, fun _ => rfl⟩
  | @bin op l r x y z _ _ hx hf ihl ihr =>
    obtain ⟨k1, g1, h1, h1'⟩ := ihl
    obtain ⟨k2, g2, h2, h2'⟩ := ihr
    have hr : Reduced op z z := ⟨fun _ => rfl, fun hn => absurd (.inr (.inr hf)) hn⟩
    have hop : applyOp ck op x y = .yes z := by
      have h3 : ∀ y c, Fits y → Smart.arith c y = .yes y := by
        intro y c hy
        unfold Smart.arith
        rw [if_pos (inI128_iff.2 hy)]
      have h4 := applyOp_of_exact hx hr
      cases op with
      | add => cases hx; exact h3 _ _ hf
      | sub => cases hx; exact h3 _ _ hf
      | mul => cases hx; exact h3 _ _ hf
      | div => exact h4
      | min => exact h4
      | max => exact h4
    cases ha : explicitFormat ty with
    | none =>
      obtain rfl := h1' ha
      obtain rfl := h2' ha
      refine ⟨max k1 k2 + 1, none, ?_, fun _ => rfl⟩
      simp only [eval]
      rw [eval_mono k1 (Nat.le_max_left _ _) h1]
      dsimp only
      rw [eval_mono k2 (Nat.le_max_right _ _) h2]
      dsimp only
      rw [combine_complete hx hr (by unfold ResultFormat; rw [if_pos ⟨rfl, rfl, ha⟩]) hop]
    | some f =>
      refine ⟨max k1 k2 + 1, (Num.inferFormat g1 g2).orElse fun _ => some f, ?_, by simp⟩
      simp only [eval]
      rw [eval_mono k1 (Nat.le_max_left _ _) h1]
      dsimp only
      rw [eval_mono k2 (Nat.le_max_right _ _) h2]
      dsimp only
      rw [combine_complete hx hr (by
        unfold ResultFormat
        rw [ha, if_neg (by simp)]
        refine ⟨?_, rfl⟩
        cases Num.inferFormat g1 g2 <;> simp) hop]

/-- The same outcome, but for the format of a number when a format is asked for. -/
def Agree (ty : Option Ty) (a b : Smart.Step Evald) : Prop :=
  a = b ∨ ∃ v f f', explicitFormat ty ≠ none ∧ a = .yes (.num v f) ∧ b = .yes (.num v f')

theorem constants_agree {vars : Vars} (h : Evaluated env vars) (e : Expr) :
    ∃ k x, eval ck line dline env ty k false e = some x ∧ Agree ty x (evalExpr ck line vars ty e) := by
  induction e with
  | num n => exact ⟨1, _, rfl, .inl rfl⟩
  | var x =>
    by_cases hv : ∃ s, x = .pseudo s
    · obtain ⟨s, rfl⟩ := hv
      exact ⟨1, _, rfl, .inl (by simp [evalExpr, complain])⟩
    · have hv : ∀ s, x ≠ .pseudo s := fun s e => hv ⟨s, e⟩
      have he : evalExpr ck line vars ty (.var x) = match vars.get (keyOf x) with
          | .ok (some (.num n f)) => .yes (.num n f)
          | .ok (some (.str s)) => .yes (.str s)
          | .ok (some .undef) => .err
          | .ok none => .err
          | .error p => .panic p := by
        cases x with
        | pseudo s => exact absurd rfl (hv s)
        | user s => rfl
        | global s => rfl
      rw [he]
      rcases h (keyOf x) (key_pseudo hv) with ⟨v, h1, h2⟩ | ⟨h1, h2⟩ | ⟨e, v, hc, h1, h2⟩
      · rw [h2]
        cases v with
        | num n f => exact ⟨1, _, by rw [eval_var hv, h1], .inl rfl⟩
        | str s => exact ⟨1, _, by rw [eval_var hv, h1], .inl rfl⟩
        | undef => exact ⟨1, .err, by rw [eval_var hv, h1]; rfl, .inl rfl⟩
      · exact ⟨1, _, by rw [eval_var hv, h1], .inl (by rw [h2]; rfl)⟩
      · obtain ⟨k, g, h3, h4⟩ := constant_eval (ck := ck) (line := line) (dline := dline) (env := env) (ty := ty) hc true
        refine ⟨k + 1, _, by rw [eval_var hv, h1]; exact h3, ?_⟩
        rw [h2]
        by_cases ha : explicitFormat ty = none
        · rw [h4 ha]; exact .inl rfl
        · exact .inr ⟨v, g, none, ha, rfl, rfl⟩
  | bin op l r ihl ihr =>
    obtain ⟨k1, x1, h1, a1⟩ := ihl
    obtain ⟨k2, x2, h2, a2⟩ := ihr
    have hb : evalExpr ck line vars ty (.bin op l r) = (evalExpr ck line vars ty l).bind fun l =>
        (evalExpr ck line vars ty r).bind fun r => combine ck false ty op l r := by
      simp only [evalExpr, combine]
      rfl
    have key : eval ck line dline env ty (max k1 k2 + 1) false (.bin op l r) = some (x1.bind fun l => x2.bind fun r => combine ck false ty op l r) := by
      simp only [eval]
      rw [eval_mono k1 (Nat.le_max_left _ _) h1]
      cases x1 with
      | yes lv =>
        dsimp only [Smart.Step.bind]
        rw [eval_mono k2 (Nat.le_max_right _ _) h2]
        cases x2 <;> rfl
      | no f => rfl
      | err => rfl
      | panic p => rfl
    refine ⟨_, _, key, ?_⟩
    rw [hb]
    have fmt : ∀ a, explicitFormat ty ≠ none → ∃ f, ((a : Option NumFmt).orElse fun _ => explicitFormat ty) = some f := by
      intro a ha
      cases a with
      | some f => exact ⟨f, rfl⟩
      | none =>
        cases hh : explicitFormat ty with
        | none => exact absurd hh ha
        | some f => exact ⟨f, rfl⟩
    have comb : explicitFormat ty ≠ none → ∀ lv lf lf' rv rf rf',
        Agree ty (combine ck false ty op (.num lv lf) (.num rv rf)) (combine ck false ty op (.num lv lf') (.num rv rf')) := by
      intro ha lv lf lf' rv rf rf'
      simp only [combine]
      obtain ⟨f1, e1⟩ := fmt (Num.inferFormat lf rf) ha
      obtain ⟨f2, e2⟩ := fmt (Num.inferFormat lf' rf') ha
      rw [e1, e2]
      dsimp only
      cases applyOp ck op lv rv with
      | yes v => exact .inr ⟨v, _, _, ha, rfl, rfl⟩
      | no f => exact .inl rfl
      | err => exact .inl rfl
      | panic p => exact .inl rfl
    rcases a1 with rfl | ⟨v, f, f', ha, rfl, e1⟩
    · rcases a2 with rfl | ⟨w, g, g', ha, rfl, e2⟩
      · exact .inl rfl
      · rw [e2]
        cases evalExpr ck line vars ty l with
        | yes lv =>
          cases lv with
          | num lv lf => exact comb ha _ _ _ _ _ _
          | str s => exact .inl rfl
        | no f => exact .inl rfl
        | err => exact .inl rfl
        | panic p => exact .inl rfl
    · rw [e1]
      rcases a2 with rfl | ⟨w, g, g', -, rfl, e2⟩
      · cases evalExpr ck line vars ty r with
        | yes rv =>
          cases rv with
          | num rv rf => exact comb ha _ _ _ _ _ _
          | str s => exact .inl rfl
        | no f => exact .inl rfl
        | err => exact .inl rfl
        | panic p => exact .inl rfl
      · rw [e2]; exact comb ha _ _ _ _ _ _

end Litcheck.Cli
