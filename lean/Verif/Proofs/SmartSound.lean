import Verif.Proofs.Agree

/-!
# Soundness of the matcher of patterns with variables
-/

namespace Litcheck.Pattern
open Litcheck.Smart Litcheck.Spec Litcheck.RegexSpec Litcheck.PatternSpec
open Litcheck.Regex hiding Items
open Litcheck.Lex (Part Match CPat VarName Expr Op)

theorem Step.bind_yes {α β : Type} {x : Smart.Step α} {f : α → Smart.Step β} {y : β} (h : x.bind f = .yes y) :
    ∃ a, x = .yes a ∧ f a = .yes y := by
  cases x with
  | yes a => exact ⟨a, rfl, h⟩
  | no => simp [Step.bind] at h
  | err => simp [Step.bind] at h
  | panic => simp [Step.bind] at h

/-! ## Expressions -/

theorem inI128_iff {x : Int} : inI128 x = true ↔ Fits x := by
  unfold inI128 Fits
  simp

theorem arith_reduced {ck : Bool} {op : Op} {x v : Int} (hop : op ≠ .div ∨ ck = true) (hmin : op ≠ .min) (hmax : op ≠ .max)
    (h : arith ck x = .yes v) : Reduced op x v := by
  unfold arith at h
  split at h
  · rename_i hr
    simp only [Step.yes.injEq] at h
    subst h
    exact ⟨fun _ => rfl, fun hn => absurd (.inr (.inr (inI128_iff.1 hr))) hn⟩
  · rename_i hr
    split at h
    · simp at h
    · rename_i hck
      simp only [Step.yes.injEq] at h
      subst h
      have hx : ¬ Fits x := fun hx => hr (inI128_iff.2 hx)
      have hd : op ≠ .div := by
        rcases hop with hop | hop
        · exact hop
        · exact absurd hop hck
      have := Int.emod_add_mul_ediv (x + 2 ^ 127) (2 ^ 128)
      have h1 : 0 ≤ (x + 2 ^ 127) % 2 ^ 128 := Int.emod_nonneg _ (by decide)
      have h2 : (x + 2 ^ 127) % 2 ^ 128 < 2 ^ 128 := Int.emod_lt_of_pos _ (by decide)
      refine ⟨?_, fun _ => ⟨hd, ⟨by omega, by omega⟩, (x + 2 ^ 127) / 2 ^ 128, by omega⟩⟩
      rintro (h | h | h)
      · exact absurd h hmin
      · exact absurd h hmax
      · exact absurd h hx

/-- The converse, for an operation which wraps. -/
theorem arith_of_reduced {ck : Bool} {op : Op} {x v : Int} (hc : op = .div ∨ ck = false) (hmin : op ≠ .min) (hmax : op ≠ .max)
    (h : Reduced op x v) : arith ck x = .yes v := by
  unfold arith
  by_cases hf : Fits x
  · rw [if_pos (inI128_iff.2 hf), h.1 (.inr (.inr hf))]
  · obtain ⟨h1, h2, k, h3⟩ := h.2 (by rintro (h | h | h); exacts [hmin h, hmax h, hf h])
    rw [if_neg (fun hh => hf (inI128_iff.1 hh)), if_neg (by rcases hc with hc | hc; exact absurd hc h1; simp [hc])]
    have : (x + 2 ^ 127) % 2 ^ 128 = v + 2 ^ 127 := by
      have e : x + 2 ^ 127 = (v + 2 ^ 127) + 2 ^ 128 * k := by omega
      rw [e, Int.add_mul_emod_self_left]
      exact Int.emod_eq_of_lt (by unfold Fits at h2; omega) (by unfold Fits at h2; omega)
    rw [this]
    simp

theorem reduced_min (x : Int) : Reduced .min x x := ⟨fun _ => rfl, fun h => absurd (.inl rfl) h⟩
theorem reduced_max (x : Int) : Reduced .max x x := ⟨fun _ => rfl, fun h => absurd (.inr (.inl rfl)) h⟩

theorem applyOp_exact {ck : Bool} {op : Op} {l r v : Int} (h : applyOp ck op l r = .yes v) : ∃ x, Exact op l r x ∧ Reduced op x v := by
  cases op with
  | add => exact ⟨_, rfl, arith_reduced (by simp) (by simp) (by simp) h⟩
  | sub => exact ⟨_, rfl, arith_reduced (by simp) (by simp) (by simp) h⟩
  | mul => exact ⟨_, rfl, arith_reduced (by simp) (by simp) (by simp) h⟩
  | div =>
    unfold applyOp at h
    dsimp only at h
    split at h
    · simp at h
    · rename_i hr
      exact ⟨_, ⟨hr, rfl⟩, arith_reduced (by simp) (by simp) (by simp) h⟩
  | min =>
    simp only [applyOp, Step.yes.injEq] at h
    subst h
    refine ⟨_, ?_, reduced_min _⟩
    by_cases hlr : l ≤ r
    · left; exact ⟨hlr, by omega⟩
    · right; exact ⟨by omega, by omega⟩
  | max =>
    simp only [applyOp, Step.yes.injEq] at h
    subst h
    refine ⟨_, ?_, reduced_max _⟩
    by_cases hlr : l ≤ r
    · left; exact ⟨hlr, by omega⟩
    · right; exact ⟨by omega, by omega⟩

theorem applyOp_of_exact {op : Op} {l r x v : Int} (h : Exact op l r x) (hr : Reduced op x v) : applyOp false op l r = .yes v := by
  cases op with
  | add => cases h; exact arith_of_reduced (by simp) (by simp) (by simp) hr
  | sub => cases h; exact arith_of_reduced (by simp) (by simp) (by simp) hr
  | mul => cases h; exact arith_of_reduced (by simp) (by simp) (by simp) hr
  | div =>
    obtain ⟨h1, rfl⟩ := h
    simp only [applyOp, if_neg h1]
    exact arith_of_reduced (by simp) (by simp) (by simp) hr
  | min =>
    obtain rfl := hr.1 (.inl rfl)
    simp only [applyOp, Step.yes.injEq]
    rcases h with ⟨h1, rfl⟩ | ⟨h1, rfl⟩ <;> omega
  | max =>
    obtain rfl := hr.1 (.inr (.inl rfl))
    simp only [applyOp, Step.yes.injEq]
    rcases h with ⟨h1, rfl⟩ | ⟨h1, rfl⟩ <;> omega

theorem evalExpr_sound {ck : Bool} {line : Nat} {env : Vars} {ty : Option Ty} : ∀ (e : Expr) (r : Evald),
    evalExpr ck line env ty e = .yes r →
    (∀ v g, r = .num v g → Value line env (explicitFormat ty) e v g) ∧
    (∀ s, r = .str s → ∃ x, e = .var x ∧ env.get (keyOf x) = .ok (some (.str s)))
  | .num n, r, h => by
    simp only [evalExpr, Step.yes.injEq] at h
    subst h
    exact ⟨fun v g he => by cases he; exact .num n, fun s he => by cases he⟩
  | .var (.pseudo s), r, h => by
    simp only [evalExpr] at h
    split at h
    · rename_i hs
      simp only [Step.yes.injEq] at h
      subst h hs
      exact ⟨fun v g he => by cases he; exact .line, fun s he => by cases he⟩
    · simp at h
  | .var (.user s), r, h => by
    simp only [evalExpr] at h
    split at h
    · rename_i hg
      simp only [Step.yes.injEq] at h
      subst h
      exact ⟨fun v g he => by cases he; exact .var hg, fun s he => by cases he⟩
    · rename_i hg
      simp only [Step.yes.injEq] at h
      subst h
      exact ⟨fun v g he => (by cases he), fun s he => (by cases he; exact ⟨_, rfl, hg⟩)⟩
    all_goals simp at h
  | .var (.global s), r, h => by
    simp only [evalExpr] at h
    split at h
    · rename_i hg
      simp only [Step.yes.injEq] at h
      subst h
      exact ⟨fun v g he => by cases he; exact .var hg, fun s he => by cases he⟩
    · rename_i hg
      simp only [Step.yes.injEq] at h
      subst h
      exact ⟨fun v g he => (by cases he), fun s he => (by cases he; exact ⟨_, rfl, hg⟩)⟩
    all_goals simp at h
  | .bin op l r, res, h => by
    simp only [evalExpr] at h
    obtain ⟨lv, h1, h⟩ := Step.bind_yes h
    obtain ⟨rv, h2, h⟩ := Step.bind_yes h
    have ihl := evalExpr_sound l lv h1
    have ihr := evalExpr_sound r rv h2
    split at h
    · rename_i ln lf rn rf _
      split at h
      · simp at h
      · rename_i f hf
        obtain ⟨v, h3, h⟩ := Step.bind_yes h
        simp only [Step.yes.injEq] at h
        subst h
        obtain ⟨x, hx1, hx2⟩ := applyOp_exact h3
        refine ⟨?_, fun s he => by cases he⟩
        intro v' g he
        cases he
        refine .bin (ihl.1 _ _ rfl) (ihr.1 _ _ rfl) hx1 hx2 ?_
        unfold ResultFormat
        by_cases hn : lf = none ∧ rf = none ∧ explicitFormat ty = none
        · rw [if_pos hn]
          simp [hn.1, hn.2.1, hn.2.2]
        · rw [if_neg hn]
          have : (lf.isNone && rf.isNone && (explicitFormat ty).isNone) = false := by
            cases lf <;> cases rf <;> cases he : explicitFormat ty <;> simp_all
          rw [this]
          refine ⟨by simp, ?_⟩
          rw [hf]
          simp
    · simp at h

/-- The source of a substitution is the text of the expression. -/
theorem substSrc_sound {ck : Bool} {line : Nat} {env : Vars} {ty : Option Ty} {e : Expr} {r : Evald}
    (h : evalExpr ck line env ty e = .yes r) : Text line env (explicitFormat ty) e (substText r ty) := by
  obtain ⟨h1, h2⟩ := evalExpr_sound e r h
  cases r with
  | num v g =>
    have := Text.num (h1 v g rfl)
    match ty with
    | none => exact this
    | some .string => exact this
    | some (.number none) => exact this
    | some (.number (some f)) => exact this
  | str s =>
    obtain ⟨x, rfl, hx⟩ := h2 s rfl
    exact .str hx

/-! ## Environments -/

theorem insert_comm {env : Vars} {k k' : VName} {v v' : Val} (h : k ≠ k') :
    (env.insert k v).insert k' v' = (env.insert k' v').insert k v := by
  have e : ∀ {K : Type} [DecidableEq K] (m : Map K Val) (a b : K) (x y : Val), a ≠ b →
      (m.insert a x).insert b y = (m.insert b y).insert a x := by
    intro K _ m a b x y hab
    funext c
    unfold Map.insert
    by_cases h1 : c = b
    · subst h1
      simp [Ne.symm hab]
    · simp [h1]
  cases k <;> cases k' <;> simp only [Bindings.insert] <;> congr 1 <;> exact e _ _ _ _ _ (by simpa using h)

theorem keyOf_ne {x y : VarName} (h : symOf x ≠ symOf y) : keyOf x ≠ keyOf y := by
  cases x <;> cases y <;> simp [keyOf, symOf, String.ofList_inj] at h ⊢ <;> exact h

/-- The later environment has everything which the earlier one has. -/
def Extends (env env' : Vars) : Prop :=
  env'.system = env.system ∧ (∀ k, (env.global k).isSome → (env'.global k).isSome) ∧ (∀ k, (env.bound k).isSome → (env'.bound k).isSome)

theorem Extends.refl (env : Vars) : Extends env env := ⟨rfl, fun _ h => h, fun _ h => h⟩

theorem Extends.trans {a b c : Vars} (h1 : Extends a b) (h2 : Extends b c) : Extends a c :=
  ⟨h2.1.trans h1.1, fun k h => h2.2.1 k (h1.2.1 k h), fun k h => h2.2.2 k (h1.2.2 k h)⟩

theorem Extends.insert (env : Vars) (k : VName) (v : Val) : Extends env (env.insert k v) := by
  have e : ∀ {K : Type} [DecidableEq K] (m : Map K Val) (a : K) (x : Val) (c : K), (m c).isSome → ((m.insert a x) c).isSome := by
    intro K _ m a x c h
    unfold Map.insert
    split
    · rfl
    · exact h
  cases k with
  | global s => exact ⟨rfl, fun k h => e _ _ _ _ h, fun k h => h⟩
  | user s => exact ⟨rfl, fun k h => h, fun k h => e _ _ _ _ h⟩
  | pseudo s => exact ⟨rfl, fun k h => h, fun k h => e _ _ _ _ h⟩

theorem Extends.merge {env env' : Vars} (h : Extends env env') : env.merge env' = env' := by
  have e : ∀ {K : Type} (m m' : Map K Val), (∀ k, (m k).isSome → (m' k).isSome) → m'.union m = m' := by
    intro K m m' hm
    funext k
    unfold Map.union
    cases h1 : m' k with
    | some v => rfl
    | none =>
      have := hm k
      rw [h1] at this
      cases h2 : m k with
      | none => rfl
      | some v => rw [h2] at this; simp at this
  obtain ⟨h1, h2, h3⟩ := h
  cases env with
  | mk s g d =>
    cases env' with
    | mk s' g' d' =>
      simp only at h1 h2 h3
      subst h1
      simp only [Bindings.merge]
      rw [e _ _ h2, e _ _ h3]

theorem partMatches_extends {cx : PatternSpec.Ctx} {b : Buf} {p : Part} {env env' : Vars} {i j : Nat}
    (h : PartMatches cx b env i j env' p) : Extends env env' := by
  unfold PartMatches at h
  split at h
  · rw [h.1]; exact .refl _
  · rw [h.1]; exact .refl _
  · obtain ⟨_, _, _, rfl⟩ := h; exact .insert _ _ _
  · rw [h.1]; exact .refl _
  · rw [h.1]; exact .refl _
  · rw [h.1]; exact .refl _
  · obtain ⟨_, _, _, _, _, _, _, rfl, _⟩ := h; exact .insert _ _ _

theorem partsMatch_extends {cx : PatternSpec.Ctx} {b : Buf} {ps : List Part} {env env' : Vars} {i j : Nat}
    (h : PartsMatch cx b env ps i j env') : Extends env env' := by
  induction h with
  | nil => exact .refl _
  | cons h1 _ ih => exact (partMatches_extends h1).trans ih

theorem PartsMatch.append {cx : PatternSpec.Ctx} {b : Buf} {ps qs : List Part} {e1 e2 e3 : Vars} {i k j : Nat}
    (h1 : PartsMatch cx b e1 ps i k e2) (h2 : PartsMatch cx b e2 qs k j e3) : PartsMatch cx b e1 (ps ++ qs) i j e3 := by
  induction h1 with
  | nil => exact h2
  | cons h _ ih => exact .cons h (ih h2)

end Litcheck.Pattern
