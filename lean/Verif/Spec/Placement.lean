import Verif.Spec.Labels

/-!
# Specification: where the directives of a block are matched

`place i` is the span of the input where directive number `i` of the block is matched, `envs i` are the
variables before directive `i`.  Everything a user expects of a passing block is a statement about these
spans.
-/

namespace Litcheck.Spec
variable {E : Type}

/-- Directive number `i` requires a match (it is not a `CHECK-NOT`). -/
def Positive (ds : List (Directive E)) (i : Nat) : Prop := ∃ d, ds[i]? = some d ∧ d.kind ≠ .not

/-- Directives number `i` to `j` are consecutive `CHECK-DAG` directives. -/
def SameDagGroup (ds : List (Directive E)) (i j : Nat) : Prop :=
  ∀ k, i ≤ k → k ≤ j → ∃ d, ds[k]? = some d ∧ d.kind = .dag

/-- Directives number `i` and `j` are of one group of consecutive `CHECK-DAG` directives. -/
def Together (ds : List (Directive E)) (i j : Nat) : Prop := (i ≤ j ∧ SameDagGroup ds i j) ∨ (j ≤ i ∧ SameDagGroup ds j i)

/-- `p` is where directive `i` starts looking: the end of what was matched before it (the start `lo` of the
block if nothing was). -/
def PrevEnd (ds : List (Directive E)) (place : Nat → Nat × Nat) (lo i p : Nat) : Prop :=
  lo ≤ p ∧ (∀ j, j < i → Positive ds j → (place j).2 ≤ p) ∧ (p = lo ∨ ∃ j, j < i ∧ Positive ds j ∧ (place j).2 = p)

/-- `n` is where the next match after directive `i` starts (the end `hi` of the block if there is none). -/
def NextStart (ds : List (Directive E)) (place : Nat → Nat × Nat) (hi i n : Nat) : Prop :=
  n ≤ hi ∧ (∀ j, i < j → Positive ds j → n ≤ (place j).1) ∧ (n = hi ∨ ∃ j, i < j ∧ Positive ds j ∧ (place j).1 = n)

/-- The span `sp` fits a directive which starts looking at `p`. -/
def Fits (b : Buf) (hi : Nat) (d : Directive E) (p : Nat) (env : E) (sp : Nat × Nat) (env' : E) : Prop :=
  match d.kind with
  | .plain => d.mean env b sp.1 sp.2 env'
  | .next => d.mean env b sp.1 sp.2 env' ∧ lfCount b p sp.1 = 1 ∧ NoLF b sp.1 sp.2
  | .same => d.mean env b sp.1 sp.2 env' ∧ NoLF b p sp.2
  | .empty => EmptyNext b p sp.1 ∧ sp.2 = sp.1 ∧ env' = env
  | .count n => Chain d.mean b hi n p env sp.1 sp.2 env'
  | .dag => ∃ x y, d.mean x b sp.1 sp.2 y
  | .not => env' = env
  | .label => False

/-- The directives with the numbers `i`, …, `i + n - 1` are all the `CHECK-DAG` directives of a group. -/
def WholeDags (ds : List (Directive E)) (i n : Nat) : Prop :=
  (∀ k, k < n → ∃ d, ds[i + k]? = some d ∧ d.kind = .dag) ∧ (∀ j d, i = j + 1 → ds[j]? = some d → d.kind ≠ .dag) ∧
  ∀ d, ds[i + n]? = some d → d.kind ≠ .dag

/-- The patterns with the numbers `order` are matched at their places one after the other, each with the variables left by the one
before it. -/
inductive InTurn (ms : List (Meaning E)) (b : Buf) (place : Nat → Nat × Nat) : List Nat → E → E → Prop
  | nil {env} : InTurn ms b place [] env env
  | cons {p ps m env env1 env2} : ms[p]? = some m → m env b (place p).1 (place p).2 env1 → InTurn ms b place ps env1 env2 →
      InTurn ms b place (p :: ps) env env2

/-- The directives `ds` are matched at `place` in the block `lo..hi`. -/
structure Placed (b : Buf) (lo hi : Nat) (ds : List (Directive E)) (env : E) (place : Nat → Nat × Nat)
    (envs : Nat → E) : Prop where
  start : envs 0 = env
  inside : ∀ i, Positive ds i → lo ≤ (place i).1 ∧ (place i).1 ≤ (place i).2 ∧ (place i).2 ≤ hi
  order : ∀ i j, i < j → Positive ds i → Positive ds j → ¬ SameDagGroup ds i j → (place i).2 ≤ (place j).1
  disjoint : ∀ i j, i ≠ j → Positive ds i → Positive ds j → Disjoint (place i) (place j)
  fits : ∀ i d p, ds[i]? = some d → PrevEnd ds place lo i p → Fits b hi d p (envs i) (place i) (envs (i + 1))
  absent : ∀ i d p n, ds[i]? = some d → d.kind = .not → PrevEnd ds place lo i p → NextStart ds place hi i n →
    Absent d.mean b p n
  dags : ∀ i d, ds[i]? = some d → d.kind = .dag → (∀ j d', ds[j]? = some d' → Together ds i j → BindsNothing d'.mean) → envs (i + 1) = envs i
  groups : ∀ i n, WholeDags ds i n → ∃ order : List Nat, order.Perm (List.range' i n) ∧
    order.Pairwise (fun p q => (place p).2 ≤ (place q).1) ∧ InTurn (ds.map Directive.mean) b place order (envs i) (envs (i + n))

end Litcheck.Spec
