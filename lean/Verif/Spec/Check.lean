import Verif.Spec.Lines
import Verif.Model.Program
import Mathlib.Data.List.Forall2

/-!
# Specification: when does an input satisfy a list of directives?

From the model, this file only uses the directive kinds (`Kind`).  It says nothing about cursors,
groups, trees, blocks or match results.
-/

namespace Litcheck.Spec

/-- The meaning of a pattern: in variable environment `env`, the bytes `s ≤ i < e` of the buffer match
the pattern, and matching them there yields the environment `env'`. -/
abbrev Meaning (E : Type) := E → Buf → Nat → Nat → E → Prop

/-- A directive: its kind and the meaning of its pattern. -/
structure Directive (E : Type) where
  kind : Kind
  mean : Meaning E

variable {E : Type}

/-- The pattern matches nowhere inside `lo..hi`, in whatever environment. -/
def Absent (m : Meaning E) (b : Buf) (lo hi : Nat) : Prop :=
  ∀ s e, lo ≤ s → s ≤ e → e ≤ hi → ∀ env env', ¬ m env b s e env'

/-- Every one of the patterns is absent from `lo..hi`. -/
def AllAbsent (ms : List (Meaning E)) (b : Buf) (lo hi : Nat) : Prop :=
  ∀ m ∈ ms, Absent m b lo hi

/-- Standing at `pos`, the rest of the line is empty and the next line, which starts at `s`, is empty.
(The second case is the end of the input: `CHECK-EMPTY` is also accepted there.) -/
def EmptyNext (b : Buf) (pos s : Nat) : Prop :=
  (IsLF b pos ∧ s = pos + 1 ∧ (s = b.length ∨ IsLF b s)) ∨ (pos = b.length ∧ s = pos)

/-- One ordered directive: starting at `pos` in a block ending at `hi`, it is matched by the bytes
`s ≤ i < e`. -/
def Step (d : Directive E) (b : Buf) (hi pos : Nat) (env : E) (s e : Nat) (env' : E) : Prop :=
  pos ≤ s ∧ s ≤ e ∧ e ≤ hi ∧
  match d.kind with
  | .plain => d.mean env b s e env'
  | .next => d.mean env b s e env' ∧ ∃ n, FirstLF b pos n ∧ n < s ∧ NoLF b (n + 1) e
  | .same => d.mean env b s e env' ∧ NoLF b pos e
  | .empty => EmptyNext b pos s ∧ e = s ∧ env' = env
  | _ => False

/-- `n` successive matches of `m`, each after the end of the one before; `s` is the start of the first
one and `e` the end of the last one. -/
inductive Chain (m : Meaning E) (b : Buf) (hi : Nat) : Nat → Nat → E → Nat → Nat → E → Prop
  | one {pos env s e env'} : pos ≤ s → s ≤ e → e ≤ hi → m env b s e env' → Chain m b hi 1 pos env s e env'
  | more {n pos env s e env' s' e' env''} : pos ≤ s → s ≤ e → e ≤ hi → m env b s e env' →
      Chain m b hi n e env' s' e' env'' → Chain m b hi (n + 1) pos env s e' env''

/-- Two half-open intervals do not overlap. -/
def Disjoint (x y : Nat × Nat) : Prop := x.2 ≤ y.1 ∨ y.2 ≤ x.1

/-- Matching the pattern changes no variable. -/
def BindsNothing (m : Meaning E) : Prop := ∀ env b s e env', m env b s e env' → env' = env

/-- A group of unordered directives is matched: every one has its own span inside `pos..hi`, no two
spans overlap, `s` is the smallest start and `e` the largest end. -/
def DagMatch (ms : List (Meaning E)) (b : Buf) (hi pos s e : Nat) : Prop :=
  ∃ spans : List (Nat × Nat),
    List.Forall₂ (fun m sp => pos ≤ sp.1 ∧ sp.1 ≤ sp.2 ∧ sp.2 ≤ hi ∧ ∃ env env', m env b sp.1 sp.2 env') ms spans ∧
    spans.Pairwise Disjoint ∧
    (∀ sp ∈ spans, s ≤ sp.1 ∧ sp.2 ≤ e) ∧ (∃ sp ∈ spans, sp.1 = s) ∧ (∃ sp ∈ spans, sp.2 = e)

/-- The lines of the group with the numbers `order` are matched one after the other at their spans, each with the variables left by the
one before it. -/
inductive Threads (ms : List (Meaning E)) (spans : List (Nat × Nat)) (b : Buf) : List Nat → E → E → Prop
  | nil {env} : Threads ms spans b [] env env
  | cons {p ps m sp env env1 env2} : ms[p]? = some m → spans[p]? = some sp → m env b sp.1 sp.2 env1 →
      Threads ms spans b ps env1 env2 → Threads ms spans b (p :: ps) env env2

/-- A group of unordered directives is matched as in `DagMatch`, and `env'` has what the lines captured, in the order of their places
in the input. -/
def DagThreaded (ms : List (Meaning E)) (b : Buf) (hi pos s e : Nat) (env env' : E) : Prop :=
  ∃ spans : List (Nat × Nat),
    List.Forall₂ (fun m sp => pos ≤ sp.1 ∧ sp.1 ≤ sp.2 ∧ sp.2 ≤ hi ∧ ∃ env env', m env b sp.1 sp.2 env') ms spans ∧
    spans.Pairwise Disjoint ∧
    (∀ sp ∈ spans, s ≤ sp.1 ∧ sp.2 ≤ e) ∧ (∃ sp ∈ spans, sp.1 = s) ∧ (∃ sp ∈ spans, sp.2 = e) ∧
    ∃ order : List Nat, order.Perm (List.range ms.length) ∧
      order.Pairwise (fun p q => ∀ sp sq, spans[p]? = some sp → spans[q]? = some sq → sp.2 ≤ sq.1) ∧
      Threads ms spans b order env env'

/-- `Run b hi pos env nots ds pos' env'`: in a block of `b` ending at `hi`, starting at `pos` in `env`,
with the patterns `nots` forbidden until the next positive match, the directives `ds` are satisfied, and
the last positive match ends at `pos'`. -/
inductive Run (b : Buf) (hi : Nat) : Nat → E → List (Meaning E) → List (Directive E) → Nat → E → Prop
  /-- at the end, what is still forbidden must not occur in the rest of the block -/
  | done {pos env nots} : AllAbsent nots b pos hi → Run b hi pos env nots [] pos env
  /-- a `CHECK-NOT` is forbidden from here on -/
  | not {pos env nots m ds pos' env'} : Run b hi pos env (nots ++ [m]) ds pos' env' →
      Run b hi pos env nots (⟨.not, m⟩ :: ds) pos' env'
  /-- an ordered directive matches, and nothing forbidden occurs before its match -/
  | step {pos env nots d ds s e env1 pos' env'} : Step d b hi pos env s e env1 → AllAbsent nots b pos s →
      Run b hi e env1 [] ds pos' env' → Run b hi pos env nots (d :: ds) pos' env'
  /-- `CHECK-COUNT-n` -/
  | count {pos env nots n m ds s e env1 pos' env'} : Chain m b hi n pos env s e env1 → AllAbsent nots b pos s →
      Run b hi e env1 [] ds pos' env' → Run b hi pos env nots (⟨.count n, m⟩ :: ds) pos' env'
  /-- a group of `CHECK-DAG` directives, of which the matches pass the variables on in the order of their places -/
  | dags {pos env nots ms ds s e env1 pos' env'} : ms ≠ [] → DagThreaded ms b hi pos s e env env1 →
      AllAbsent nots b pos s →
      Run b hi e env1 [] ds pos' env' → Run b hi pos env nots (ms.map (⟨.dag, ·⟩) ++ ds) pos' env'

end Litcheck.Spec
