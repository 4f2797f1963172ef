import Verif.Spec.Labels

/-!
# Specification: checking by first matches

How FileCheck is documented to work, without cursors, groups, trees or blocks of the program: the checks
are taken one after the other, each one takes the *first* match of its pattern in the part of the input it
may use, and there is no backtracking.  From the model, this file only uses the directive kinds (`Kind`).
-/

namespace Litcheck.Spec

/-- `F env b lo hi s e env'`: with the variables `env`, the first match of the pattern in the bytes
`lo ≤ i < hi` of the input is `s ≤ i < e`, and it leaves the variables `env'`. -/
abbrev Finder (E : Type) := E → Buf → Nat → Nat → Nat → Nat → E → Prop

/-- A check: its kind, what the first match of its pattern is, and what all the matches are (which is what
matters for `CHECK-NOT`). -/
structure Check (E : Type) where
  kind : Kind
  first : Finder E
  mean : Meaning E

variable {E : Type}

/-- The first match, for a pattern whose matches are described by `μ`: no match of it starts earlier. -/
def FirstOf (μ : Meaning E) : Finder E := fun env b lo hi s e env' =>
  lo ≤ s ∧ s ≤ e ∧ e ≤ hi ∧ μ env b s e env' ∧
    ∀ s' e' env'', lo ≤ s' → s' ≤ e' → e' ≤ hi → μ env b s' e' env'' → s ≤ s'

/-- Of the matches which start first, there may be several: they differ in their end, and in the variables they leave.  A choice among
them, for the bytes `lo ≤ i < hi` of the input: an end and variables. -/
abbrev Choice (E : Type) := E → Buf → Nat → Nat → Nat × E

/-- The choice is one of the first matches, if there are any. -/
def Picks (μ : Meaning E) (pick : Choice E) : Prop :=
  ∀ env b lo hi s e env', hi ≤ b.length → FirstOf μ env b lo hi s e env' →
    FirstOf μ env b lo hi s (pick env b lo hi).1 (pick env b lo hi).2

/-- The first match which is chosen. -/
def FirstBy (μ : Meaning E) (pick : Choice E) : Finder E := fun env b lo hi s e env' =>
  FirstOf μ env b lo hi s e env' ∧ pick env b lo hi = (e, env')

/-- `n` first matches, each one in the text after the one before; `s` is the start of the first one and
`e` the end of the last one. -/
inductive Times (F : Finder E) (b : Buf) (hi : Nat) : Nat → Nat → E → Nat → Nat → E → Prop
  | one {pos env s e env'} : F env b pos hi s e env' → Times F b hi 1 pos env s e env'
  | more {n pos env s e env' s' e' env''} : F env b pos hi s e env' → Times F b hi n e env' s' e' env'' →
      Times F b hi (n + 1) pos env s e' env''

/-- Standing at `pos` in a block which ends at `hi`, the check takes the bytes `s ≤ i < e`. -/
def Takes (d : Check E) (b : Buf) (hi pos : Nat) (env : E) (s e : Nat) (env' : E) : Prop :=
  match d.kind with
  -- `CHECK`: the first match in the rest of the block
  | .plain => d.first env b pos hi s e env'
  -- `CHECK-NEXT`: the first match on the next line
  | .next => ∃ n eol, FirstLF b pos n ∧ LineEnd b (n + 1) eol ∧ eol ≤ hi ∧ d.first env b (n + 1) eol s e env'
  -- `CHECK-SAME`: the first match in the rest of this line
  | .same => ∃ eol, LineEnd b pos eol ∧ eol ≤ hi ∧ d.first env b pos eol s e env'
  -- `CHECK-EMPTY`: the rest of this line and the next line are empty
  | .empty => EmptyNext b pos s ∧ s ≤ hi ∧ e = s ∧ env' = env
  -- `CHECK-COUNT-n`: `n` first matches in a row
  | .count n => Times d.first b hi n pos env s e env'
  | _ => False

/-- `Greedy b hi pos env nots ds pos' env' nots'`: in a block which ends at `hi`, standing at `pos` with the
variables `env`, and with the patterns `nots` forbidden until the next match, the checks `ds` succeed one
after the other; then one stands at `pos'` with the variables `env'`, and the patterns `nots'` are still
forbidden. -/
inductive Greedy (b : Buf) (hi : Nat) :
    Nat → E → List (Meaning E) → List (Check E) → Nat → E → List (Meaning E) → Prop
  | nil {pos env nots} : Greedy b hi pos env nots [] pos env nots
  /-- a `CHECK-NOT` is forbidden from here on -/
  | not {pos env nots d ds pos' env' nots'} : d.kind = .not →
      Greedy b hi pos env (nots ++ [d.mean]) ds pos' env' nots' →
      Greedy b hi pos env nots (d :: ds) pos' env' nots'
  /-- any other check takes its first match, and nothing forbidden occurs before that match -/
  | take {pos env nots d ds s e env1 pos' env' nots'} : Takes d b hi pos env s e env1 → AllAbsent nots b pos s →
      Greedy b hi e env1 [] ds pos' env' nots' → Greedy b hi pos env nots (d :: ds) pos' env' nots'

/-- The checks `ds` of the block `lo..hi` succeed, with the variables `env` before and `env'` after; what is
still forbidden at the end does not occur in the rest of the block. -/
def BlockPasses (b : Buf) (lo hi : Nat) (env : E) (ds : List (Check E)) (env' : E) : Prop :=
  ∃ pos nots, Greedy b hi lo env [] ds pos env' nots ∧ AllAbsent nots b pos hi

/-- The block which starts at `lo`, whose checks are `ds`, passes, and so do the labelled blocks `rest`
which follow it.  A label is looked for first, with the variables `env0`, from the start of the block before
it.  The block before it ends at the end of the line before the label; the block of the label starts at the
end of the line of the label.  `enter` is what happens to the variables at the start of a block. -/
inductive BlocksPass (b : Buf) (enter : E → E) (env0 : E) :
    Nat → E → List (Check E) → List (Check E × List (Check E)) → Prop
  | last {lo env ds env'} : BlockPasses b lo b.length (enter env) ds env' → BlocksPass b enter env0 lo env ds []
  | label {lo env ds l ds' rest s e hi eol env1 env'} : l.first env0 b lo b.length s e env1 →
      PrevLineEnd b s hi → BlockPasses b lo hi (enter env) ds env' → LineEnd b s eol →
      BlocksPass b enter env0 eol env' ds' rest → BlocksPass b enter env0 lo env ds ((l, ds') :: rest)

/-- The whole input: the checks before the first label (if there are none, nothing is required of the input
before that label), and the labelled blocks. -/
inductive FilePasses (b : Buf) (enter : E → E) (env0 : E) :
    List (Check E) → List (Check E × List (Check E)) → Prop
  | head {ds rest} : ds ≠ [] → BlocksPass b enter env0 0 env0 ds rest → FilePasses b enter env0 ds rest
  | noHead {l ds rest s e eol env1} : l.first env0 b 0 b.length s e env1 → LineEnd b s eol →
      BlocksPass b enter env0 eol env0 ds rest → FilePasses b enter env0 [] ((l, ds) :: rest)

end Litcheck.Spec
