import Verif.Model.Base

/-!
# Variable environments: `filecheck/src/env.rs`, `filecheck/src/context.rs`

An `OrdMap` is only inserted into, looked up, united and cleared, so it is modelled by its lookup function.
A guard borrows its parent mutably while it lives, so guards nest like brackets: a history is a tree of operations.
-/

namespace Litcheck

/-- Variable names, `core/src/variables/mod.rs:96-101`; spans do not take part in equality
(`core/src/diagnostics/span.rs:281-306`). -/
inductive VName where
  | pseudo (s : String)
  | global (s : String)
  | user (s : String)
  deriving DecidableEq, Repr

/-- `VariableName::into_inner`, `core/src/variables/mod.rs:150-154`. -/
def VName.sym : VName → String
  | .pseudo s | .global s | .user s => s

/-- A map, by its lookup function. -/
abbrev Map (K V : Type) := K → Option V

/-- `OrdMap::insert`. -/
def Map.insert {K V : Type} [DecidableEq K] (m : Map K V) (k : K) (v : V) : Map K V :=
  fun k' => if k' = k then some v else m k'

/-- `OrdMap::union`: the values of the receiver win. -/
def Map.union {K V : Type} (m other : Map K V) : Map K V := fun k => (m k).orElse fun _ => other k

/-- `Bindings`, `env.rs:5-9`. -/
structure Bindings (V : Type) where
  system : Map String V
  global : Map String V
  bound : Map VName V

namespace Bindings
variable {V : Type}

/-- `Bindings::default`, `env.rs:19-27`. -/
def empty : Bindings V := ⟨fun _ => none, fun _ => none, fun _ => none⟩

/-- `Bindings::new_with_system`, `env.rs:42-48`. -/
def newWithSystem (s : Map String V) : Bindings V := { (empty : Bindings V) with system := s }

/-- `Bindings::get`, `env.rs:50-64`, and the default `LexicalScope::get`, `env.rs:126-134`, with
`get_local` (`env.rs:66-70`) and `get_global` (`env.rs:72-74`): pseudo variables panic. -/
def get (b : Bindings V) : VName → P (Option V)
  | .user s => .ok ((b.bound (.user s)).orElse fun _ => b.system s)
  | .global s => .ok ((b.global s).orElse fun _ => b.system s)
  | .pseudo _ => .error .unreachableCode

/-- `Bindings::insert`, `env.rs:76-85`. -/
def insert (b : Bindings V) (n : VName) (v : V) : Bindings V :=
  match n with
  | .global s => { b with global := b.global.insert s v }
  | n => { b with bound := b.bound.insert n v }

/-- `Bindings::merge`, `env.rs:96-99`: `other` wins; the system variables are not touched. -/
def merge (b other : Bindings V) : Bindings V :=
  { b with global := other.global.union b.global, bound := other.bound.union b.bound }

/-- `Bindings::clear`, `env.rs:101-104`. -/
def clear (b : Bindings V) : Bindings V := { b with bound := fun _ => none }

end Bindings

/-- What a program does with an environment. `scope body save` is `protect` (`env.rs:292-305`, `384-397`), then
`body` on the guard, then `ScopeGuard::save` (`env.rs:370-376`) if `save`, otherwise the guard is dropped.
`take` and `merge` of a guard (used by the dynamic `CHECK-DAG` visitor) are not included. -/
inductive EnvOp (V : Type) where
  | bind (n : VName) (v : V)
  | clear
  | scope (body : List (EnvOp V)) (save : Bool)

mutual
/-- One operation on a guard with bindings `b`. `ScopeGuard::insert`, `env.rs:424-427`; `ScopeGuard::clear`,
`env.rs:434-439`: nothing without `--enable-var-scope`; `ScopeGuard::protect` clones the bindings, and the parent of
the new guard is this guard. -/
def EnvOp.onGuard {V : Type} (varScope : Bool) (b : Bindings V) : EnvOp V → Bindings V
  | .bind n v => b.insert n v
  | .clear => if varScope then b.clear else b
  | .scope body save =>
    let guard := EnvOp.onGuards varScope b body
    if save then b.merge guard else b

/-- A sequence of operations on a guard. -/
def EnvOp.onGuards {V : Type} (varScope : Bool) (b : Bindings V) : List (EnvOp V) → Bindings V
  | [] => b
  | op :: ops => EnvOp.onGuards varScope (EnvOp.onGuard varScope b op) ops
end

/-- `Env`, `env.rs:259-262`. -/
structure Env (V : Type) where
  bindings : Bindings V
  varScope : Bool

namespace Env
variable {V : Type}

/-- `Env::from_config`, `env.rs:274-286`: a later definition of the same name replaces an earlier one. -/
def fromConfig (vars : List (VName × V)) (varScope : Bool) : Env V :=
  ⟨.newWithSystem (vars.foldl (fun m x => Map.insert m x.1.sym x.2) fun _ => none), varScope⟩

/-- `Env::get`, `env.rs:315-317`. -/
def get (e : Env V) (n : VName) : P (Option V) := e.bindings.get n

/-- `Env::insert` (`env.rs:332-335`), `Env::clear` (`env.rs:342-344`, whatever the option) and scopes on the
top-level environment. -/
def step (e : Env V) : EnvOp V → Env V
  | .bind n v => { e with bindings := e.bindings.insert n v }
  | .clear => { e with bindings := e.bindings.clear }
  | .scope body save =>
    let guard := EnvOp.onGuards e.varScope e.bindings body
    if save then { e with bindings := e.bindings.merge guard } else e

/-- `MatchContext::enter_block`, `context.rs:205-213`, its effect on the environment. -/
def enterBlock (e : Env V) : Env V :=
  if e.varScope then { e with bindings := e.bindings.clear } else e

end Env

/-- What happens to the environment of a `MatchContext` during a run: operations and block entries. -/
inductive CtxOp (V : Type) where
  | bind (n : VName) (v : V)
  | scope (body : List (EnvOp V)) (save : Bool)
  | enterBlock

/-- One event. -/
def CtxOp.apply {V : Type} (e : Env V) : CtxOp V → Env V
  | .bind n v => e.step (.bind n v)
  | .scope body save => e.step (.scope body save)
  | .enterBlock => e.enterBlock

/-- A run. -/
def CtxOp.run {V : Type} (e : Env V) (ops : List (CtxOp V)) : Env V := ops.foldl CtxOp.apply e

end Litcheck
