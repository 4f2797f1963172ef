import Verif.Model.Env

/-!
# What a user expects of variables

A history is reduced to the list of bindings which count: everything bound inside a scope which was dropped is
forgotten, at any depth. The value of a variable is the last binding of its name which counts.
-/

namespace Litcheck.Spec
variable {V : Type}

/-- Only the global variables of a list of bindings. -/
def globals (bs : List (VName × V)) : List (VName × V) := bs.filter fun x => x.1 = .global x.1.sym

mutual
/-- The bindings which count after an operation of a scope, where `acc` counted before it. A nested scope which is
saved adds what counts at its end, one which is dropped adds nothing. With `--enable-var-scope`, clearing a scope
forgets the local variables which the scope itself has bound so far. -/
def keptOp (varScope : Bool) (acc : List (VName × V)) : EnvOp V → List (VName × V)
  | .bind n v => acc ++ [(n, v)]
  | .clear => if varScope then globals acc else acc
  | .scope body save => if save then acc ++ keptOps varScope [] body else acc

/-- The bindings which count after the operations of a scope, where `acc` counted before them. -/
def keptOps (varScope : Bool) (acc : List (VName × V)) : List (EnvOp V) → List (VName × V)
  | [] => acc
  | op :: ops => keptOps varScope (keptOp varScope acc op) ops
end

/-- The last value bound to `n`. -/
def lastBound (n : VName) (bs : List (VName × V)) : Option V :=
  (bs.reverse.find? (·.1 = n)).map (·.2)

/-- The value which `-D` gives to a name (either namespace): the last definition with this symbol. -/
def lastDefined (s : String) (vars : List (VName × V)) : Option V :=
  (vars.reverse.find? (·.1.sym = s)).map (·.2)

/-- The bindings which count at the end of a run, where `acc` counted before it: with `--enable-var-scope` entering
a block forgets the local variables bound before (but not the global ones). -/
def keptRun (varScope : Bool) (acc : List (VName × V)) : List (CtxOp V) → List (VName × V)
  | [] => acc
  | .bind n v :: ops => keptRun varScope (acc ++ [(n, v)]) ops
  | .scope body save :: ops => keptRun varScope (if save then acc ++ keptOps varScope [] body else acc) ops
  | .enterBlock :: ops => keptRun varScope (if varScope then globals acc else acc) ops

end Litcheck.Spec
