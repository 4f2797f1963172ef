import Verif.Model.Pipes

/-!
# What a process writes
-/

namespace Litcheck.PipesSpec
open Pipes

/-- What a process writes to its output and to its error output, if its standard input is `input`. -/
def writes : Child → List UInt8 → List UInt8 × List UInt8
  | .exit, _ => ([], [])
  | .read k, [] => writes (k none) []
  | .read k, b :: input => writes (k (some b)) input
  | .out b k, input => let x := writes k input; (b :: x.1, x.2)
  | .err b k, input => let x := writes k input; (x.1, b :: x.2)

/-- A process which writes `n` bytes and ends. -/
def writer (n : Nat) (b : UInt8) : Child := match n with
  | 0 => .exit
  | n + 1 => .out b (writer n b)

end Litcheck.PipesSpec
