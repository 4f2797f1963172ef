import Verif.Model.Program

/-!
# A FileCheck test: `filecheck/src/test/mod.rs`
-/

namespace Litcheck

/-- `filecheck/src/test/mod.rs:96-113` `Test::verify`, after parsing the check file: compile the lines, then
check the input. The last step, `TestResult::into_result`, is applied by `verdict`. `clear` is `Env::clear`
(see `Verif/Model/Env.lean`), `env` the initial variables. -/
def filecheck {E : Type} (sc : SetCompiler E) (o : CheckOpts) (clear : E → E) (imp : Option (Line E))
    (lines : List (Line E)) (env : E) (b : Buf) : P (Except CompileError TestResult) := do
  match ← compile sc imp lines with
  | .error e => .ok (.error e)
  | .ok prog => do
    let tr ← checkInput o clear prog env b
    .ok (.ok tr)

/-- The outcome of `filecheck/src/test/mod.rs:96-113` `Test::verify`. -/
inductive Verdict where
  /-- `Ok(matches)` -/
  | pass (ms : List Info)
  /-- `Err` of `TestResult::into_result`: the failed checks -/
  | fail (fs : List Failure)
  /-- `Err` of `CheckFile::compile` -/
  | invalid (e : CompileError)
  deriving DecidableEq, Repr

/-- `filecheck/src/test/mod.rs:108-112`: `check_input(..).into_result()`. -/
def verdict : Except CompileError TestResult → Verdict
  | .error e => .invalid e
  | .ok tr =>
    match tr.intoResult with
    | .ok ms => .pass ms
    | .error fs => .fail fs

/-- `filecheck/src/test/mod.rs:96-113` `Test::verify`. -/
def verify {E : Type} (sc : SetCompiler E) (o : CheckOpts) (clear : E → E) (imp : Option (Line E))
    (lines : List (Line E)) (env : E) (b : Buf) : P Verdict := do
  let r ← filecheck sc o clear imp lines env b
  .ok (verdict r)

end Litcheck
