import Verif.Model.Execute

/-!
# The environment a test's process is given (`lit/src/utils.rs`, `lit/src/formats/sh/engine.rs`, `lit/src/formats/executable.rs`)

An environment is a list of entries; the first with a name counts. The names and values are text (in the program they may be arbitrary bytes).
-/

namespace Litcheck

/-- `std::env::split_paths` on Unix: the pieces between colons, also empty ones. -/
def splitPaths : Str → List Str
  | [] => [[]]
  | c :: s =>
    if c = ':' then [] :: splitPaths s
    else match splitPaths s with
      | p :: ps => (c :: p) :: ps
      | [] => [[c]]

/-- `std::env::join_paths` on Unix: an error if one of them has a colon. -/
def joinPaths (ps : List Str) : Option Str :=
  if ps.any (·.contains ':') then none else some (":".toList.intercalate ps)

/-- An environment. -/
abbrev Environ := List (Str × Str)

/-- The value of a variable. -/
def Environ.get (e : Environ) (k : Str) : Option Str := (e.find? (·.1 == k)).map (·.2)

/-- `Command::env`: set a variable of the process. -/
def Environ.set (e : Environ) (k v : Str) : Environ := (k, v) :: e.filter fun x => x.1 != k

/-- `ShellCommand::envs`, `utils.rs:50-58`: set one after the other. -/
def Environ.setAll (e : Environ) (kvs : List (Str × Str)) : Environ := kvs.foldl (fun e kv => e.set kv.1 kv.2) e

/-- The name `PATH`. -/
def PATH : Str := "PATH".toList

/-- The value computed by `ShellCommand::paths`, `utils.rs:24-32`: lit's own `PATH` is read, not the one set before. -/
def pathValue (own : Environ) (extra : List Str) : Option Str :=
  joinPaths (extra ++ splitPaths ((own.get PATH).getD []))

/-- The environment of a process started by `run_once`, `engine.rs:48-53`, or `ExecutableTest::execute`, `executable.rs:44-49`: lit's own, with what `envs`
and then `paths` set. `none` is the error of `paths`, `utils.rs:32`. -/
def Invocation.environ (own : Environ) (i : Invocation) : Option Environ :=
  (pathValue own i.paths).map fun p => (own.setAll i.env).set PATH p

end Litcheck
