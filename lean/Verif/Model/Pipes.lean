import Verif.Model.Execute

/-!
# A test's process and its pipes (`lit/src/utils.rs:66-83`, `lit/src/utils.rs:161-169`)

`wait_with_timeout` writes the script into the standard input of the process, waits until that is done, and only then starts the threads which read its output; after that it
looks at the clock. Here the three pipes are kept byte by byte; each holds a bounded number of bytes (the operating system's choice). Larger writes are made of writes of one byte.
-/

namespace Litcheck.Pipes

/-- What a process that ends does with its pipes, as far as it depends on what it reads; `none` is the end of the standard input. -/
inductive Child where
  | exit
  | read (next : Option UInt8 → Child)
  | out (b : UInt8) (next : Child)
  | err (b : UInt8) (next : Child)

/-- The state of a run: the process, the rest of the script, whether the thread that writes it still runs, what is in the pipes, and what the reading threads have. -/
structure PState where
  child : Child
  script : List UInt8
  writing : Bool
  stdin : List UInt8 := []
  stdout : List UInt8 := []
  stderr : List UInt8 := []
  gotOut : List UInt8 := []
  gotErr : List UInt8 := []

/-- The state after `spawn`, `utils.rs:71-72`. -/
def start (child : Child) (script : List UInt8) : PState := ⟨child, script, true, [], [], [], [], []⟩

/-- A step of one of the parties, if pipes hold `cap` bytes. -/
inductive Step (cap : Nat) : PState → PState → Prop where
  /-- `write_all`, `utils.rs:79`: there is room -/
  | write {s : PState} {b : UInt8} {r : List UInt8} : s.writing = true → s.script = b :: r → s.stdin.length < cap →
      Step cap s { s with script := r, stdin := s.stdin ++ [b] }
  /-- `write_all` fails when nobody can read any more; the error is ignored, `utils.rs:75` -/
  | broken {s : PState} : s.writing = true → s.child = .exit → s.script ≠ [] → Step cap s { s with script := [], writing := false }
  /-- the thread ends, `stdin` is dropped, the thread is joined and the reading threads start, `utils.rs:73-83` -/
  | close {s : PState} : s.writing = true → s.script = [] → Step cap s { s with writing := false }
  /-- the process reads a byte -/
  | childRead {s : PState} {k : Option UInt8 → Child} {b : UInt8} {r : List UInt8} : s.child = .read k → s.stdin = b :: r →
      Step cap s { s with child := k (some b), stdin := r }
  /-- the process finds the end of its standard input -/
  | childEof {s : PState} {k : Option UInt8 → Child} : s.child = .read k → s.stdin = [] → s.writing = false → Step cap s { s with child := k none }
  /-- the process writes -/
  | childOut {s : PState} {b : UInt8} {k : Child} : s.child = .out b k → s.stdout.length < cap → Step cap s { s with child := k, stdout := s.stdout ++ [b] }
  | childErr {s : PState} {b : UInt8} {k : Child} : s.child = .err b k → s.stderr.length < cap → Step cap s { s with child := k, stderr := s.stderr ++ [b] }
  /-- `read`, `utils.rs:161-169`, in threads which are started after the script was written, `utils.rs:82-83` -/
  | readOut {s : PState} {b : UInt8} {r : List UInt8} : s.writing = false → s.stdout = b :: r → Step cap s { s with stdout := r, gotOut := s.gotOut ++ [b] }
  | readErr {s : PState} {b : UInt8} {r : List UInt8} : s.writing = false → s.stderr = b :: r → Step cap s { s with stderr := r, gotErr := s.gotErr ++ [b] }

/-- The process has ended, and all its output was read: `try_wait` finds it, and the reading threads can be joined, `utils.rs:110-118`. -/
def PState.Done (s : PState) : Prop := s.child = .exit ∧ s.writing = false ∧ s.stdout = [] ∧ s.stderr = []

end Litcheck.Pipes
