/-!
# Common vocabulary of the model

A byte buffer (`&[u8]`) is a `List UInt8`; `usize`/`u32` are `Nat`.
A Rust panic is the value `.error p` of `P`.
-/

namespace Litcheck

/-- Reasons for which modelled code panics (`assert!`, `expect`, `unwrap`, slice indexing, `unreachable!`). -/
inductive Panic where
  | invalidRange
  | assertFailed
  | unwrapNone
  | indexOutOfBounds
  | unreachableCode
  deriving DecidableEq, Repr

/-- Computations which may panic. -/
abbrev P (α : Type) := Except Panic α

/-- A byte buffer. -/
abbrev Buf := List UInt8

/-- The byte `b'\n'`. -/
abbrev LF : UInt8 := 10
/-- The byte `b'\r'`. -/
abbrev CR : UInt8 := 13

/-- `memchr::memchr` (external crate): index of the first occurrence of `b`. -/
def memchr (b : UInt8) : Buf → Option Nat
  | [] => none
  | x :: xs => if x == b then some 0 else (memchr b xs).map (· + 1)

/-- `memchr::memrchr` (external crate): index of the last occurrence of `b`. -/
def memrchr (b : UInt8) : Buf → Option Nat
  | [] => none
  | x :: xs =>
    match memrchr b xs with
    | some i => some (i + 1)
    | none => if x == b then some 0 else none

/-- `&buffer[s..e]` for a range already known to be valid (the callers below check
`s <= e <= len`, which is when Rust's slice indexing panics). -/
def sliceOf (b : Buf) (s e : Nat) : Buf := (b.take e).drop s

/-- ASCII text as bytes; only used to write concrete examples. -/
def bytes (s : String) : Buf := s.toList.map (fun c => c.toNat.toUInt8)

end Litcheck
