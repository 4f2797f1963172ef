import Verif.Model.Base

/-!
# Positions in a source file: byte, line and column indices and numbers (`core/src/diagnostics/source_file.rs`)

A `u32` is a natural number, below `2 ^ 32` wherever the program can have it; an `i32` or an `i64` is an integer. `checked` says whether arithmetic is
checked for overflow, as in debug builds; otherwise it wraps.
-/

namespace Litcheck.Position

/-- What an operation does: it returns, it panics, or its behaviour is undefined (`NonZeroU32::new_unchecked(0)`). -/
inductive Res (α : Type) where
  | ok (a : α)
  | panic
  | undefined
  deriving DecidableEq, Repr

/-- One operation after another. -/
def Res.bind {α β : Type} : Res α → (α → Res β) → Res β
  | .ok a, f => f a
  | .panic, _ => .panic
  | .undefined, _ => .undefined

/-- `u32 + u32`. -/
def addU32 (checked : Bool) (a b : Nat) : Res Nat :=
  if a + b < 2 ^ 32 then .ok (a + b) else if checked then .panic else .ok ((a + b) % 2 ^ 32)

/-- `u32 - u32`. -/
def subU32 (checked : Bool) (a b : Nat) : Res Nat :=
  if b ≤ a then .ok (a - b) else if checked then .panic else .ok ((a + 2 ^ 32 - b) % 2 ^ 32)

/-- `i64 + i64`. -/
def addI64 (checked : Bool) (a b : Int) : Res Int :=
  if -2 ^ 63 ≤ a + b ∧ a + b < 2 ^ 63 then .ok (a + b) else if checked then .panic else .ok ((a + b + 2 ^ 63) % 2 ^ 64 - 2 ^ 63)

/-- `u32::checked_add`. -/
def checkedAddU32 (a b : Nat) : Option Nat := if a + b < 2 ^ 32 then some (a + b) else none

/-- `u32::checked_add_signed`. -/
def checkedAddSignedU32 (a : Nat) (b : Int) : Option Nat := if 0 ≤ (a : Int) + b ∧ (a : Int) + b < 2 ^ 32 then some ((a : Int) + b).toNat else none

/-- `u32::checked_sub`. -/
def checkedSubU32 (a b : Nat) : Option Nat := if b ≤ a then some (a - b) else none

/-- `u32::saturating_add`. -/
def satAddU32 (a b : Nat) : Nat := min (a + b) (2 ^ 32 - 1)

/-- `u32::saturating_add_signed`. -/
def satAddSignedU32 (a : Nat) (b : Int) : Nat := (max 0 (min ((a : Int) + b) (2 ^ 32 - 1))).toNat

/-- `u32::saturating_sub`. -/
def satSubU32 (a b : Nat) : Nat := a - b

/-- `NonZeroU32::new_unchecked`: undefined for zero. -/
def nonZero (n : Nat) : Res Nat := if n = 0 then .undefined else .ok n

/-- `expect`. -/
def expect {α : Type} : Option α → Res α
  | some a => .ok a
  | none => .panic

namespace Byte

/-- `Add<ByteOffset> for ByteIndex`, `source_file.rs:830-836`, and `AddAssign`, `source_file.rs:846-850`: the cast to `u32` keeps the low bits. -/
def addOffset (checked : Bool) (i : Nat) (o : Int) : Res Nat := (addI64 checked i o).bind fun x => .ok (x % 2 ^ 32).toNat

/-- `Sub<ByteOffset> for ByteIndex`, `source_file.rs:858-864`, and `SubAssign`, `source_file.rs:874-878`. The difference of integers is written as a sum; the offset is
not the least `i64`. -/
def subOffset (checked : Bool) (i : Nat) (o : Int) : Res Nat := (addI64 checked i (-o)).bind fun x => .ok (x % 2 ^ 32).toNat

/-- `Add<u32> for ByteIndex`, `source_file.rs:838-844`, and `AddAssign`, `source_file.rs:852-856`. -/
def add (checked : Bool) (i o : Nat) : Res Nat := addU32 checked i o

/-- `Sub<u32> for ByteIndex`, `source_file.rs:866-872`, and `SubAssign`, `source_file.rs:880-884`. -/
def sub (checked : Bool) (i o : Nat) : Res Nat := subU32 checked i o

end Byte

/-! `LineIndex` and `ColumnIndex` are made by one macro, as are `LineNumber` and `ColumnNumber`, `source_file.rs:955-1243`. -/

namespace Index

/-- `number`, `source_file.rs:981-983`, and `From<LineIndex> for LineNumber`, `source_file.rs:1174-1179`. -/
def number (checked : Bool) (i : Nat) : Res Nat := (addU32 checked i 1).bind nonZero

/-- `From<LineNumber> for LineIndex`, `source_file.rs:1036-1041`. -/
def ofNumber (checked : Bool) (n : Nat) : Res Nat := subU32 checked n 1

/-- `checked_add`, `source_file.rs:998-1000`. -/
def checkedAdd (i o : Nat) : Option Nat := checkedAddU32 i o

/-- `checked_add_signed`, `source_file.rs:1003-1005`. -/
def checkedAddSigned (i : Nat) (o : Int) : Option Nat := checkedAddSignedU32 i o

/-- `checked_sub`, `source_file.rs:1008-1010`. -/
def checkedSub (i o : Nat) : Option Nat := checkedSubU32 i o

/-- `saturating_add`, `source_file.rs:1013-1015`. -/
def satAdd (i o : Nat) : Nat := satAddU32 i o

/-- `saturating_add_signed`, `source_file.rs:1017-1021`. -/
def satAddSigned (i : Nat) (o : Int) : Nat := satAddSignedU32 i o

/-- `saturating_sub`, `source_file.rs:1024-1026`. -/
def satSub (i o : Nat) : Nat := satSubU32 i o

/-- `Add<u32>`, `source_file.rs:1043-1057`. -/
def add (checked : Bool) (i o : Nat) : Res Nat := addU32 checked i o

/-- `Add<i32>`, `source_file.rs:1059-1073`. -/
def addSigned (i : Nat) (o : Int) : Res Nat := expect (checkedAddSigned i o)

/-- `Sub<u32>`, `source_file.rs:1075-1089`. -/
def sub (checked : Bool) (i o : Nat) : Res Nat := subU32 checked i o

end Index

namespace Number

/-- `default`, `source_file.rs:1104-1108`. -/
def default : Nat := 1

/-- `new`, `source_file.rs:1111-1116`. -/
def new (n : Nat) : Option Nat := if n = 0 then none else some n

/-- `to_index`, `source_file.rs:1119-1121`. -/
def toIndex (n : Nat) : Nat := satSubU32 n 1

/-- `checked_add`, `source_file.rs:1136-1138`. -/
def checkedAdd (n o : Nat) : Option Nat := checkedAddU32 n o

/-- `checked_add_signed`, `source_file.rs:1141-1143`. -/
def checkedAddSigned (n : Nat) (o : Int) : Option Nat := (checkedAddSignedU32 n o).bind new

/-- `checked_sub`, `source_file.rs:1146-1148`. -/
def checkedSub (n o : Nat) : Option Nat := (checkedSubU32 n o).bind new

/-- `saturating_add`, `source_file.rs:1151-1153`. -/
def satAdd (n o : Nat) : Res Nat := nonZero (satAddU32 n o)

/-- `saturating_add_signed`, `source_file.rs:1155-1159`. -/
def satAddSigned (n : Nat) (o : Int) : Nat := (new (satAddSignedU32 n o)).getD default

/-- `saturating_sub`, `source_file.rs:1162-1164`. -/
def satSub (n o : Nat) : Nat := (new (satSubU32 n o)).getD default

/-- `Add<u32>`, `source_file.rs:1181-1195`. -/
def add (checked : Bool) (n o : Nat) : Res Nat := (addU32 checked n o).bind nonZero

/-- `Add<i32>`, `source_file.rs:1197-1213`. -/
def addSigned (n : Nat) (o : Int) : Res Nat := expect (checkedAddSigned n o)

/-- `Sub<u32>`, `source_file.rs:1215-1232`. -/
def sub (n o : Nat) : Res Nat := expect (checkedSub n o)

end Number

end Litcheck.Position
