import Verif.Model.Base
import Mathlib.Data.Nat.Digits.Defs

/-!
# Numbers of numeric substitution blocks: `filecheck/src/expr/num.rs`

Strings are lists of characters. Spans are not modelled.
-/

namespace Litcheck

/-- `CasingStyle`, `num.rs:364-369`. -/
inductive Casing where
  | any | upper | lower
  deriving DecidableEq, Repr

/-- `NumberFormat`, `num.rs:348-360`; `precision` is a `u8`. -/
inductive NumFmt where
  | unsigned (precision : Nat)
  | signed (precision : Nat)
  | hex (precision : Nat) (requirePrefix : Bool) (casing : Casing)
  deriving DecidableEq, Repr

/-- `ParseNumberError`, `num.rs:3-38`; the `InvalidFormat` reasons (`IntErrorKind`) are not distinguished. -/
inductive NumErr where
  | unexpectedSign | missingPrefix | precisionMismatch | invalidFormat | invalidCasing
  deriving DecidableEq, Repr

namespace Num

/-- The largest `i128`. -/
def i128Max : Nat := 2 ^ 127 - 1

/-- A digit as printed by Rust's integer formatting (standard library). -/
def digitChar (upper : Bool) (d : Nat) : Char :=
  if upper then "0123456789ABCDEF".toList.getD d '0' else "0123456789abcdef".toList.getD d '0'

/-- The digits Rust prints for a natural number (standard library: `Display`, `LowerHex`, `UpperHex`). -/
def showNat (base : Nat) (upper : Bool) (n : Nat) : List Char :=
  if n = 0 then ['0'] else ((Nat.digits base n).reverse).map (digitChar upper)

/-- `Formatter::pad_integral` (standard library) with the `0` flag and the given width: zeros between the sign or prefix
and the digits. -/
def padZero (sign digits : List Char) (width : Nat) : List Char :=
  sign ++ List.replicate (width - (sign.length + digits.length)) '0' ++ digits

/-- `value as u64` for an `i128`: the remainder modulo `2^64`. -/
def asU64 (v : Int) : Nat := (v % (2 ^ 64 : Int)).toNat

/-- Hexadecimal formatting of an `i128` prints the two's complement. -/
def asU128 (v : Int) : Nat := (v % (2 ^ 128 : Int)).toNat

/-- `Display for Number`, `num.rs:254-336`, of a value in a format (`format.unwrap_or_default()` is done by the caller).
The `Debug` formatting with `x?`/`X?` of an integer is its `LowerHex`/`UpperHex` formatting, `#` adds `0x`. The padding
is the precision, plus 1 for a minus sign (`num.rs:266`), plus 2 for the prefix (`num.rs:276`). -/
def display (value : Int) : NumFmt → List Char
  | .unsigned 0 => showNat 10 false (asU64 value)
  | .unsigned p => padZero [] (showNat 10 false (asU64 value)) p
  | .signed 0 => (if value < 0 then ['-'] else []) ++ showNat 10 false value.natAbs
  | .signed p =>
    padZero (if value < 0 then ['-'] else []) (showNat 10 false value.natAbs) ((if value < 0 then 1 else 0) + p)
  | .hex 0 true c => ['0', 'x'] ++ showNat 16 (c == .upper) (asU128 value)
  | .hex 0 false c => showNat 16 (c == .upper) (asU128 value)
  | .hex p true c => padZero ['0', 'x'] (showNat 16 (c == .upper) (asU128 value)) (2 + p)
  | .hex p false c => padZero [] (showNat 16 (c == .upper) (asU128 value)) p

/-- `char::to_digit` (standard library). -/
def toDigit (base : Nat) (c : Char) : Option Nat :=
  let n := c.toNat
  let d : Option Nat :=
    if 48 ≤ n ∧ n ≤ 57 then some (n - 48)
    else if 97 ≤ n ∧ n ≤ 122 then some (n - 97 + 10)
    else if 65 ≤ n ∧ n ≤ 90 then some (n - 65 + 10)
    else none
  d.bind fun d => if d < base then some d else none

/-- The digits loop of `from_str_radix` (standard library): checked multiplication and addition (subtraction for a
negative number), so the magnitude never passes `limit`. -/
def readDigits (base limit : Nat) : List Char → Nat → Option Nat
  | [], acc => some acc
  | c :: cs, acc =>
    match toDigit base c with
    | none => none
    | some d => if acc * base + d > limit then none else readDigits base limit cs (acc * base + d)

/-- `i128::from_str_radix` (standard library; `str::parse::<i128>` is radix 10): an optional sign, then at least one
digit. `none` is any `ParseIntError`. -/
def fromStrRadix (base : Nat) (s : List Char) : Option Int :=
  match s with
  | [] => none
  | '+' :: [] => none
  | '-' :: [] => none
  | '+' :: cs => (readDigits base i128Max cs 0).map Int.ofNat
  | '-' :: cs => (readDigits base (i128Max + 1) cs 0).map fun n => -(n : Int)
  | cs => (readDigits base i128Max cs 0).map Int.ofNat

/-- `str::strip_prefix(['-', '+'])`, and the rest if there is none (`num.rs:177-181`). -/
def stripSign : List Char → List Char
  | '-' :: cs => cs
  | '+' :: cs => cs
  | cs => cs

/-- `str::strip_prefix("0x")`. -/
def strip0x : List Char → Option (List Char)
  | '0' :: 'x' :: cs => some cs
  | _ => none

/-- `num.rs:204-208`: the casing test of a hexadecimal text. -/
def casingOk (c : Casing) (s : List Char) : Bool :=
  match c with
  | .any => true
  | .lower => s.all fun c => (decide ('a' ≤ c) && decide (c ≤ 'f')) || (decide ('0' ≤ c) && decide (c ≤ '9'))
  | .upper => s.all fun c => (decide ('A' ≤ c) && decide (c ≤ 'F')) || (decide ('0' ≤ c) && decide (c ≤ '9'))

/-- `Number::parse_with_format`, `num.rs:138-244`: the value on success. Lengths are byte lengths in the source;
a text which got that far consists of digits and signs, one byte each. -/
def parseWithFormat (s : List Char) : NumFmt → Except NumErr Int
  | .unsigned p =>
    if s.head? = some '-' ∨ s.head? = some '+' then .error .unexpectedSign
    else match fromStrRadix 10 s with
      | none => .error .invalidFormat
      | some v => if p = 0 then .ok v else if s.length < p then .error .precisionMismatch else .ok v
  | .signed p =>
    match fromStrRadix 10 s with
    | none => .error .invalidFormat
    | some v => if p = 0 then .ok v else if (stripSign s).length < p then .error .precisionMismatch else .ok v
  | .hex p requirePrefix c =>
    let read (s : List Char) : Except NumErr Int :=
      match fromStrRadix 16 s with
      | none => .error .invalidFormat
      | some v =>
        if !(casingOk c s) then .error .invalidCasing
        else if p > 0 ∧ s.length < p then .error .precisionMismatch
        else .ok v
    match strip0x s with
    | none => if requirePrefix then .error .missingPrefix else read s
    | some s' => read s'

/-- `NumberFormat::default` is `Unsigned { precision: 0 }` (`num.rs`, used at `num.rs:83` and `num.rs:258`);
`Number::infer_expression_format`, `num.rs:82-136`, of the formats of the operands. -/
def inferFormat (l r : Option NumFmt) : Option NumFmt :=
  match l, r with
  | some f, none => some f
  | none, some f => some f
  | none, none => some (.unsigned 0)
  | some (.hex lp lx lc), some (.hex rp rx rc) =>
    if lx = rx ∧ (lp = rp ∨ lp = 0 ∨ rp = 0) ∧ (lc = rc ∨ lc = .any ∨ rc = .any) then some (.hex (max lp rp) lx lc)
    else none
  | some (.signed lp), some (.signed rp) =>
    if lp = rp ∨ lp = 0 ∨ rp = 0 then some (.signed (max lp rp)) else none
  | some (.unsigned lp), some (.unsigned rp) =>
    if lp = rp ∨ lp = 0 ∨ rp = 0 then some (.unsigned (max lp rp)) else none
  | _, _ => none

end Num
end Litcheck
