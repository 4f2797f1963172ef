import Verif.Model.Smart
import Verif.Model.Env

/-!
# Variables defined on the command line: `filecheck/src/expr/cli.rs`, `filecheck/src/expr/parser.rs`,
`filecheck/src/expr/grammar.lalrpop`, `core/src/variables/mod.rs`

The argument of `-D` is a text. Errors are all one: the command line is rejected. Positions are left out.
-/

namespace Litcheck.Cli
open Litcheck.Lex (Expr VarName Op Token)
open Litcheck.Smart (Val Ty Vars Step Evald keyOf applyOp explicitFormat)

/-- `Token`, `filecheck/src/expr/parser.rs:74-121`: those of match blocks (of which `Equals` is one), and `Equal`. -/
inductive Tok where
  | eq
  | tok (t : Token)
  deriving DecidableEq, Repr

/-- `[A-Za-z_]`, `filecheck/src/expr/parser.rs:117` and `core/src/variables/mod.rs:405`. -/
def nameStart (c : Char) : Bool := c == '_' || c.isAlpha

/-- `[A-Za-z0-9_]`, `filecheck/src/expr/parser.rs:117` and `core/src/variables/mod.rs:407`. -/
def nameChar (c : Char) : Bool := c == '_' || c.isAlphanum

/-- The words which are tokens of their own, `filecheck/src/expr/parser.rs:105-116`: logos prefers them to an identifier of the same length. -/
def word (w : Str) : Token :=
  if w = "add".toList then .op .add
  else if w = "sub".toList then .op .sub
  else if w = "mul".toList then .op .mul
  else if w = "div".toList then .op .div
  else if w = "min".toList then .op .min
  else if w = "max".toList then .op .max
  else .ident w

/-- The tokens of one character, `filecheck/src/expr/parser.rs:79-104`. -/
def punct (c : Char) : Option Token :=
  match c with
  | '(' => some .lparen | ')' => some .rparen | '#' => some .hash | '$' => some .dollar | '%' => some .percent | '@' => some .at_
  | ',' => some .comma | '.' => some .dot | ':' => some .colon | '+' => some .plus
  | _ => none

/-- The next token of a text which begins with neither a space nor a tab, and the rest: the longest one, as logos does
(`filecheck/src/expr/parser.rs:74-121`, `filecheck/src/expr/parser.rs:161-169`). -/
def lexOne (c : Char) (r : Str) : Option (Tok × Str) :=
  if c == '=' then
    match r with
    | '=' :: r2 => some (.tok .equals, r2)
    | _ => some (.eq, r)
  else if c == '-' then
    if (r.takeWhile Char.isDigit).isEmpty then some (.tok .minus, r)
    else (Num.fromStrRadix 10 ('-' :: r.takeWhile Char.isDigit)).map fun n => (.tok (.num n), r.dropWhile Char.isDigit)
  else if c.isDigit then
    (Num.fromStrRadix 10 (c :: r.takeWhile Char.isDigit)).map fun n => (.tok (.num n), r.dropWhile Char.isDigit)
  else if nameStart c then some (.tok (word (c :: r.takeWhile nameChar)), r.dropWhile nameChar)
  else (punct c).map fun t => (.tok t, r)

/-- The tokens of a text, `filecheck/src/expr/parser.rs:33-42`; `none` if the lexer reports an error. The number bounds the steps. -/
def lex : Nat → Str → Option (List Tok)
  | _, [] => some []
  | 0, _ :: _ => none
  | n + 1, c :: r =>
    if c == ' ' || c == '\t' then lex n r
    else
      match lexOne c r with
      | none => none
      | some (t, r2) => (lex n r2).map (t :: ·)

/-- `FormatSpecifier`, `filecheck/src/expr/grammar.lalrpop:157-171`. -/
def specOk (s : Str) : Bool := s == ['u'] || s == ['d'] || s == ['x'] || s == ['X']

/-- `NumberFormat`, `filecheck/src/expr/grammar.lalrpop:65-73`, after the percent sign: the rest. The format is not used by
the action of `NumericVar`. -/
def skipFormat (ts : List Tok) : Option (List Tok) :=
  let ts := match ts with
    | .tok .hash :: r => r
    | r => r
  let ts := match ts with
    | .tok .dot :: .tok (.num n) :: r => if 0 ≤ n ∧ n ≤ 255 then some r else none
    | .tok .dot :: _ => none
    | r => some r
  match ts with
  | some (.tok (.ident s) :: r) => if specOk s then some r else none
  | some r => some r
  | none => none

/-- The tokens if none of them is `=`: an expression has none. -/
def plainToks : List Tok → Option (List Token)
  | [] => some []
  | .tok t :: r => (plainToks r).map (t :: ·)
  | .eq :: _ => none

/-- `<name:Var> <value:("=" <Expr>)>`, `filecheck/src/expr/grammar.lalrpop:56-62`. `Expr` and what it is made of
(`filecheck/src/expr/grammar.lalrpop:77-155`) are the same as in match blocks (`Lex.pWhole`), but that `LINE` is no word of its own. The
number which `- -170141183460469231731687303715884105728` stands for is kept as it is, although it does not fit. -/
def nameEq (ts : List Tok) : Option (Str × Expr) :=
  match ts with
  | .tok (.ident s) :: .eq :: r => (plainToks r).bind fun ts => (Lex.pWhole ts).map fun e => (s, e)
  | _ => none

/-- `NumericVar`, `filecheck/src/expr/grammar.lalrpop:55-63`. -/
def numericVar (ts : List Tok) : Option (Str × Expr) :=
  match ts with
  | .tok .hash :: .tok .percent :: r =>
    match skipFormat r with
    | some (.tok .comma :: r) => nameEq r
    | _ => none
  | .tok .hash :: r => nameEq r
  | _ => none

/-- What a variable is defined as: `Value::Str` or `Value::Num`, `filecheck/src/expr/value.rs:5-10`. -/
inductive Def where
  | str (s : Str)
  | num (e : Expr)
  deriving DecidableEq, Repr

/-- `is_valid_variable_name`, `core/src/variables/mod.rs:402-416`. -/
def validName : Str → Bool
  | [] => false
  | c :: cs => nameStart c && cs.all nameChar

/-- `str::split_once('=')` (standard library). -/
def splitEq : Str → Option (Str × Str)
  | [] => none
  | c :: cs => if c == '=' then some ([], cs) else (splitEq cs).map fun x => (c :: x.1, x.2)

/-- `Variable::try_parse`, `core/src/variables/mod.rs:253-288`, with `Value::from_str`, `filecheck/src/expr/value.rs:22-32`. The text before
the `=` is checked before `VariableName::try_parse` (`core/src/variables/mod.rs:106-135`) looks for `$` or `@`, so that the name is always that
of a `User` variable. -/
def textVar (s : Str) : Option (Str × Str) :=
  match splitEq s with
  | none => none
  | some (k, v) => if k.isEmpty then none else if validName k then some (k, v) else none

/-- `CliVariable::try_parse`, `filecheck/src/expr/cli.rs:39-52`: the name, and what it is defined as. -/
def parseDef (s : Str) : Option (Str × Def) :=
  match s with
  | '#' :: _ => (lex s.length s).bind fun ts => (numericVar ts).map fun x => (x.1, .num x.2)
  | _ => (textVar s).map fun x => (x.1, .str x.2)

/-- All `-D` of a command line (`filecheck/src/lib.rs:238-244`): rejected if one of them is. -/
def parseDefs : List Str → Option (List (Str × Def))
  | [] => some []
  | s :: ss =>
    match parseDef s with
    | none => none
    | some d => (parseDefs ss).map (d :: ·)

/-- What a variable holds, `Value`, `filecheck/src/expr/value.rs:5-10`: what matching binds (`Val`), or the expression of a definition. -/
inductive Cell where
  | val (v : Val)
  | expr (e : Expr)
  deriving DecidableEq, Repr

/-- `Value::Str` or `Value::Num` of a definition, as a cell. -/
def Def.cell : Def → Cell
  | .str s => .val (.str s)
  | .num e => .expr e

/-- `Env::from_config`, `filecheck/src/env.rs:274-286`, with these definitions. -/
def start (defs : List (Str × Def)) (varScope : Bool) : Env Cell :=
  Env.fromConfig (defs.map fun d => (.user (String.ofList d.1), d.2.cell)) varScope

/-- How `evaluate_expr` reports an undefined variable or a text where a number is needed: an error which quotes the file of the expression
(`searcher.rs:614-629`, `searcher.rs:644-649`, `searcher.rs:721-733`). The expressions of definitions are in no file (`filecheck/src/expr/cli.rs:28`,
`core/src/variables/mod.rs:345`), so that the `unwrap` panics. -/
def complain {α : Type} (inDef : Bool) : Step α := if inDef then .panic .unwrapNone else .err

/-- `evaluate_expr` of a binary expression after its operands, `searcher.rs:660-733`. -/
def combine (checked inDef : Bool) (ty : Option Ty) (op : Op) (l r : Evald) : Step Evald :=
  match l, r with
  | .num lv lf, .num rv rf =>
    match (Num.inferFormat lf rf).orElse fun _ => explicitFormat ty with
    | none => .err
    | some f => (applyOp checked op lv rv).bind fun v =>
        .yes (.num v (if lf.isNone && rf.isNone && (explicitFormat ty).isNone then none else some f))
  | _, _ => complain inDef

/-- `evaluate_expr`, `searcher.rs:601-736`, where variables may hold expressions, which are evaluated when the variable is read
(`searcher.rs:630`). The number is the depth of the recursion allowed; `none` if it does not suffice. `inDef` says that the expression is (part of)
that of a definition; there `@LINE` (`searcher.rs:635-642`) is the line of the check file which contains the offset that the word has in
the text of the definition, which is given here as one number `dline`. -/
def eval (checked : Bool) (line dline : Nat) (env : Bindings Cell) (ty : Option Ty) :
    Nat → Bool → Expr → Option (Step Evald)
  | 0, _, _ => none
  | _ + 1, _, .num n => some (.yes (.num n none))
  | _ + 1, inDef, .var (.pseudo s) =>
    some (if s = "LINE".toList then .yes (.num (if inDef then dline else line : Nat) none) else complain inDef)
  | k + 1, inDef, .var v =>
    match env.get (keyOf v) with
    | .ok (some (.expr e)) => eval checked line dline env ty k true e
    | .ok (some (.val (.num n f))) => some (.yes (.num n f))
    | .ok (some (.val (.str s))) => some (.yes (.str s))
    | .ok (some (.val .undef)) => some (complain inDef)
    | .ok none => some (complain inDef)
    | .error p => some (.panic p)
  | k + 1, inDef, .bin op l r =>
    match eval checked line dline env ty k inDef l with
    | some (.yes lv) =>
      match eval checked line dline env ty k inDef r with
      | some (.yes rv) => some (combine checked inDef ty op lv rv)
      | x => x
    | x => x

end Litcheck.Cli
