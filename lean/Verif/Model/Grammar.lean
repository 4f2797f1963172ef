import Verif.Model.Lexer

/-!
# The grammar of match blocks: `filecheck/src/parse/grammar.lalrpop`

The code has a grammar from which the parser is generated. The model is the grammar, as an inductive relation between lists
of tokens and the values which the actions build, and a parser by recursive descent; `Verif/Proofs/Grammar.lean` shows that the parser accepts
what the grammar derives and nothing else. Positions are left out, and all errors are one.

A `Call` (`filecheck/src/parse/grammar.lalrpop:236-243`) is left out: `Expr::from_call`
(`filecheck/src/expr/mod.rs:48-89`) fails unless the name of the function is one of `add`, `sub`, `mul`, `div`, `min`, `max`, and the
lexer makes other tokens of those names.
-/

namespace Litcheck.Lex

/-- `VariableName`, `core/src/variables/mod.rs`. -/
inductive VarName where
  | user (s : Str) | global (s : Str) | pseudo (s : Str)
  deriving DecidableEq, Repr

/-- `Expr`, `filecheck/src/expr/mod.rs:26-37`. -/
inductive Expr where
  | num (n : Int) | var (v : VarName) | bin (op : Op) (l r : Expr)
  deriving DecidableEq, Repr

/-- `Match`, `filecheck/src/ast/pattern.rs:719-820`. The constraint is always `Eq`. -/
inductive Match where
  | substitution (name : VarName) (pattern : Option Str)
  | numeric (format : Option NumFmt) (capture : Option VarName) (expr : Option Expr)
  deriving DecidableEq, Repr

namespace G

/-- `LineVar`, `filecheck/src/parse/grammar.lalrpop:287-289`: the name of the variable. -/
def lineVar : VarName := .pseudo "LINE".toList

/-- `PatternVar`, `filecheck/src/parse/grammar.lalrpop:263-281`, `filecheck/src/parse/grammar.lalrpop:283-285`, `filecheck/src/parse/grammar.lalrpop:291-293`. -/
inductive PatternVar : List Token → VarName → Prop
  | global (s) : PatternVar [.dollar, .ident s] (.global s)
  | pseudo (s) : PatternVar [.at_, .ident s] (.pseudo s)
  | user (s) : PatternVar [.ident s] (.user s)

/-- `MaybeGlobalVar`, `filecheck/src/parse/grammar.lalrpop:278-281`. -/
inductive MaybeGlobalVar : List Token → VarName → Prop
  | global (s) : MaybeGlobalVar [.dollar, .ident s] (.global s)
  | user (s) : MaybeGlobalVar [.ident s] (.user s)

/-- `PatternOrLineVar`, `filecheck/src/parse/grammar.lalrpop:269-272`. -/
inductive AnyVar : List Token → VarName → Prop
  | pattern {ts v} : PatternVar ts v → AnyVar ts v
  | line : AnyVar [.at_, .line] lineVar

/-- `Num`, `filecheck/src/parse/grammar.lalrpop:299-305`. -/
inductive Num : List Token → Expr → Prop
  | pos (n) : Num [.num n] (.num n)
  | neg (n) : Num [.minus, .num n] (.num (-n))

mutual
/-- `Expr`, `filecheck/src/parse/grammar.lalrpop:219-223`. -/
inductive IsExpr : List Token → Expr → Prop
  | add {xs ys x y} : IsExpr xs x → IsSub ys y → IsExpr (xs ++ .plus :: ys) (.bin .add x y)
  | sub {xs ys x y} : IsExpr xs x → IsSub ys y → IsExpr (xs ++ .minus :: ys) (.bin .sub x y)
  | one {xs x} : IsSub xs x → IsExpr xs x

/-- `Subexpr`, `filecheck/src/parse/grammar.lalrpop:225-229`, with `Builtin` and `Term`, `filecheck/src/parse/grammar.lalrpop:231-234`,
`filecheck/src/parse/grammar.lalrpop:245-260`. -/
inductive IsSub : List Token → Expr → Prop
  | builtin {o xs ys x y} : IsExpr xs x → IsExpr ys y →
      IsSub (.op o :: .lparen :: (xs ++ .comma :: (ys ++ [.rparen]))) (.bin o x y)
  | num {ts x} : Num ts x → IsSub ts x
  | var {ts v} : AnyVar ts v → IsSub ts (.var v)
  | paren {xs x} : IsExpr xs x → IsSub (.lparen :: (xs ++ [.rparen])) x
end

/-- `CaptureExprRest` after an expression, `filecheck/src/parse/grammar.lalrpop:181-185`, with what is built of both. -/
inductive Rest (lhs : Expr) : List Token → Expr → Prop
  | add {ts e} : IsExpr ts e → Rest lhs (.plus :: ts) (.bin .add lhs e)
  | sub {ts e} : IsExpr ts e → Rest lhs (.minus :: ts) (.bin .sub lhs e)
  | none : Rest lhs [] lhs

/-- `CaptureNumericOrExpr`, `filecheck/src/parse/grammar.lalrpop:127-179`, `filecheck/src/parse/grammar.lalrpop:187-195`: the variable captured and the expression. -/
inductive Capture : List Token → Option VarName → Option Expr → Prop
  | var {vs v} : AnyVar vs v → Capture (vs ++ [.colon]) (some v) none
  | varEq {vs v ts e} : AnyVar vs v → IsExpr ts e → Capture (vs ++ .colon :: .equals :: ts) (some v) (some e)
  | varExpr {vs v ts e} : AnyVar vs v → IsExpr ts e → Capture (vs ++ .colon :: ts) (some v) (some e)
  | expr {vs v ts e} : AnyVar vs v → Rest (.var v) ts e → Capture (vs ++ ts) none (some e)
  | eq {ts e} : IsExpr ts e → Capture (.equals :: ts) none (some e)
  | builtin {o xs ys x y} : IsExpr xs x → IsExpr ys y →
      Capture (.op o :: .lparen :: (xs ++ .comma :: (ys ++ [.rparen]))) none (some (.bin o x y))
  | paren {xs x ts e} : IsExpr xs x → Rest x ts e → Capture (.lparen :: (xs ++ .rparen :: ts)) none (some e)

/-- The action of `NumberFormat`, `filecheck/src/parse/grammar.lalrpop:200-215`, and of `FormatSpecifier`,
`filecheck/src/parse/grammar.lalrpop:317-331`. -/
def format (pfx : Bool) (precision : Nat) (spec : Option Str) : Option NumFmt :=
  match spec with
  | none => if pfx then none else some (.unsigned precision)
  | some s =>
    if s = ['u'] then if pfx then none else some (.unsigned precision)
    else if s = ['d'] then if pfx then none else some (.signed precision)
    else if s = ['x'] then some (.hex precision pfx .any)
    else if s = ['X'] then some (.hex precision pfx .upper)
    else none

/-- `RequirePrefix`, `filecheck/src/parse/grammar.lalrpop:312-315`. -/
def hashTokens (pfx : Bool) : List Token := if pfx then [.hash] else []

/-- `("." <Precision>)?`, `filecheck/src/parse/grammar.lalrpop:333-340`. -/
inductive Precision : List Token → Nat → Prop
  | some (n : Nat) : n ≤ 255 → Precision [.dot, .num n] n
  | none : Precision [] 0

/-- `FormatSpecifier?`, `filecheck/src/parse/grammar.lalrpop:317-331`. -/
def specTokens : Option Str → List Token
  | some s => [.ident s]
  | none => []

/-- `NumberFormat`, `filecheck/src/parse/grammar.lalrpop:199-215`. -/
inductive Format : List Token → NumFmt → Prop
  | mk {pfx ps p spec f} : Precision ps p → format pfx p spec = some f →
      Format (.percent :: (hashTokens pfx ++ (ps ++ specTokens spec))) f

/-- `(<NumberFormat> ",")? CaptureNumericOrExpr?`, `filecheck/src/parse/grammar.lalrpop:97`. -/
inductive Numeric : List Token → Match → Prop
  | plain : Numeric [] (.numeric none none none)
  | capture {ts c e} : Capture ts c e → Numeric ts (.numeric none c e)
  | format {fs f} : Format fs f → Numeric (fs ++ [.comma]) (.numeric (some f) none none)
  | formatCapture {fs f ts c e} : Format fs f → Capture ts c e → Numeric (fs ++ .comma :: ts) (.numeric (some f) c e)

/-- `Match`, `filecheck/src/parse/grammar.lalrpop:73-124`: what is between the brackets. -/
inductive IsMatch : List Token → Match → Prop
  | line : IsMatch [.at_, .line] (.substitution lineVar none)
  | lineRest {ts e} : ts ≠ [] → Rest (.var lineVar) ts e → IsMatch (.at_ :: .line :: ts) (.numeric none none (some e))
  | var {ts v} : PatternVar ts v → IsMatch ts (.substitution v none)
  | pattern {ts v s} : MaybeGlobalVar ts v → IsMatch (ts ++ [.colon, .raw s]) (.substitution v (some s))
  | numeric {ts m} : Numeric ts m → IsMatch (.hash :: ts) m

end G

/-- A variable at the front, `filecheck/src/parse/grammar.lalrpop:263-293`. -/
def pVar : List Token → Option (VarName × List Token)
  | .dollar :: .ident s :: r => some (.global s, r)
  | .at_ :: .ident s :: r => some (.pseudo s, r)
  | .at_ :: .line :: r => some (G.lineVar, r)
  | .ident s :: r => some (.user s, r)
  | _ => none

mutual
/-- `Subexpr` at the front, `filecheck/src/parse/grammar.lalrpop:225-260`. The number bounds the nesting. -/
def pSub : Nat → List Token → Option (Expr × List Token)
  | 0, _ => none
  | n + 1, ts =>
    match ts with
    | .op o :: .lparen :: r =>
      match pExpr n r with
      | some (x, .comma :: r2) =>
        match pExpr n r2 with
        | some (y, .rparen :: r3) => some (.bin o x y, r3)
        | _ => none
      | _ => none
    | .num k :: r => some (.num k, r)
    | .minus :: .num k :: r => some (.num (-k), r)
    | .lparen :: r =>
      match pExpr n r with
      | some (x, .rparen :: r2) => some (x, r2)
      | _ => none
    | ts => (pVar ts).map fun x => (.var x.1, x.2)

/-- `Expr` at the front, `filecheck/src/parse/grammar.lalrpop:219-223`. -/
def pExpr : Nat → List Token → Option (Expr × List Token)
  | 0, _ => none
  | n + 1, ts =>
    match pSub n ts with
    | some (x, r) => pTail n x r
    | none => none

/-- The further operands of `Expr`, `filecheck/src/parse/grammar.lalrpop:220-221`. -/
def pTail : Nat → Expr → List Token → Option (Expr × List Token)
  | 0, x, ts =>
    match ts with
    | .plus :: _ => none
    | .minus :: _ => none
    | _ => some (x, ts)
  | n + 1, x, ts =>
    match ts with
    | .plus :: r =>
      match pSub n r with
      | some (y, r2) => pTail n (.bin .add x y) r2
      | none => none
    | .minus :: r =>
      match pSub n r with
      | some (y, r2) => pTail n (.bin .sub x y) r2
      | none => none
    | ts => some (x, ts)
end

/-- `Expr`, all of the tokens. -/
def pWhole (ts : List Token) : Option Expr :=
  match pExpr (2 * ts.length + 2) ts with
  | some (e, []) => some e
  | _ => none

/-- `CaptureExprRest` up to the end, `filecheck/src/parse/grammar.lalrpop:181-185`. -/
def pRest (lhs : Expr) : List Token → Option Expr
  | [] => some lhs
  | .plus :: r => (pWhole r).map (.bin .add lhs)
  | .minus :: r => (pWhole r).map (.bin .sub lhs)
  | _ => none

/-- `EitherCaptureOrExpr` after a variable, up to the end, `filecheck/src/parse/grammar.lalrpop:128-151`, `filecheck/src/parse/grammar.lalrpop:187-195`. -/
def pEither (v : VarName) : List Token → Option (Option VarName × Option Expr)
  | [.colon] => some (some v, none)
  | .colon :: .equals :: r => (pWhole r).map fun e => (some v, some e)
  | .colon :: r => (pWhole r).map fun e => (some v, some e)
  | r => (pRest (.var v) r).map fun e => (none, some e)

/-- `CaptureNumericOrExpr` up to the end, `filecheck/src/parse/grammar.lalrpop:127-195`. -/
def pCapture (ts : List Token) : Option (Option VarName × Option Expr) :=
  match ts with
  | .equals :: r => (pWhole r).map fun e => (none, some e)
  | .op _ :: _ =>
    match pSub (2 * ts.length + 2) ts with
    | some (e, []) => some (none, some e)
    | _ => none
  | .lparen :: _ =>
    match pSub (2 * ts.length + 2) ts with
    | some (e, r) => (pRest e r).map fun e => (none, some e)
    | none => none
  | ts =>
    match pVar ts with
    | some (v, r) => pEither v r
    | none => none

/-- `RequirePrefix` at the front, `filecheck/src/parse/grammar.lalrpop:312-315`. -/
def pHash : List Token → Bool × List Token
  | .hash :: r => (true, r)
  | r => (false, r)

/-- `("." <Precision>)?` at the front, `filecheck/src/parse/grammar.lalrpop:200`, `filecheck/src/parse/grammar.lalrpop:333-340`. -/
def pPrecision : List Token → Option (Nat × List Token)
  | .dot :: .num n :: r => if 0 ≤ n ∧ n ≤ 255 then some (n.toNat, r) else none
  | .dot :: _ => none
  | r => some (0, r)

/-- `NumberFormat` up to the comma after it, `filecheck/src/parse/grammar.lalrpop:199-215`; what follows the percent sign. -/
def pFormat (ts : List Token) : Option (NumFmt × List Token) :=
  match pPrecision (pHash ts).2 with
  | none => none
  | some (p, .ident s :: .comma :: r) => (G.format (pHash ts).1 p (some s)).map fun f => (f, r)
  | some (p, .comma :: r) => (G.format (pHash ts).1 p none).map fun f => (f, r)
  | some _ => none

/-- `Match`, `filecheck/src/parse/grammar.lalrpop:73-124`, on the tokens between the brackets. -/
def pMatch (ts : List Token) : Option Match :=
  match ts with
  | .hash :: [] => some (.numeric none none none)
  | .hash :: .percent :: r =>
    match pFormat r with
    | none => none
    | some (f, []) => some (.numeric (some f) none none)
    | some (f, r) => (pCapture r).map fun x => .numeric (some f) x.1 x.2
  | .hash :: r => (pCapture r).map fun x => .numeric none x.1 x.2
  | .at_ :: .line :: [] => some (.substitution G.lineVar none)
  | .at_ :: .line :: r => (pRest (.var G.lineVar) r).map fun e => .numeric none none (some e)
  | [.at_, .ident s] => some (.substitution (.pseudo s) none)
  | [.dollar, .ident s] => some (.substitution (.global s) none)
  | [.ident s] => some (.substitution (.user s) none)
  | [.dollar, .ident s, .colon, .raw p] => some (.substitution (.global s) (some p))
  | [.ident s, .colon, .raw p] => some (.substitution (.user s) (some p))
  | _ => none

end Litcheck.Lex
