import Verif.Model.BoolExpr

/-!
# What a feature expression is and means, independently of the parser
-/

namespace Litcheck.BSpec

open Litcheck.BParse (Tok)

/-- A character the documentation allows in identifiers: `[-+=._a-zA-Z0-9]`. -/
def IdentChar (c : Char) : Prop :=
  c ∈ "-+=._abcdefghijklmnopqrstuvwxyzABCDEFGHIJKLMNOPQRSTUVWXYZ0123456789".toList

/-- The written form of a token. With `lone`, also a pattern opened by a single brace, which then belongs to it. -/
inductive Lexeme (lone : Bool) : Str → Tok → Prop
  | lparen : Lexeme lone ['('] .lparen
  | rparen : Lexeme lone [')'] .rparen
  | and : Lexeme lone ['&', '&'] .and
  | or : Lexeme lone ['|', '|'] .or
  | not : Lexeme lone ['!'] .not
  | ident (w : Str) : w ≠ [] → (∀ c ∈ w, IdentChar c) → Lexeme lone w (.ident w)
  | pattern (p : Str) : p ≠ [] → '}' ∉ p → Lexeme lone (['{', '{'] ++ p ++ ['}', '}']) (.pattern p)
  | lone (p : Str) : lone = true → p.head? ≠ some '{' → '}' ∉ p →
      Lexeme lone (['{'] ++ p ++ ['}', '}']) (.pattern ('{' :: p))

/-- `Text s ts`: the text `s` is the tokens `ts` with white space between them, each identifier as long as can be. -/
inductive Text (lone : Bool) : Str → List Tok → Prop
  | done (ws : Str) : (∀ c ∈ ws, BParse.isWs c) → Text lone ws []
  | token (ws w r : Str) (t : Tok) (ts : List Tok) :
      (∀ c ∈ ws, BParse.isWs c) → Lexeme lone w t →
      (∀ s c r', t = .ident s → r = c :: r' → ¬IdentChar c) →
      Text lone r ts → Text lone (ws ++ w ++ r) (t :: ts)

/-- The levels of the documented grammar, `boolean.rs:232-247`. -/
inductive Level where
  | or | and | not

/-- A token that may be part of a `match_expr`. -/
def Part : Tok → Prop
  | .ident _ | .pattern _ => True
  | _ => False

/-- The regular expression that a row of identifiers and patterns stands for. -/
def regexOf (parts : List Tok) : Str :=
  (parts.map fun
    | .pattern p => ['('] ++ p ++ [')']
    | .ident s => BParse.escape s
    | _ => []).flatten

/-- The documented grammar: the expression `e` is written by the tokens. -/
inductive Derives (rx : Rx) : Level → BExpr → List Tok → Prop
  | or (a b : BExpr) (s t : List Tok) :
      Derives rx .or a s → Derives rx .and b t → Derives rx .or (.or a b) (s ++ [.or] ++ t)
  | orAnd (a : BExpr) (s : List Tok) : Derives rx .and a s → Derives rx .or a s
  | and (a b : BExpr) (s t : List Tok) :
      Derives rx .and a s → Derives rx .not b t → Derives rx .and (.and a b) (s ++ [.and] ++ t)
  | andNot (a : BExpr) (s : List Tok) : Derives rx .not a s → Derives rx .and a s
  | not (a : BExpr) (s : List Tok) : Derives rx .not a s → Derives rx .not (.not a) (.not :: s)
  | paren (a : BExpr) (s : List Tok) : Derives rx .or a s → Derives rx .not a ([.lparen] ++ s ++ [.rparen])
  | litTrue : Derives rx .not (.lit true) [.ident "true".toList]
  | litFalse : Derives rx .not (.lit false) [.ident "false".toList]
  | var (s : Str) : s ≠ "true".toList → s ≠ "false".toList → Derives rx .not (.var s) [.ident s]
  | pattern (parts : List Tok) :
      (∀ t ∈ parts, Part t) → (∃ p, Tok.pattern p ∈ parts) → rx.compiles (regexOf parts) = true →
      Derives rx .not (.pattern (regexOf parts)) parts

/-- What an expression means for a set of features. -/
def Holds (rx : Rx) (feature : Str → Prop) : BExpr → Prop
  | .lit b => b = true
  | .var s => feature s
  | .pattern re => ∃ s, feature s ∧ rx.isMatch re s = true
  | .not x => ¬Holds rx feature x
  | .and x y => Holds rx feature x ∧ Holds rx feature y
  | .or x y => Holds rx feature x ∨ Holds rx feature y

/-- An expression without patterns whose names can be written: legal identifiers, other than the two literals. -/
def Plain : BExpr → Prop
  | .lit _ => True
  | .var s => s ≠ [] ∧ (∀ c ∈ s, IdentChar c) ∧ s ≠ "true".toList ∧ s ≠ "false".toList
  | .pattern _ => False
  | .not x => Plain x
  | .and x y => Plain x ∧ Plain y
  | .or x y => Plain x ∧ Plain y

/-- An expression without patterns. -/
def PatternFree : BExpr → Prop
  | .lit _ | .var _ => True
  | .pattern _ => False
  | .not x => PatternFree x
  | .and x y | .or x y => PatternFree x ∧ PatternFree y

end Litcheck.BSpec
