import Verif.Model.PathTree

/-!
# Specification of the path tree

Against a plain list of what was accepted so far, and against what a path denotes.
-/

namespace Litcheck.PSpec

open Litcheck.PathTree (Ty)

variable {V : Type}

/-- The accepted insertions in order: the canonical path, what kind of file it was then, the value. -/
abbrev Hist (V : Type) := List (FPath × Ty × V)

/-- The value inserted last at a path. -/
def lastAt (h : Hist V) (p : FPath) : Option V := (h.reverse.find? fun e => e.1 = p).map fun e => e.2.2

/-- Something was inserted at the path. -/
def Registered (h : Hist V) (p : FPath) : Prop := ∃ e ∈ h, e.1 = p

/-- `s` is a proper ancestor of `q`. -/
def Above (s q : FPath) : Prop := s ≠ [] ∧ ∃ r, r ≠ [] ∧ q = s ++ r

/-- A registered path known to be a directory: it was one when it was inserted, or something below it has been
registered too. -/
def IsDir (h : Hist V) (p : FPath) : Prop :=
  Registered h p ∧ ((∃ e ∈ h, e.1 = p ∧ e.2.1 = .dir) ∨ ∃ q, Above p q ∧ Registered h q)

/-- `r` is the nearest registered directory above `q`, with its latest value. -/
def IsNearest (h : Hist V) (q : FPath) : Option (FPath × V) → Prop
  | some (p, v) => Above p q ∧ IsDir h p ∧ lastAt h p = some v ∧ ∀ p', Above p' q → IsDir h p' → p' <+: p
  | none => ∀ p', Above p' q → ¬ IsDir h p'

/-- One step of walking a path, from a directory given by its names; the root is its own parent. -/
def walk (at' : List Str) : Comp → List Str
  | .root => []
  | .cur => at'
  | .parent => at'.dropLast
  | .normal s => at' ++ [s]

/-- Where a path leads from the directory `cwd`, when there are no symbolic links. -/
def locate (cwd : List Str) (p : FPath) : List Str := p.foldl walk cwd

/-- Whether a component is a name. -/
def isName : Comp → Bool
  | .normal _ => true
  | _ => false

/-- No prefix of an absolute path has more `..` than names: it never tries to leave the root. -/
def StaysBelowRoot (p : FPath) : Prop :=
  p.head? = some .root → ∀ k, (p.take k).countP (· = .parent) ≤ (p.take k).countP isName

/-- Components as `Path::components` yields them: the root only at the start. -/
def RootFirst (p : FPath) : Prop := .root ∉ p.tail

/-- Nothing left to simplify: `..` only at the start, no `.`. -/
def Simple (p : FPath) : Prop :=
  ∃ n rest, p = List.replicate n .parent ++ rest ∧ Comp.parent ∉ rest ∧ Comp.cur ∉ rest

end Litcheck.PSpec
