import Verif.Model.Registry

/-!
# Specification of test discovery

In terms of what is on the disk only: which directories are suites, which suite a file belongs to, and which files are
its tests.
-/

namespace Litcheck.RSpec

open Litcheck.Registry

/-- No two entries of a directory have the same name, at any depth. -/
inductive Tidy : List FNode → Prop
  | mk {ns : List FNode} : (ns.map FNode.name).Nodup → (∀ x ch, FNode.dir x ch ∈ ns → Tidy ch) → Tidy ns

/-- A directory with a suite configuration file in it. -/
def SuiteDir (d : Disk) (e : DPath) : Prop := d.isFile (e ++ [SUITE]) = true

/-- Every suite's sources are the directory its configuration file is in, which is what happens when the configuration does not
say otherwise; and no directory is called like a suite configuration file. -/
structure Plain (d : Disk) : Prop where
  tidy : Tidy d.top
  own : ∀ e decl, d.suite (e ++ [SUITE]) = some decl → decl.sourceDir = e
  noDir : ∀ e, d.isDir (e ++ [SUITE]) = false

/-- `e` is the nearest suite directory at or above the directory of the file `f`. -/
def Nearest (d : Disk) (f e : DPath) : Prop :=
  e <+: f.dropLast ∧ SuiteDir d e ∧ ∀ e', e' <+: f.dropLast → SuiteDir d e' → e' <+: e

/-- The name starts with a dot. -/
def Hidden (f : DPath) : Prop := ∃ s, f.getLast? = some ('.' :: s)

/-- The configuration selects the path. -/
def Chosen (d : Disk) (c : TestConfig) (p : DPath) : Prop :=
  (∃ g ∈ c.patterns, d.glob g (relative p) = true) ∧ ¬ ∃ g ∈ c.exclude, d.glob g (relative p) = true

/-- The file at `e ++ p` is a test of the suite declared in the directory `e`. -/
def IsTest (d : Disk) (e : DPath) (decl : SuiteDecl) (p : DPath) : Prop :=
  d.isFile (e ++ p) = true ∧ ¬ Hidden p ∧ Nearest d (e ++ p) e ∧ d.suite (e ++ [SUITE]) = some decl ∧ Chosen d decl.config p

/-- `e` is the nearest suite directory at or above the file's directory, and not above the working directory. -/
def InSuite (d : Disk) (e f : DPath) : Prop := d.isFile f = true ∧ Nearest d f e ∧ d.cwd <+: e

/-- No local configuration anywhere. -/
def NoLocal (d : Disk) : Prop := ∀ p, d.isFile (p ++ [LOCAL]) = false

/-- The suite declared in `b` has sources around `dir`. -/
def Contains (d : Disk) (b dir : DPath) : Prop :=
  SuiteDir d b ∧ ∃ decl, d.suite (b ++ [SUITE]) = some decl ∧ decl.sourceDir <+: dir

/-- The directories with a local configuration on the way from a suite's sources down to the directory `p` below them, topmost first. -/
def localDirs (d : Disk) (src p : DPath) : List DPath :=
  (p.inits.tail.map (src ++ ·)).filter fun q => d.isFile (q ++ [LOCAL])

/-- What a directory's local configuration makes of the settings from above it. -/
def refine (d : Disk) (decl : SuiteDecl) (above : TestConfig) (q : DPath) : TestConfig :=
  match d.local_ (q ++ [LOCAL]) with
  | none => above
  | some c =>
    let c := (c.inherit above).setDefaultSubstitutions (d.defaults decl q)
    { c with features := Features.extend c.features d.features }

end Litcheck.RSpec
