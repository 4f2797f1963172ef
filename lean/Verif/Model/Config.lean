import Verif.Model.Substitutions

/-!
# Test configuration and selection (`lit/src/test/config.rs`, `lit/src/config/mod.rs`, `lit/src/config/features.rs`)

Environment and substitutions are lists of entries (`SubSet`); for the environment, a `BTreeMap`, the order does not
matter. Formats and glob patterns are represented by their source text.
-/

namespace Litcheck

/-- `SelectedTestFormat`, `lit/src/format.rs:22-34`. The formats' own options are kept as they are written. -/
inductive Format where
  | default
  | shtest (options : Str)
  | executable (options : Str)
  deriving DecidableEq, Repr

/-- `FeatureSet`, `features.rs:8-12`: each feature once. -/
abbrev Features := List Str

/-- `insert`, `features.rs:48-53`. -/
def Features.insert (s : Features) (f : Str) : Features := if s.contains f then s else s ++ [f]

/-- `extend`, `features.rs:55-62`. -/
def Features.extend (s : Features) (fs : List Str) : Features := fs.foldl Features.insert s

/-- `TestConfig`, `config.rs:29-69`. -/
structure TestConfig where
  format : Format
  patterns : List Str
  exclude : List Str
  env : SubSet
  substitutions : SubSet
  features : Features
  deriving DecidableEq, Repr

/-- `TestConfig::default`, `config.rs:29`. -/
def TestConfig.empty : TestConfig := ⟨.default, [], [], [], [], []⟩

/-- `TestConfig::inherit`, `config.rs:93-122`. -/
def TestConfig.inherit (self parent : TestConfig) : TestConfig where
  format := if self.format = .default then parent.format else self.format
  patterns := if self.patterns.isEmpty then parent.patterns else self.patterns
  exclude := if self.exclude.isEmpty then parent.exclude else self.exclude
  env := if !parent.env.isEmpty then parent.env.extend self.env else self.env
  substitutions :=
    if !parent.substitutions.isEmpty then parent.substitutions.extend self.substitutions else self.substitutions
  features := if !parent.features.isEmpty then Features.extend parent.features self.features else self.features

/-- `TestConfig::set_default_substitutions`, `config.rs:172-236`: which entries are inserted depends on the executable
and the directories. -/
def TestConfig.setDefaultSubstitutions (self : TestConfig) (defaults : List (Str × Str)) : TestConfig :=
  { self with substitutions := self.substitutions.extend defaults }

/-- `Config::is_selected`, `lit/src/config/mod.rs:52-66`. A filter is a predicate on names. -/
def isSelected (filter filterOut : Option (Str → Bool)) (name : Str) : Bool :=
  let isSelected := (filter.map fun f => f name).getD true
  let isExcluded := (filterOut.map fun f => f name).getD false
  isSelected && !isExcluded

end Litcheck
