import Verif.Model.PathTree
import Verif.Model.TestList
import Verif.Model.Execute

/-!
# Suites and test discovery (`lit/src/suite/set.rs`, `lit/src/suite/registry/default.rs`, `lit/src/test/registry/default.rs`)

The disk is a tree of directories and files without symbolic links, which does not change during a run. An absolute,
canonical path is the list of its names below the root, and a relative one as well. What a configuration file says is a parameter, as is the
matching of glob patterns.
-/

namespace Litcheck.Registry

open Litcheck (FPath Comp)

/-- A canonical path: names below the root, or below the directory it is relative to. -/
abbrev DPath := List Str

/-- The path as its components. -/
def absolute (p : DPath) : FPath := .root :: p.map .normal

/-- A relative path as its components. -/
def relative (p : DPath) : FPath := p.map .normal

/-- The name in a component. -/
def compName : Comp → Option Str
  | .normal s => some s
  | _ => none

/-- What a directory holds. -/
inductive FNode where
  | file (name : Str)
  | dir (name : Str) (children : List FNode)

/-- The name of an entry. -/
def FNode.name : FNode → Str
  | .file n => n
  | .dir n _ => n

/-- What a suite's configuration file says, once its directories are made absolute, `lit/src/suite/mod.rs:103-231`. -/
structure SuiteDecl where
  name : Str
  sourceDir : DPath
  config : TestConfig
  deriving DecidableEq, Repr

/-- The surroundings of a run. `suite` and `local_` are `TestSuite::parse` (`lit/src/suite/mod.rs:103-231`) and
`TestConfig::parse` (`lit/src/test/config.rs:68-90`) of a file, `none` for an error. `glob` is
`glob::Pattern::matches_path` (external crate). `defaults` and `features` are what `set_default_substitutions` (given the
suite and the directory) and `set_default_features` insert (`lit/src/test/config.rs:124-236`). -/
structure Disk where
  top : List FNode
  cwd : DPath
  suite : DPath → Option SuiteDecl
  local_ : DPath → Option TestConfig
  glob : Str → FPath → Bool
  defaults : SuiteDecl → DPath → List (Str × Str)
  features : List Str

/-- The entries of the directory at a path below some entries, if there is one. -/
def entriesAt : List FNode → DPath → Option (List FNode)
  | ns, [] => some ns
  | ns, x :: xs =>
    match ns.find? (fun n => n.name == x) with
    | some (.dir _ ch) => entriesAt ch xs
    | _ => none

/-- Whether an entry is a file. -/
def FNode.isFile : FNode → Bool
  | .file _ => true
  | .dir _ _ => false

namespace Disk

/-- `Path::is_dir`. -/
def isDir (d : Disk) (p : DPath) : Bool := (entriesAt d.top p).isSome

/-- `Path::is_file`. -/
def isFile (d : Disk) (p : DPath) : Bool :=
  match p.getLast? with
  | none => false
  | some x =>
    match entriesAt d.top p.dropLast with
    | none => false
    | some ns =>
      match ns.find? (fun n => n.name == x) with
      | some n => n.isFile
      | none => false

/-- What the path tree's canonicalisation finds, `core/src/fs/path_tree.rs:345-365`: the registry only ever hands it
absolute canonical paths. -/
def fs (d : Disk) (q : FPath) : Option (FPath × PathTree.Ty) :=
  match q with
  | .root :: cs =>
    let p := cs.filterMap compName
    if relative p = cs then
      if d.isDir p then some (q, .dir) else if d.isFile p then some (q, .file) else none
    else none
  | _ => none

/-- `search_directory(path, false, |entry| entry.file_name() == name)` and its first result,
`core/src/fs/filesearch.rs:9-69`: a file of that name in the directory. When the path is a file, that file is all there is to
be searched. -/
def search (d : Disk) (p : DPath) (name : Str) : Option DPath :=
  if d.isFile p then (if p.getLast? = some name then some p else none)
  else if d.isFile (p ++ [name]) then some (p ++ [name]) else none

end Disk

/-- The name of the file that makes a directory a suite. -/
def SUITE : Str := "lit.suite.toml".toList

/-- The name of the file with settings for a directory. -/
def LOCAL : Str := "lit.local.toml".toList

/-- `TestSuiteKey`, `lit/src/suite/set.rs:94-101`; spans do not take part in comparisons. -/
structure Key where
  name : Str
  path : DPath
  deriving DecidableEq, Repr

/-- The order of keys: by name, then by path. -/
def Key.code (k : Key) : List (List Nat) := k.name.map Char.toNat :: k.path.map (·.map Char.toNat)

/-- `TestSuite`, `lit/src/suite/mod.rs:28-69`, without its working directory. The search paths, which are behind a mutex, are kept
apart: `id` says where. -/
structure Suite where
  decl : SuiteDecl
  path : DPath
  id : Nat
  deriving DecidableEq, Repr

/-- `TestSuite::id`, `lit/src/suite/mod.rs:82-84`. -/
def Suite.key (s : Suite) : Key := ⟨s.decl.name, s.path⟩

/-- `TestSuite::source_dir`, `lit/src/suite/mod.rs:87-89`. -/
def Suite.sourceDir (s : Suite) : DPath := s.decl.sourceDir

/-- A map ordered by key (`BTreeMap`, and the red-black tree of `TestSuiteSet`): its entries in order. -/
abbrev KMap (V : Type) := List (Key × V)

namespace KMap
variable {V : Type}

/-- Lookup. -/
def get (m : KMap V) (k : Key) : Option V := (m.find? (·.1 == k)).map (·.2)

/-- Insertion, replacing the value of a known key. -/
def insert : KMap V → Key → V → KMap V
  | [], k, v => [(k, v)]
  | (k', v') :: m, k, v =>
    if k' = k then (k, v) :: m
    else if k.code < k'.code then (k, v) :: (k', v') :: m
    else (k', v') :: insert m k v

end KMap

/-- `TestSuiteSet`, `lit/src/suite/set.rs:20-24`. -/
structure SuiteSet where
  len : Nat
  suites : KMap Suite

namespace SuiteSet

/-- `TestSuiteSet::default`, `lit/src/suite/set.rs:20`; also `clear`, `lit/src/suite/set.rs:67-70`. -/
def empty : SuiteSet := ⟨0, []⟩

/-- `insert`, `lit/src/suite/set.rs:39-56`. -/
def insert (s : SuiteSet) (x : Suite) : Bool × SuiteSet :=
  match s.suites.get x.key with
  | some _ => (false, s)
  | none => (true, ⟨s.len + 1, s.suites.insert x.key x⟩)

/-- `get`, `lit/src/suite/set.rs:58-65`. -/
def get (s : SuiteSet) (k : Key) : Option Suite := s.suites.get k

/-- `is_empty`, `lit/src/suite/set.rs:26-28`. -/
def isEmpty (s : SuiteSet) : Bool := s.suites.isEmpty

/-- `iter`, `lit/src/suite/set.rs:35-37`, `lit/src/suite/set.rs:73-89`. -/
def iter (s : SuiteSet) : List Suite := s.suites.map (·.2)

end SuiteSet

/-- `Test`, `lit/src/test/mod.rs:22-42`. -/
structure Found where
  suite : Suite
  config : TestConfig
  path : DPath
  deriving DecidableEq, Repr

/-- `Test::absolute_path`, `lit/src/test/mod.rs:45`. -/
def Found.absolutePath (t : Found) : DPath := t.suite.sourceDir ++ t.path

/-- `Test::name`, `lit/src/test/mod.rs:42-61`. -/
def Found.name (t : Found) : Str := t.suite.decl.name ++ "::".toList ++ "/".toList.intercalate t.path

/-- `DefaultTestSuiteRegistry`, `lit/src/suite/registry/default.rs:17-28`. `filters` are the search paths of all suites ever
loaded, by their `id`. -/
structure Reg where
  filters : List (List DPath)
  suites : SuiteSet
  tests : KMap (TestList Found)
  cache : PathTree Key
  locals : PathTree TestConfig

/-- `DefaultTestSuiteRegistry::clear`, `lit/src/suite/registry/default.rs:223-229`. The suites that others still hold are not
modelled: nobody does. -/
def Reg.empty : Reg := ⟨[], .empty, [], .empty, .empty⟩

/-- Order of paths. -/
def pathCode (p : DPath) : List (List Nat) := p.map (·.map Char.toNat)

/-- `BTreeSet::insert`. -/
def insertPath : List DPath → DPath → List DPath
  | [], p => [p]
  | q :: qs, p => if q = p then q :: qs else if pathCode p < pathCode q then p :: q :: qs else q :: insertPath qs p

/-- A call that may panic, as an outcome. -/
def ofP {α : Type} : P α → Out α
  | .ok a => .ok a
  | .error _ => .panic

/-- `PathPrefixTree::insert`, `core/src/fs/path_tree.rs:133-135`. -/
def cacheInsert {V : Type} (d : Disk) (t : PathTree V) (p : DPath) (v : V) : Out (PathTree V) :=
  match PathTree.tryInsert d.fs t (absolute p) v with
  | .ok (.ok _, t) => .ok t
  | _ => .panic

/-- `load_without_cache`, `lit/src/suite/registry/default.rs:324-334`. What `TestSuiteSet::insert` returns is ignored. -/
def loadWithoutCache (d : Disk) (r : Reg) (path : DPath) : Out (Reg × Suite) :=
  match d.suite path with
  | none => .err
  | some decl => do
    let s : Suite := ⟨decl, path, r.filters.length⟩
    let c ← cacheInsert d r.cache path s.key
    let c ← cacheInsert d c s.sourceDir s.key
    pure ({ r with
      filters := r.filters ++ [[]]
      suites := (r.suites.insert s).2
      tests := r.tests.insert s.key .empty
      cache := c }, s)

/-- `get`, `lit/src/suite/registry/default.rs:177-179`. -/
def getSuite (r : Reg) (k : Key) : Out Suite :=
  match r.suites.get k with
  | some s => .ok s
  | none => .panic

/-- The loop over the ancestors, `lit/src/suite/registry/default.rs:299-318`; the list holds them, nearest first. -/
def searchAncestors (d : Disk) (dir : DPath) : List DPath → Reg → Out (Reg × Option Suite)
  | [], r => .ok (r, none)
  | a :: as, r =>
    match d.search a SUITE with
    | some file => do
      let (r, s) ← loadWithoutCache d r file
      if s.sourceDir <+: dir then pure (r, some s)
      else if a = d.cwd then pure (r, none)
      else searchAncestors d dir as r
    | none => if a = d.cwd then .ok (r, none) else searchAncestors d dir as r

/-- `Path::ancestors`. -/
def ancestors (p : DPath) : List DPath := p.inits.reverse

/-- `find_nearest_suite_containing`, `lit/src/suite/registry/default.rs:271-322`. -/
def findContaining (d : Disk) (r : Reg) (path : DPath) : Out (Reg × Option Suite) := do
  match ← ofP (PathTree.nearestAncestor d.fs r.cache (absolute path)) with
  | some (_, k) => do
    let s ← getSuite r k
    pure (r, some s)
  | none =>
    let dir := if d.isDir path then path else path.dropLast
    searchAncestors d dir (ancestors dir) r

/-- `find_nearest_suite`, `lit/src/suite/registry/default.rs:238-269`. -/
def findNearest (d : Disk) (r : Reg) (path : DPath) : Out (Reg × Option Suite) :=
  if d.isDir path then do
    match ← ofP (PathTree.get d.fs r.cache (absolute path)) with
    | some k => do
      let s ← getSuite r k
      pure (r, some s)
    | none =>
      match d.search path SUITE with
      | some file => do
        let (r, s) ← loadWithoutCache d r file
        pure (r, some s)
      | none => findContaining d r path
  else findContaining d r path

/-- What follows a prefix (`Path::strip_prefix`). -/
def strip : DPath → DPath → Option DPath
  | [], p => some p
  | a :: as, b :: bs => if a = b then strip as bs else none
  | _ :: _, [] => none

/-- `is_file_based_test`, `lit/src/test/registry/default.rs:153-175`. -/
def isFileBasedTest (d : Disk) (path : DPath) (s : Suite) (c : TestConfig) : Bool :=
  let hidden := (path.getLast?.map fun n => n.head? == some '.').getD false
  if hidden || !d.isFile path then false
  else
    let inSuite := match strip s.sourceDir path with
      | some p => relative p
      | none => absolute path
    let isMatch := c.patterns.any (d.glob · inSuite)
    if isMatch && !c.exclude.isEmpty then !c.exclude.any (d.glob · inSuite) else isMatch

mutual

/-- The walk of `get_file_based_tests`, `lit/src/test/registry/default.rs:98-121`, below a directory: the files that are
tests, and the directories of other suites, which are not entered. The entries come in the order of the directory. -/
def walk (keep : DPath → Bool) (own nested : DPath → Bool) (at' : DPath) : List FNode → List DPath × List DPath
  | [] => ([], [])
  | n :: ns =>
    let a := walkNode keep own nested at' n
    let b := walk keep own nested at' ns
    (a.1 ++ b.1, a.2 ++ b.2)

/-- The walk at one entry. -/
def walkNode (keep : DPath → Bool) (own nested : DPath → Bool) (at' : DPath) : FNode → List DPath × List DPath
  | .file n => (if keep (at' ++ [n]) then [at' ++ [n]] else [], [])
  | .dir n ch =>
    if own (at' ++ [n]) then walk keep own nested (at' ++ [n]) ch
    else if nested (at' ++ [n]) then ([], [at' ++ [n]])
    else walk keep own nested (at' ++ [n]) ch

end

/-- The loop over nested suites, `lit/src/test/registry/default.rs:143-149`. `load` is `load_from_path`. -/
def loadNested (load : Reg → DPath → Out Reg) (searchPath sourceDir : DPath) : List DPath → Reg → Out Reg
  | [], r => .ok r
  | p :: ps, r =>
    if p = searchPath ∨ p = sourceDir then loadNested load searchPath sourceDir ps r
    else do
      let r ← load r p
      loadNested load searchPath sourceDir ps r

/-- `get_file_based_tests`, `lit/src/test/registry/default.rs:82-150`. A directory counts as another suite when there is anything
called `lit.suite.toml` in it. The path of a test is taken relative to the search path. -/
def fileTests (d : Disk) (load : Reg → DPath → Out Reg) (r : Reg) (s : Suite) (searchPath : DPath) (c : TestConfig) :
    Out (Reg × TestList Found) :=
  match entriesAt d.top searchPath with
  | none => .err
  | some ns =>
    let w := walk (isFileBasedTest d · s c) (fun p => p == searchPath || p == s.sourceDir)
      (fun p => d.isDir (p ++ [SUITE]) || d.isFile (p ++ [SUITE])) searchPath ns
    let tests := w.1.foldl (fun l p => l.pushBack (⟨s, c, (strip searchPath p).getD p⟩ : Found)) TestList.empty
    do
      let r ← loadNested load searchPath s.sourceDir w.2 r
      pure (r, tests)

/-- `DefaultTestRegistry::find`, `lit/src/test/registry/default.rs:44-78`. -/
def findTests (d : Disk) (load : Reg → DPath → Out Reg) (r : Reg) (s : Suite) (inSuite : DPath) (c : TestConfig) :
    Out (Reg × TestList Found) :=
  if d.isDir (s.sourceDir ++ inSuite) then fileTests d load r s (s.sourceDir ++ inSuite) c
  else
    .ok (r, if isFileBasedTest d (s.sourceDir ++ inSuite) s c then TestList.empty.pushBack ⟨s, c, inSuite⟩ else .empty)

/-- The loop of `get_local_config`, `lit/src/suite/registry/default.rs:434-451`: down from `at'` along the components. -/
def localLoop (d : Disk) (s : Suite) : List Str → DPath → TestConfig → PathTree TestConfig →
    Out (DPath × TestConfig × PathTree TestConfig)
  | [], at', c, t => .ok (at', c, t)
  | x :: xs, at', c, t =>
    match d.search (at' ++ [x]) LOCAL with
    | some file =>
      match d.local_ file with
      | none => .err
      | some cfg => do
        let cfg := ((cfg.inherit c).setDefaultSubstitutions (d.defaults s.decl (at' ++ [x])))
        let cfg := { cfg with features := Features.extend cfg.features d.features }
        let t ← cacheInsert d t (at' ++ [x]) cfg
        localLoop d s xs (at' ++ [x]) cfg t
    | none => localLoop d s xs (at' ++ [x]) c t

/-- `get_local_config`, `lit/src/suite/registry/default.rs:400-455`. When a directory above is in the cache, what is walked is the way down
to that directory, not the way from it. -/
def localConfig (d : Disk) (s : Suite) (inSuite : DPath) (t : PathTree TestConfig) : Out (TestConfig × PathTree TestConfig) := do
  let path := s.sourceDir ++ inSuite
  let path := if d.isDir path then path else path.dropLast
  match ← ofP (PathTree.get d.fs t (absolute path)) with
  | some c => pure (c, t)
  | none => do
    let (config, root) ← (do
      match ← ofP (PathTree.nearestAncestor d.fs t (absolute path)) with
      | some (q, c) =>
        match PathTree.strip (absolute s.sourceDir) q with
        | none => Out.panic
        | some rest => pure (c, rest.filterMap compName)
      | none => pure (s.decl.config, inSuite))
    let (p, c, t) ← localLoop d s root s.sourceDir config t
    let t ← cacheInsert d t p c
    pure (c, t)

/-- `self.tests_by_suite.get_mut(&suite.id()).expect(..)` and a change. -/
def modifyTests (r : Reg) (k : Key) (f : TestList Found → TestList Found) : Out Reg :=
  match r.tests.get k with
  | none => .panic
  | some l => .ok { r with tests := r.tests.insert k (f l) }

/-- The loop over the search paths, `lit/src/suite/registry/default.rs:75-94`. -/
def searchLoop (d : Disk) (load : Reg → DPath → Out Reg) (s : Suite) : List DPath → Reg → Out Reg
  | [], r => .ok r
  | p :: ps, r => do
    let (c, t) ← localConfig d s p r.locals
    let r := { r with locals := t }
    let (r, found) ← findTests d load r s p c
    let r ← modifyTests r s.key (·.append found)
    searchLoop d load s ps r

/-- `load_tests_for_suite`, `lit/src/suite/registry/default.rs:31-101`. -/
def loadTests (d : Disk) (load : Reg → DPath → Out Reg) (r : Reg) (s : Suite) : Out Reg := do
  let r ← modifyTests r s.key TestList.clear
  let paths := r.filters[s.id]?.getD []
  let r := { r with filters := r.filters.set s.id [] }
  let r ← if paths.isEmpty then do
      let (r, found) ← fileTests d load r s s.sourceDir s.decl.config
      modifyTests r s.key (·.append found)
    else searchLoop d load s paths r
  pure { r with filters := r.filters.set s.id paths }

/-- `load_from_path`, `lit/src/suite/registry/default.rs:124-159`, for an input that exists, given by its canonical path. The
number bounds the nesting of suites. -/
def loadFromPath (d : Disk) : Nat → Reg → DPath → Out Reg
  | 0, _, _ => .hang
  | n + 1, r, input =>
    if d.cwd <+: input then do
      let (r, found) ← findNearest d r input
      match found with
      | none => pure r
      | some s =>
        match strip s.sourceDir input with
        | none => .panic
        | some rel =>
          let r := if rel ≠ [] then
              { r with filters := r.filters.set s.id (insertPath (r.filters[s.id]?.getD []) rel) }
            else r
          loadTests d (loadFromPath d n) r s
    else .err

/-- `load`, `lit/src/suite/registry/default.rs:105-122`: the loop over the inputs. An input which does not exist, `none`, is an
error. -/
def loadInputs (d : Disk) (n : Nat) : List (Option DPath) → Reg → Out Reg
  | [], r => .ok r
  | none :: _, _ => .err
  | some p :: ps, r => do
    let r ← loadFromPath d n r p
    loadInputs d n ps r

/-- `load`, `lit/src/suite/registry/default.rs:105-122`. -/
def load (d : Disk) (n : Nat) (inputs : List (Option DPath)) : Out Reg := loadInputs d n inputs .empty

namespace Reg

/-- `is_empty`, `lit/src/suite/registry/default.rs:161-163`. -/
def isEmpty (r : Reg) : Bool := r.tests.isEmpty

/-- `num_suites`, `lit/src/suite/registry/default.rs:165-167`. -/
def numSuites (r : Reg) : Nat := r.tests.length

/-- `num_tests`, `lit/src/suite/registry/default.rs:169-171`. -/
def numTests (r : Reg) : Nat := (r.tests.map fun e => e.2.len).sum

/-- `size_of_suite`, `lit/src/suite/registry/default.rs:173-175`; indexing panics. -/
def sizeOfSuite (r : Reg) (k : Key) : Out Nat :=
  match r.tests.get k with
  | some l => .ok l.len
  | none => .panic

/-- `tests`, `lit/src/suite/registry/default.rs:189-191`: iterating each list yields what `TestList.iter` yields, which for a list
with the right length is its elements (`C45_iter`). -/
def allTests (r : Reg) : List Found := r.tests.flatMap fun e => e.2.tests

/-- `into_iter`, `lit/src/suite/registry/default.rs:202-212`. -/
def intoList (r : Reg) : TestList Found :=
  match r.tests with
  | [] => .empty
  | e :: es => es.foldl (fun l e => l.append e.2) e.2

end Reg

end Litcheck.Registry
