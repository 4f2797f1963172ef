import Verif.Model.Source
import Verif.Model.Env

/-!
# The source manager (`core/src/diagnostics/source_manager.rs`), the symbol table (`core/src/symbol/mod.rs`) and
`NAME=VALUE` definitions (`core/src/variables/mod.rs`)

The `RwLock`s around manager and symbol table are held for the whole of each operation, so an execution is a sequence of
operations. An `Arc<SourceFile>` handed out is a value: `Arc::make_mut` copies when it is shared.
-/

namespace Litcheck

/-! ## Source ids and the manager -/

/-- `SourceGroup`, `source_manager.rs:11-15`. -/
inductive SourceGroup where
  | file | argument | unknown
  deriving DecidableEq, Repr

/-! A `SourceId` (`source_manager.rs:20`) is a number. -/

namespace SourceId

/-- `SourceId::UNKNOWN`, `source_manager.rs:35`. -/
def UNKNOWN : Nat := 0xFFFFFFFF

/-- `SourceId::MAX_INDEX`, `source_manager.rs:37-39`. -/
def MAX_INDEX : Nat := 0xFFFFFF

/-- `SourceId::file`, `source_manager.rs:42-49`. -/
def file (i : Nat) : P Nat := if i ≤ MAX_INDEX then .ok i else .error .assertFailed

/-- `SourceId::argument`, `source_manager.rs:53-60`; `|` of disjoint bits is `+`. -/
def argument (i : Nat) : P Nat := if i ≤ MAX_INDEX then .ok (i + 254 * 2 ^ 24) else .error .assertFailed

/-- `to_index`, `source_manager.rs:73-75`. -/
def toIndex (id : Nat) : Nat := id % 2 ^ 24

/-- `group`, `source_manager.rs:78-82`; ids are only made with a valid group. -/
def group (id : Nat) : SourceGroup :=
  if id / 2 ^ 24 = 0 then .file else if id / 2 ^ 24 = 254 then .argument else .unknown

/-- `is_cli_argument`, `source_manager.rs:93-95`. -/
def isCliArgument (id : Nat) : Bool := group id == .argument

end SourceId

/-- `FileName`, `core/src/diagnostics/filename.rs:5-10`; a path which is not valid Unicode by its bytes. -/
inductive FileName where
  | stdin
  | path (p : String)
  | badPath (bytes : Buf)
  | virtual (name : String)
  deriving DecidableEq, Repr

namespace FileName

/-- `as_str`, `filename.rs:17-23`. -/
def asStr : FileName → String
  | .stdin => "stdin"
  | .path p => p
  | .badPath _ => "<invalid>"
  | .virtual s => s

/-- `Ord for FileName`, `filename.rs:40-44`: are two names the same key of a map? (`PartialEq` is derived and compares all.) -/
def sameKey (a b : FileName) : Bool := a.asStr == b.asStr

/-- `From<&Path>`, `From<Box<Path>>` and `From<PathBuf>`, `filename.rs:46-70`, for a path which is valid Unicode. -/
def ofPath (p : String) : FileName := if p == "-" then .stdin else .path p

/-- `From<&str>` and `From<String>`, `filename.rs:72-90`. -/
def ofStr (s : String) : FileName := if s == "-" then .stdin else .virtual s

end FileName

/-- `SourceFile`, `source_file.rs:60-65`, with the uri of its content. -/
structure SFile where
  id : Nat
  uri : FileName
  src : Source
  deriving DecidableEq, Repr

/-- `DefaultSourceManagerImpl`, `source_manager.rs:372-376`. Two names are the same key of the `BTreeMap` if their texts are
equal (`FileName.sameKey`), so the map is from texts. -/
structure Manager where
  files : List SFile
  arguments : List SFile
  uris : Map String Nat

namespace Manager

/-- The empty manager. -/
def empty : Manager := ⟨[], [], fun _ => none⟩

/-- `get`, `source_manager.rs:424-436`; `none` is `InvalidSourceId`. -/
def get (m : Manager) (id : Nat) : Option SFile :=
  if (SourceId.isCliArgument id) then m.arguments[(SourceId.toIndex id)]? else m.files[(SourceId.toIndex id)]?

/-- `find`, `source_manager.rs:442-444`. -/
def find (m : Manager) (uri : FileName) : Option Nat := m.uris uri.asStr

/-- `get_by_uri`, `source_manager.rs:438-440`. -/
def getByUri (m : Manager) (uri : FileName) : Option SFile := (m.find uri).bind m.get

/-- `insert`, `source_manager.rs:379-422`: the first part, the file already known under this name with this content.
Indexing panics for an id which is not there. -/
def known (m : Manager) (uri : FileName) (content : Source) : P (Option SFile) :=
  match m.uris uri.asStr with
  | none => .ok none
  | some id =>
    match m.get id with
    | none => .error .indexOutOfBounds
    | some f => .ok (if f.src.content == content.content then some f else none)

/-- `insert`, `source_manager.rs:379-422`. -/
def insert (m : Manager) (group : SourceGroup) (uri : FileName) (content : Source) : P (Manager × SFile) := do
  match ← m.known uri content with
  | some f => .ok (m, f)
  | none =>
    match group with
    | .file => do
      let id ← SourceId.file m.files.length
      let f : SFile := ⟨id, uri, content⟩
      .ok (⟨m.files ++ [f], m.arguments, m.uris.insert uri.asStr id⟩, f)
    | .argument => do
      let id ← SourceId.argument m.arguments.length
      let f : SFile := ⟨id, uri, content⟩
      .ok (⟨m.files, m.arguments ++ [f], m.uris.insert uri.asStr id⟩, f)
    | .unknown => .error .unreachableCode

/-- `load`, `load_argument`, `source_manager.rs:173-185`, and `load_from_raw_parts`, 481-489. -/
def load (m : Manager) (group : SourceGroup) (uri : FileName) (text : Buf) : P (Manager × SFile) := do
  let content ← Source.new text
  m.insert group uri content

/-- One file of a list is edited in place. -/
def editAt (fs : List SFile) (i : Nat) (text : Buf) (sel : Option Selection) (version : Int) :
    P (Except UpdateError (List SFile)) :=
  match fs[i]? with
  | none => .error .indexOutOfBounds
  | some f => do
    match ← f.src.update text sel version with
    | .error e => .ok (.error e)
    | .ok src => .ok (.ok (fs.set i { f with src := src }))

/-- `update`, `source_manager.rs:491-518`; the outer `none` is `InvalidSourceId`. -/
def update (m : Manager) (id : Nat) (text : Buf) (sel : Option Selection) (version : Int) :
    P (Option (Except UpdateError Manager)) :=
  match (SourceId.group id) with
  | .file => do
    match ← editAt m.files (SourceId.toIndex id) text sel version with
    | .error e => .ok (some (.error e))
    | .ok fs => .ok (some (.ok { m with files := fs }))
  | .argument => do
    match ← editAt m.arguments (SourceId.toIndex id) text sel version with
    | .error e => .ok (some (.error e))
    | .ok fs => .ok (some (.ok { m with arguments := fs }))
  | .unknown => .ok none

/-- `location_to_span`, `source_manager.rs:459-472`; a span is an id and two offsets. -/
def locationToSpan (m : Manager) (uri : FileName) (start stop : Nat) : P (Option (Nat × Nat × Nat)) :=
  match m.getByUri uri with
  | none => .ok none
  | some f =>
    if start ≥ f.src.content.length ∨ stop > f.src.content.length then .ok none
    else if start ≤ stop then .ok (some (f.id, start, stop)) else .error .invalidRange

/-- `location`, `source_manager.rs:474-477`. -/
def location (m : Manager) (id : Nat) (start stop : Nat) : Option (FileName × Nat × Nat) :=
  (m.get id).map fun f => (f.uri, start, stop)

end Manager

/-! ## Symbols -/

/-- `Interner`, `symbol/mod.rs:194-197`; a symbol is an index. -/
structure Interner where
  names : Map String Nat
  strings : List String

namespace Interner

/-- `Interner::default`, `symbol/mod.rs:200-210`: the symbols built in (`symbols.toml`), numbered from 0. -/
def init (builtin : List String) : Interner :=
  builtin.zipIdx.foldl (fun t (s, i) => ⟨t.names.insert s i, t.strings ++ [s]⟩) ⟨fun _ => none, []⟩

/-- `SymbolIndex::MAX_AS_U32`, `symbol/mod.rs:162`. -/
def MAX : Nat := 0xFFFFFF00

/-- `intern`, `symbol/mod.rs:214-226` (and `insert`, 228-236, which does the same with a static string);
`Symbol::new` asserts that the index is in range. -/
def intern (t : Interner) (s : String) : P (Interner × Nat) :=
  match t.names s with
  | some n => .ok (t, n)
  | none =>
    if t.strings.length ≤ MAX then .ok (⟨t.names.insert s t.strings.length, t.strings ++ [s]⟩, t.strings.length)
    else .error .assertFailed

/-- `get`, `symbol/mod.rs:238-240`. -/
def get (t : Interner) (sym : Nat) : P String :=
  match t.strings[sym]? with
  | some s => .ok s
  | none => .error .indexOutOfBounds

end Interner

/-! ## `NAME=VALUE` -/

/-- `char::is_ascii_alphabetic` (standard library). -/
def isAsciiAlphabetic (c : Char) : Bool := ('a' ≤ c && c ≤ 'z') || ('A' ≤ c && c ≤ 'Z')

/-- `char::is_ascii_alphanumeric` (standard library). -/
def isAsciiAlphanumeric (c : Char) : Bool := isAsciiAlphabetic c || ('0' ≤ c && c ≤ '9')

/-- `is_valid_variable_name`, `core/src/variables/mod.rs:402-416`. -/
def isValidVariableName : List Char → Bool
  | [] => false
  | c :: cs => (c == '_' || isAsciiAlphabetic c) && cs.all fun c => c == '_' || isAsciiAlphanumeric c

/-- `str::split_once` (standard library). -/
def splitOnce (x : Char) : List Char → Option (List Char × List Char)
  | [] => none
  | c :: cs => if c == x then some ([], cs) else (splitOnce x cs).map fun (k, v) => (c :: k, v)

/-- Why a definition is refused: `VariableError`, `variables/mod.rs`, and the ad hoc reports of `try_parse`. -/
inductive DefinitionError where
  | empty | emptyName | invalidName | missingEquals
  deriving DecidableEq, Repr

/-- `<VariableName as ValueParser>::try_parse`, `variables/mod.rs:103-135`. -/
def parseVariableName (s : List Char) : Except DefinitionError VName :=
  let (sigil, unprefixed) := match s with
    | '$' :: r => (some '$', r)
    | '@' :: r => (some '@', r)
    | r => (none, r)
  if !isValidVariableName unprefixed then .error .invalidName
  else match sigil with
    | none => .ok (.user (String.ofList unprefixed))
    | some '$' => .ok (.global (String.ofList unprefixed))
    | some _ => .ok (.pseudo (String.ofList unprefixed))

/-- `<Variable<V> as TypedVariable>::try_parse`, `variables/mod.rs:254-287`, for string values, whose parsing does
not fail. -/
def parseDefinition (s : List Char) : Except DefinitionError (VName × List Char) :=
  if s.isEmpty then .error .empty
  else match splitOnce '=' s with
    | some (k, v) =>
      if k.isEmpty then .error .emptyName
      else if !isValidVariableName k then .error .invalidName
      else match parseVariableName k with
        | .ok n => .ok (n, v)
        | .error e => .error e
    | none => .error .missingEquals

end Litcheck
