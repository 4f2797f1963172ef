import Verif.Model.Execute
import Verif.Model.Registry

/-!
# Files below an input (`core/src/input.rs`)

Links and errors of the file system are not modelled: a directory tree is given.
-/

namespace Litcheck.Registry

mutual

/-- `WalkDir` (library) with `filter_entry`, `core/src/input.rs:69-71`, `core/src/input.rs:108-110`: an entry before what is
below it, the root included. Directories are always kept (`input.rs:170-189`), files by `keep`. -/
def entriesOf (keep : DPath → Bool) (at' : DPath) : FNode → List (DPath × FNode)
  | .file n => if keep at' then [(at', .file n)] else []
  | .dir n ch => (at', .dir n ch) :: entriesBelow keep at' ch

/-- The entries below a directory, in its order. -/
def entriesBelow (keep : DPath → Bool) (at' : DPath) : List FNode → List (DPath × FNode)
  | [] => []
  | n :: ns => entriesOf keep (at' ++ [n.name]) n ++ entriesBelow keep at' ns

end

/-- `get_file_types`, `core/src/input.rs:65-82`, and `glob_pattern`, `input.rs:105-122`, which differ in `keep` only; for calls
nested at most so deep, `none` if that is not enough. -/
def filesOf (keep : DPath → Bool) : Nat → DPath → FNode → Option (List DPath)
  | 0, _, _ => none
  | depth + 1, at', n =>
    (entriesOf keep at' n).foldl (fun acc e =>
      match acc, e with
      | none, _ => none
      | some l, (p, .file _) => some (l ++ [p])
      | some l, (p, .dir m ch) => (filesOf keep depth p (.dir m ch)).map (l ++ ·)) (some [])

/-- `is_matching_file_type_or_dir`, `core/src/input.rs:170-180`, for a file. -/
def hasType (types : List Str) (p : DPath) : Bool :=
  match p.getLast? with
  | none => false
  | some name => match (stemExt name).2 with
    | none => false
    | some ext => types.contains ext

/-- `glob`, `core/src/input.rs:84-103`, for a pattern which is valid: the assertion, and the search. -/
def globFiles (matches_ : DPath → Bool) (depth : Nat) (at' : DPath) : FNode → P (Option (List DPath))
  | .file _ => .error .assertFailed
  | .dir n ch => .ok (filesOf matches_ depth at' (.dir n ch))

end Litcheck.Registry
