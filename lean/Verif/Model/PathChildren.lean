import Verif.Model.PathTree

/-!
# The entries below a path in a path tree (`core/src/fs/path_tree.rs`)
-/

namespace Litcheck.PathTree

/-- Whether a depth is beyond the limit, `path_tree.rs:1017-1021` and `path_tree.rs:1052-1061`. -/
def tooDeep (limit : Option Nat) (depth : Nat) : Bool :=
  match limit with
  | none => false
  | some m => decide (m < depth)

mutual

/-- What `Dfs` emits for one node, `path_tree.rs:972-1050` and `path_tree.rs:1207-1230`, with a depth limit: `pre` is the path above the node, `depth` the
depth of the visitor. (Without a limit the code leaves the depth at zero, `path_tree.rs:1063-1072`, and does not look at it.) -/
def walkNode (limit : Option Nat) (pre : FPath) (depth : Nat) : Node → List (FPath × Nat)
  | .leaf c _ d => if tooDeep limit (depth + c.length) then [] else (d.map fun k => (pre ++ c, k)).toList
  | .branch c ch d =>
    if tooDeep limit (depth + c.length) then []
    else if ch.isEmpty then []
    else (d.map fun k => (pre ++ c, k)).toList ++ walkList limit (pre ++ c) (depth + c.length) ch

/-- What `Dfs` emits for a worklist. -/
def walkList (limit : Option Nat) (pre : FPath) (depth : Nat) : List Node → List (FPath × Nat)
  | [] => []
  | n :: ns => walkNode limit pre depth n ++ walkList limit pre depth ns

end

mutual

/-- The loop of `Dfs::at`, `path_tree.rs:1123-1190`, at a node: where the visitor starts, and what it emits. `component_prefix` of the visitor
(`path_tree.rs:1074-1080`) is what is taken off the component of the node. -/
def atNode (limit : Option Nat) (pre : FPath) : Node → FPath → List (FPath × Nat)
  | .leaf c ty d, path =>
    match commonPrefix [] c path with
    | some .exact => walkNode limit pre 0 (.leaf c ty d)
    | some .ancestor => walkNode limit (pre ++ path) 0 ((Node.leaf c ty d).under path)
    | _ => []
  | .branch c ch d, path =>
    match commonPrefix [] c path with
    | some .exact => walkNode limit pre 0 (.branch c ch d)
    | some .ancestor => walkNode limit (pre ++ path) 0 ((Node.branch c ch d).under path)
    | some .child => atFirst limit (pre ++ c) ch ((strip c path).getD [])
    | _ => []

/-- The first node with a common prefix, `path_tree.rs:1115-1121` and, among children, `path_tree.rs:1168-1174`. -/
def atFirst (limit : Option Nat) (pre : FPath) : List Node → FPath → List (FPath × Nat)
  | [], _ => []
  | n :: ns, path => if hasCommonPrefix false n.comp path then atNode limit pre n path else atFirst limit pre ns path

end

/-- `children`, `path_tree.rs:204-210`, with `Dfs::at`, `path_tree.rs:1108-1192`: all that the iterator gives. The path is not canonicalised. The empty path
panics in `has_common_prefix`, `path_tree.rs:525-530`, if there is a root. -/
def children {V : Type} (t : PathTree V) (path : FPath) (limit : Option Nat) : P (List (FPath × V)) :=
  if path = [] ∧ t.roots ≠ [] then .error .assertFailed
  else .ok ((atFirst limit [] t.roots path).filterMap fun (p, k) => t.data[k]?.map fun v => (p, v))

end Litcheck.PathTree
