import Verif.Model.BoolExpr
import Mathlib.Data.List.Sort
import Mathlib.Data.List.Lex

/-!
# Path prefix tree (`core/src/fs/path_tree.rs`)

A path is its sequence of components (`Path::components`, on Unix; the code compares, strips and joins paths by
components only). A file name is text: names that are not UTF-8 are not modelled.
-/

namespace Litcheck

/-- `std::path::Component` on Unix. -/
inductive Comp where
  | root | cur | parent | normal (s : Str)
  deriving DecidableEq, Repr

abbrev FPath := List Comp

namespace PathTree

/-- `PathType`, `path_tree.rs:214-223`. -/
inductive Ty where
  | unknown | file | dir
  deriving DecidableEq, Repr

/-- One step of the fallback of `canonicalize_and_type`, `path_tree.rs:371-397`; the stack is kept reversed. -/
def canonStep (acc : FPath) : Comp → FPath
  | .cur => acc
  | .parent =>
    match acc with
    | [] => [.parent]
    | .parent :: _ => .parent :: acc
    | _ :: acc' => acc'
  | c => c :: acc

/-- The fallback of `canonicalize_and_type`, `path_tree.rs:366-411`. When nothing changed the path itself is returned,
which has the same components; otherwise the components are pushed one by one. -/
def canonFallback (p : FPath) : FPath := (p.foldl canonStep []).reverse

/-- `canonicalize_and_type`, `path_tree.rs:345-411`. `fs` is the file system: what `Path::canonicalize` and
`metadata` answer for a path that exists. -/
def canon (fs : FPath → Option (FPath × Ty)) (p : FPath) : FPath × Ty :=
  match fs p with
  | some r => r
  | none => (canonFallback p, .unknown)

/-- `Prefix`, `path_tree.rs:423-433`. -/
inductive Pfx where
  | exact | ancestor | child | part (p : FPath)
  deriving DecidableEq, Repr

/-- `Node`, `path_tree.rs:436-449`. -/
inductive Node where
  | leaf (component : FPath) (ty : Ty) (data : Option Nat)
  | branch (component : FPath) (children : List Node) (data : Option Nat)

/-- `Node::component`, `path_tree.rs:464-469`. -/
def Node.comp : Node → FPath
  | .leaf c _ _ => c
  | .branch c _ _ => c

/-- `Node::data`, `path_tree.rs:472-477`. -/
def Node.data : Node → Option Nat
  | .leaf _ _ d => d
  | .branch _ _ d => d

/-- The loop of `Node::common_prefix`, `path_tree.rs:491-522`. -/
def commonPrefix (acc : FPath) : FPath → FPath → Option Pfx
  | [], [] => some .exact
  | [], _ :: _ => some .child
  | a :: as, b :: bs =>
    if a = b then commonPrefix (acc ++ [a]) as bs
    else if acc = [] then none else some (.part acc)
  | _ :: _, [] => some .ancestor

/-- The loop of `Node::has_common_prefix`, `path_tree.rs:532-546`. -/
def hasCommonPrefix (minimum : Bool) : FPath → FPath → Bool
  | [], _ => true
  | a :: as, b :: bs => if a = b then hasCommonPrefix true as bs else minimum
  | _ :: _, [] => true

/-- `Path::strip_prefix`: what follows `c` in `p`. -/
def strip : FPath → FPath → Option FPath
  | [], p => some p
  | a :: as, b :: bs => if a = b then strip as bs else none
  | _ :: _, [] => none

/-- The order of `Component` (derived: by kind, names by their bytes) as an order on numbers. -/
def compKey : Comp → List Nat
  | .root => [0]
  | .cur => [1]
  | .parent => [2]
  | .normal s => 3 :: s.map Char.toNat

/-- The order of nodes, `path_tree.rs:450-460`. -/
def nodeLe (a b : Node) : Prop := a.comp.map compKey ≤ b.comp.map compKey

instance : DecidableRel nodeLe := fun a b => inferInstanceAs (Decidable (a.comp.map compKey ≤ b.comp.map compKey))

/-- `Vec::sort`, a stable sort. -/
def sortNodes (l : List Node) : List Node := l.insertionSort nodeLe

/-- `Node::take`, `path_tree.rs:712-739`, as used by `split_at`: the node below `prefix`. -/
def Node.under (n : Node) (pre : FPath) : Node :=
  match n with
  | .leaf c ty d => .leaf ((strip pre c).getD []) ty d
  | .branch c ch d => .branch ((strip pre c).getD []) ch d

/-- `Node::split_at`, `path_tree.rs:741-748`. -/
def Node.splitAt (n : Node) (pre : FPath) : Node := .branch pre [n.under pre] none

/-- `TryInsertError`, `path_tree.rs:37-43`. -/
inductive InsertErr where
  | pathTypeConflict | unreachable
  deriving DecidableEq, Repr

/-- The node `push_child` and `try_insert_new` make for a new entry, `path_tree.rs:797-808`, `846-857`, `871-882`. -/
def newNode (c : FPath) (ty : Ty) (k : Nat) : Node :=
  match ty with
  | .dir => .branch c [] (some k)
  | ty => .leaf c ty (some k)

/-- `set_type` then `set_data`, `path_tree.rs:750-789`. -/
def Node.setEntry (n : Node) (ty : Ty) (k : Nat) : Except InsertErr Node :=
  match n with
  | .leaf c _ _ =>
    match ty with
    | .dir => .ok (.branch c [] (some k))
    | ty => .ok (.leaf c ty (some k))
  | .branch c ch _ =>
    match ty with
    | .dir => .ok (.branch c ch (some k))
    | _ => .error .pathTypeConflict

/-- The `Partial` arm of `insert_into_prefix`, `path_tree.rs:940-944`: `split_at`, which leaves a branch, then
`push_child` on it, `path_tree.rs:791-832`. -/
def Node.insertPartial (n : Node) (pre path : FPath) (ty : Ty) (k : Nat) : Node :=
  .branch pre (sortNodes [n.under pre, newNode ((strip pre path).getD []) ty k]) none

mutual

/-- `insert_into_prefix`, `path_tree.rs:903-949`, with `try_insert_new`, `path_tree.rs:834-895`. On an error nothing
has been changed. Without a common prefix the code would panic; it never is called so (`hasCommonPrefix_iff`). -/
def insertNode : Node → FPath → Ty → Nat → Except InsertErr Node
  | .leaf c t d, path, ty, k =>
    match commonPrefix [] c path with
    | some .exact => (Node.leaf c t d).setEntry ty k
    | some .child =>
      if t = .file then .error .unreachable
      else .ok (.branch c [newNode ((strip c path).getD []) ty k] d)
    | some .ancestor => .ok (.branch path [(Node.leaf c t d).under path] (some k))
    | some (.part pre) => .ok ((Node.leaf c t d).insertPartial pre path ty k)
    | none => .ok (.leaf c t d)
  | .branch c ch d, path, ty, k =>
    match commonPrefix [] c path with
    | some .exact => (Node.branch c ch d).setEntry ty k
    | some .child =>
      match insertFirst ch ((strip c path).getD []) ty k with
      | some (.ok ch') => .ok (.branch c ch' d)
      | some (.error e) => .error e
      | none => .ok (.branch c (sortNodes (ch ++ [newNode ((strip c path).getD []) ty k])) d)
    | some .ancestor => .ok (.branch path [(Node.branch c ch d).under path] (some k))
    | some (.part pre) => .ok ((Node.branch c ch d).insertPartial pre path ty k)
    | none => .ok (.branch c ch d)

/-- Insertion into the first node with a common prefix, `path_tree.rs:842-845` and (for the roots) `256-270`. -/
def insertFirst : List Node → FPath → Ty → Nat → Option (Except InsertErr (List Node))
  | [], _, _, _ => none
  | n :: ns, path, ty, k =>
    if hasCommonPrefix false n.comp path then
      match insertNode n path ty k with
      | .ok n' => some (.ok (n' :: ns))
      | .error e => some (.error e)
    else
      match insertFirst ns path ty k with
      | some (.ok ns') => some (.ok (n :: ns'))
      | some (.error e) => some (.error e)
      | none => none

end

/-- Whether `insert_into_prefix` returns depth zero for the first root with a common prefix (`path_tree.rs:262-265`):
the root itself is changed. -/
def depthZero (roots : List Node) (path : FPath) : Bool :=
  match roots.find? (fun r => hasCommonPrefix false r.comp path) with
  | some r => commonPrefix [] r.comp path != some .child
  | none => false

/-- The new root of `insert_new`, `path_tree.rs:272-300`; `PathBuf::pop` leaves `/` as it is. -/
def newRoot (path : FPath) (ty : Ty) (k : Nat) : Node :=
  match ty with
  | .dir => .branch path [] (some k)
  | ty => .branch (if path = [.root] then path else path.dropLast) [.leaf (path.getLast?.toList) ty (some k)] none

/-- `PrefixTree::insert`, `path_tree.rs:239-254`, for a canonicalised path. The empty path panics: in
`has_common_prefix` if there is a root, in `insert_new` if not. -/
def insertRoots (roots : List Node) (path : FPath) (ty : Ty) (k : Nat) : P (Except InsertErr (List Node)) :=
  if path = [] then .error .assertFailed
  else match insertFirst roots path ty k with
    | some (.ok roots') => .ok (.ok (if depthZero roots path then sortNodes roots' else roots'))
    | some (.error e) => .ok (.error e)
    | none => .ok (.ok (sortNodes (roots ++ [newRoot path ty k])))

mutual

/-- `Node::get`, `path_tree.rs:597-630`. -/
def getNode : Node → FPath → Option Node
  | .leaf c ty d, path => if path = c then some (.leaf c ty d) else none
  | .branch c ch d, path =>
    match strip c path with
    | none => none
    | some rest => if rest = [] then some (.branch c ch d) else getFirst ch rest

/-- The search of `Node::get` among the children, `path_tree.rs:608-618`. -/
def getFirst : List Node → FPath → Option Node
  | [], _ => none
  | n :: ns, path => if hasCommonPrefix false n.comp path then getNode n path else getFirst ns path

end

mutual

/-- `Node::contains`, `path_tree.rs:554-595`. -/
def containsNode : Node → FPath → Bool
  | .leaf c _ d, path => path = c && d.isSome
  | .branch c ch d, path =>
    match strip c path with
    | none => false
    | some rest => if rest = [] then d.isSome else containsFirst ch rest

/-- The search of `Node::contains` among the children, `path_tree.rs:566-577`. -/
def containsFirst : List Node → FPath → Bool
  | [], _ => false
  | n :: ns, path => if hasCommonPrefix false n.comp path then containsNode n path else containsFirst ns path

end

/-- `PrefixTree::get`, `path_tree.rs:312-321`, for a canonicalised path. -/
def getRoots (roots : List Node) (path : FPath) : Option Nat :=
  roots.findSome? fun r => if hasCommonPrefix false r.comp path then (getNode r path).bind Node.data else none

/-- `PrefixTree::contains`, `path_tree.rs:307-310`. -/
def containsRoots (roots : List Node) (path : FPath) : Bool := roots.any fun r => containsNode r path

mutual

/-- The loop of `Node::nearest_ancestor`, `path_tree.rs:653-710`. Of the stack of candidates only the top is ever
used, so only the top is kept. -/
def nearestNode : Node → FPath → FPath → Option (FPath × Nat) → Option (FPath × Nat)
  | .leaf _ _ _, _, _, best => best
  | .branch c ch d, path, above, best =>
    match strip c path with
    | none => best
    | some rest =>
      if rest = [] then best
      else nearestFirst ch rest (above ++ c) ((d.map fun k => (above ++ c, k)).or best)

/-- The descent of `nearest_ancestor` among the children, `path_tree.rs:682-697`: without a suitable child the node
itself, if it has data, or else the last candidate. -/
def nearestFirst : List Node → FPath → FPath → Option (FPath × Nat) → Option (FPath × Nat)
  | [], _, _, best => best
  | n :: ns, path, above, best =>
    if hasCommonPrefix false n.comp path then nearestNode n path above best else nearestFirst ns path above best

end

/-- `PrefixTree::nearest_ancestor`, `path_tree.rs:323-328`, with the test at the start of `Node::nearest_ancestor`,
`path_tree.rs:649-651`. -/
def nearestRoots (roots : List Node) (path : FPath) : Option (FPath × Nat) :=
  roots.findSome? fun r => if hasCommonPrefix false r.comp path then nearestNode r path [] none else none

mutual

/-- What `Dfs` emits for one node, `path_tree.rs:972-1050` and `1207-1230`, without a depth limit: entries in
pre-order. A branch without children is passed over, whether it has data or not (`path_tree.rs:1026`). The visitor's
`only_leaves` is never read, so this is `files` as well as `iter`. -/
def dfsNode (pre : FPath) : Node → List (FPath × Nat)
  | .leaf c _ d => (d.map fun k => (pre ++ c, k)).toList
  | .branch c ch d => if ch.isEmpty then [] else (d.map fun k => (pre ++ c, k)).toList ++ dfsList (pre ++ c) ch

/-- What `Dfs` emits for a worklist. -/
def dfsList (pre : FPath) : List Node → List (FPath × Nat)
  | [] => []
  | n :: ns => dfsNode pre n ++ dfsList pre ns

end

end PathTree

open PathTree in
/-- `PathPrefixTree`, `path_tree.rs:58-62`. -/
structure PathTree (V : Type) where
  roots : List Node
  data : List V

namespace PathTree

variable {V : Type}

/-- `PathPrefixTree::default`, `path_tree.rs:63-70`. -/
def empty : PathTree V := ⟨[], []⟩

/-- `try_insert`, `path_tree.rs:142-146`: the value is stored first, so it stays stored when the insertion fails. -/
def tryInsert (fs : FPath → Option (FPath × Ty)) (t : PathTree V) (path : FPath) (v : V) :
    P (Except InsertErr Unit × PathTree V) :=
  match insertRoots t.roots (canon fs path).1 (canon fs path).2 t.data.length with
  | .ok (.ok roots) => .ok (.ok (), ⟨roots, t.data ++ [v]⟩)
  | .ok (.error e) => .ok (.error e, ⟨t.roots, t.data ++ [v]⟩)
  | .error e => .error e

/-- `get`, `path_tree.rs:160-163`; `data[key]` panics out of bounds. A query that canonicalises to the empty path
panics when there is a root. -/
def get (fs : FPath → Option (FPath × Ty)) (t : PathTree V) (path : FPath) : P (Option V) :=
  if (canon fs path).1 = [] ∧ t.roots ≠ [] then .error .assertFailed
  else match getRoots t.roots (canon fs path).1 with
    | none => .ok none
    | some k =>
      match t.data[k]? with
      | some v => .ok (some v)
      | none => .error .indexOutOfBounds

/-- `contains`, `path_tree.rs:155-157`. -/
def contains (fs : FPath → Option (FPath × Ty)) (t : PathTree V) (path : FPath) : Bool :=
  containsRoots t.roots (canon fs path).1

/-- `nearest_ancestor`, `path_tree.rs:172-179`. -/
def nearestAncestor (fs : FPath → Option (FPath × Ty)) (t : PathTree V) (path : FPath) : P (Option (FPath × V)) :=
  if (canon fs path).1 = [] ∧ t.roots ≠ [] then .error .assertFailed
  else match nearestRoots t.roots (canon fs path).1 with
    | none => .ok none
    | some (p, k) =>
      match t.data[k]? with
      | some v => .ok (some (p, v))
      | none => .error .indexOutOfBounds

/-- `iter`, `path_tree.rs:182-184`, and `files`, `path_tree.rs:190-192`. -/
def iter (t : PathTree V) : List (FPath × V) :=
  (dfsList [] t.roots).filterMap fun (p, k) => t.data[k]?.map fun v => (p, v)

end PathTree

end Litcheck
