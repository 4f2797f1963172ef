import Verif.Model.BoolExpr

/-!
# Substitutions (`lit/src/config/substitutions.rs`, `lit/src/formats/sh/script/directives.rs`)

Text is a list of characters. A set of substitutions is the list of its entries in insertion order, as `IndexMap` keeps
them. Regular expressions are represented by their source text: which texts compile and what `Regex::replace_all`
yields for a replacement template is a parameter (`SubRx`). Spans are left out.
-/

namespace Litcheck

/-- What is not modelled of the `regex` crate for substitutions: which patterns compile, and `replace_all`, which is
`none` when the pattern does not match (`Cow::Borrowed`). Arguments: the pattern, the template, the text. -/
structure SubRx where
  compiles : Str → Bool
  replaceAll : Str → Str → Str → Option Str

/-- `str::contains`, for text: `needle` occurs in `s`. -/
def occurs (needle : Str) : Str → Bool
  | [] => needle.isEmpty
  | c :: cs => needle.isPrefixOf (c :: cs) || occurs needle cs

/-- The work of `litReplace`, leaving out the next `n` characters first. -/
def litReplaceGo (k r : Str) : Nat → Str → Str
  | _, [] => []
  | n + 1, _ :: cs => litReplaceGo k r n cs
  | 0, c :: cs => if k.isPrefixOf (c :: cs) then r ++ litReplaceGo k r (k.length - 1) cs else c :: litReplaceGo k r 0 cs

/-- `replace_all` of the regular expression that matches just the text `k` (not empty), by `NoExpand(r)`: the
occurrences are replaced from left to right. -/
def litReplace (k r s : Str) : Str := litReplaceGo k r 0 s

/-- `litReplace` as `Regex::replace_all` returns it: `none` when there was nothing to replace. -/
def litReplace? (k r s : Str) : Option Str := if occurs k s then some (litReplace k r s) else none

/-- `SubstitutionSet`, `substitutions.rs:177-179`. -/
abbrev SubSet := List (Str × Str)

namespace SubSet

/-- `get`, `substitutions.rs:217-223`. -/
def get (s : SubSet) (k : Str) : Option Str := (s.find? (·.1 == k)).map (·.2)

/-- `contains`, `substitutions.rs:209-215`. -/
def contains (s : SubSet) (k : Str) : Bool := s.any (·.1 == k)

/-- `insert`, `substitutions.rs:247-254`: the value of a known key is replaced where it is, a new key is put at the
end (`IndexMap::insert`). -/
def insert : SubSet → Str → Str → SubSet
  | [], k, v => [(k, v)]
  | (k', v') :: s, k, v => if k' == k then (k', v) :: s else (k', v') :: insert s k v

/-- `extend`, `substitutions.rs:235-245`. -/
def extend (s : SubSet) (kvs : List (Str × Str)) : SubSet := kvs.foldl (fun s kv => s.insert kv.1 kv.2) s

end SubSet

/-- `Matches`, `substitutions.rs:257-264`, where `keys` are what iterating a `Fuzzy` yields, `substitutions.rs:276-285`. -/
inductive SubMatches where
  | empty
  | exact (k : Str)
  | fuzzy (keys : List Str)
  deriving DecidableEq, Repr

/-- `ScopedSubstitutionSet`, `substitutions.rs:22-25`. -/
structure Scoped where
  parent : SubSet
  set : SubSet
  deriving DecidableEq, Repr

/-- `InvalidSubstitutionError`, `directives.rs:155-188`, without spans. -/
inductive SubErr where
  | invalidPattern (p : Str)
  | invalidKey (k : Str)
  | notDefined (k : Str)
  | alreadyExists (k : Str)
  | conflicts (k : Str) (pattern : Str)
  deriving DecidableEq, Repr

namespace Scoped

/-- `new`, `substitutions.rs:27-32`. -/
def new (parent : SubSet) : Scoped := ⟨parent, []⟩

/-- `get`, `substitutions.rs:40-46`. -/
def get (s : Scoped) (k : Str) : Option Str := (s.set.get k).or (s.parent.get k)

/-- `contains`, `substitutions.rs:48-54`. -/
def contains (s : Scoped) (k : Str) : Bool := s.set.contains k || s.parent.contains k

/-- `iter`, `substitutions.rs:57-63`, by `SubstitutionsIter::next`, `substitutions.rs:158-172`: the entries of the
parent, each with the value the inner set gives to its key if it gives one, then the entries of the inner set. -/
def iter (s : Scoped) : List (Str × Str) :=
  s.parent.map (fun kv => (kv.1, (s.set.get kv.1).getD kv.2)) ++ s.set

/-- `find_matching`, `substitutions.rs:66-83`. -/
def findMatching (s : Scoped) (pattern : Str) : SubMatches :=
  if !s.contains pattern then .empty
  else if s.iter.any (fun kv => kv.1 != pattern && occurs pattern kv.1) then
    .fuzzy ((s.iter.filter fun kv => occurs pattern kv.1).map (·.1))
  else .exact pattern

/-- `extend`, `substitutions.rs:85-95`. -/
def extend (s : Scoped) (kvs : List (Str × Str)) : Scoped := { s with set := s.set.extend kvs }

/-- `insert`, `substitutions.rs:97-104`. -/
def insert (s : Scoped) (k v : Str) : Scoped := { s with set := s.set.insert k v }

/-- The text that stands for `%%` while substituting, `substitutions.rs:119`. -/
def MARKER : Str := "#_MARKER_#".toList

/-- The text of an escaped percent sign, `substitutions.rs:110`. -/
def PP : Str := ['%', '%']

/-- The local variables of `apply`, `substitutions.rs:113-115`. -/
structure ApplySt where
  buf : Str
  needsUnescape : Bool
  needsEscaping : Bool
  deriving DecidableEq, Repr

/-- The escaping at the head of the loop body, `substitutions.rs:117-126`. -/
def escapeStep (st : ApplySt) : ApplySt :=
  if st.needsEscaping then
    (litReplace? PP MARKER st.buf).elim { st with needsEscaping := false }
      (fun b => { st with buf := b, needsUnescape := true })
  else st

/-- The replacement in the loop body, `substitutions.rs:133-136`. -/
def replaceStep (rx : SubRx) (p r : Str) (st : ApplySt) : ApplySt :=
  (rx.replaceAll p r st.buf).elim st (fun b => { st with buf := b, needsEscaping := true })

/-- The loop of `apply`, `substitutions.rs:116-137`. -/
def applyLoop (rx : SubRx) (st : ApplySt) : List (Str × Str) → Except SubErr ApplySt
  | [] => .ok st
  | (p, r) :: kvs =>
    if rx.compiles p then applyLoop rx (replaceStep rx p r (escapeStep st)) kvs
    else .error (.invalidPattern p)

/-- `apply`, `substitutions.rs:106-147`. -/
def apply (rx : SubRx) (s : Scoped) (input : Str) : Except SubErr Str := do
  let st ← applyLoop rx ⟨input, false, true⟩ s.iter
  pure (if st.needsUnescape then litReplace MARKER ['%'] st.buf else st.buf)

end Scoped

/-- `Substitution`, `directives.rs:191-197`, without its span. -/
structure Subst where
  line : Nat
  key : Str
  value : Str
  replace : Bool
  deriving DecidableEq, Repr

/-- `Run`, `directives.rs:135-139`, without its span. -/
structure RunCmd where
  line : Nat
  command : Str
  deriving DecidableEq, Repr

/-- `ScriptCommand`, `directives.rs:90-93`. -/
inductive Cmd where
  | run (r : RunCmd)
  | subst (s : Subst)
  deriving DecidableEq, Repr

/-- `Substitution::apply`, `directives.rs:240-274`. -/
def Subst.apply (d : Subst) (s : Scoped) : Except SubErr Scoped :=
  match s.findMatching d.key with
  | .empty => if d.replace then .error (.notDefined d.key) else .ok (s.insert d.key d.value)
  | .exact _ => if d.replace then .ok (s.insert d.key d.value) else .error (.alreadyExists d.key)
  | .fuzzy keys => .error (.conflicts d.key (", ".toList.intercalate keys))

/-- `TestScript::apply_substitutions`, `lit/src/formats/sh/script/mod.rs:130-150`: the commands after the call, and the
substitutions. A command that substitution leaves alone keeps its text, which is what `apply` returns then. -/
def applySubstitutions (rx : SubRx) (s : Scoped) : List Cmd → Except SubErr (List Cmd × Scoped)
  | [] => .ok ([], s)
  | .run r :: cmds => do
    let t ← s.apply rx r.command
    let (cmds, s) ← applySubstitutions rx s cmds
    pure (.run { r with command := t } :: cmds, s)
  | .subst d :: cmds => do
    let s ← d.apply s
    let (cmds, s) ← applySubstitutions rx s cmds
    pure (.subst d :: cmds, s)

end Litcheck
