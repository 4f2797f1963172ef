import Verif.Model.Base

/-!
# `filecheck/src/lib.rs` `Options::validate`, and the use of check prefixes in `filecheck/src/parse`
-/

namespace Litcheck

/-- `Options::validate`, `filecheck/src/lib.rs:311-340`: `error` carries the offending prefix. -/
def validateOptions (checkPrefixes commentPrefixes : List String) : Except String Unit :=
  if checkPrefixes.any (fun p => p != "CHECK") then
    match checkPrefixes.find? (fun p => commentPrefixes.contains p) with
    | some p => .error p
    | none => .ok ()
  else if commentPrefixes.any (fun p => !(p == "COM" || p == "RUN")) then
    match commentPrefixes.find? (fun p => checkPrefixes.contains p) with
    | some p => .error p
    | none => .ok ()
  else .ok ()

/-- The part of `Lexer` which tracks prefixes, `filecheck/src/parse/lexer/mod.rs:54-55`. -/
structure PrefixState where
  checkPrefixes : List String
  seen : List Bool

namespace PrefixState

/-- `Lexer::new`, `parse/lexer/mod.rs:113-114`. -/
def new (ps : List String) : PrefixState := ⟨ps, List.replicate ps.length false⟩

/-- `Lexer::tokenize`, `parse/lexer/mod.rs:220-228`: a directive with this prefix was recognised; the first prefix
equal to it is marked. -/
def mark (s : PrefixState) (p : String) : PrefixState :=
  match s.checkPrefixes.findIdx? (fun q => q == p) with
  | some i => { s with seen := s.seen.set i true }
  | none => s

/-- `Lexer::unused_prefixes`, `parse/lexer/mod.rs:129-135`. -/
def unused (s : PrefixState) : List String :=
  (s.checkPrefixes.zip s.seen).filterMap fun x => if x.2 then none else some x.1

end PrefixState

/-- `CheckFileParser::parse`, the end (`parse/parser.rs:155-158`), for a file in which directives with these prefixes
were recognised, in order, and which has no other error. -/
def checkPrefixUse (prefixes used : List String) (allowUnused : Bool) : Except (List String) Unit :=
  let un := (used.foldl PrefixState.mark (PrefixState.new prefixes)).unused
  if !un.isEmpty && !allowUnused then .error un else .ok ()

end Litcheck
