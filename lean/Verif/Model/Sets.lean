import Verif.Model.Pattern
import Verif.Model.Filecheck

/-!
# Sets of patterns: `CHECK-NOT` and `CHECK-DAG`

`all.rs`, `any.rs`, `regex_set.rs` are files of `filecheck/src/pattern/matcher/matchers/`, `static.rs` and `dynamic.rs` of
`filecheck/src/pattern/visitors/`, `pattern_set.rs` of `filecheck/src/pattern/search/`. The spans of the check file are replaced
by the number of the line.
-/

namespace Litcheck.Sets
open Litcheck.Smart Litcheck.Pattern
open Litcheck.Regex (engine Re Hit find utf8)
open Litcheck.Lex (Match CPat CLine)

/-! ## Compilation -/

/-- `Prefix`, `filecheck/src/ast/pattern.rs:150-162`. -/
inductive Prefix where
  | empty | lit (s : Str) | sub (s : Str) | rx (r : Pattern.Rx) | dyn (m : Match)
  deriving DecidableEq, Repr

/-- `CheckPattern::pop_prefix`, `filecheck/src/ast/pattern.rs:321-394`, of a pattern after `compact`, which has left no match
without an expression and no capture of a string (ll. 353-386). -/
def popPrefix : Compact → Prefix × List CPart
  | .empty => (.empty, [])
  | .lit s => (.lit s, [])
  | .rx r => (.rx r, [])
  | .parts [] => (.empty, [])
  | .parts (.lit s :: ps) => (.sub s, ps)
  | .parts (.rx r :: ps) => (.rx r, ps)
  | .parts (.dyn m :: ps) => (.dyn m, ps)

/-- `CheckPattern::compact` on a part which it made before, `filecheck/src/ast/pattern.rs:447-568`. -/
def recompactStep (st : CSt) : CPart → CSt
  | .lit s => compactStep st (.literal s)
  | .rx r => st.addRx r.src r.caps
  | .dyn m => compactStep st (.match_ m)

/-- `CheckPattern::compact`, `filecheck/src/ast/pattern.rs:414-608`, on what `pop_prefix` has left. -/
def recompact (ps : List CPart) : Compact :=
  let st := ps.foldl recompactStep ⟨[], [], [], true⟩
  if st.out.isEmpty then if st.litMode then .lit st.text else .rx ⟨st.text, st.caps⟩
  else .parts st.flush

/-- `Pattern::compile`, `filecheck/src/pattern/mod.rs:83-114`, after `compact`. -/
def compileCompact (o : Opts) : Compact → P (Option (Compiled engine))
  | .empty => .ok (some .always)
  | .lit s => compileLit engine o s
  | .rx r => compileRx engine o r
  | .parts ps => do
    match ← lowerParts engine o ps with
    | none => .ok none
    | some ops => .ok (some (.smart ops))

/-- The pattern of a suffix, `all.rs:66-70`, `all.rs:98-102`. -/
def compileSuffix (o : Opts) : List CPart → P (Option (Compiled engine))
  | [] => .ok (some .always)
  | ps => compileCompact o (recompact ps)

/-- `Match::cmp` is `Equal`, `filecheck/src/ast/pattern.rs:825-942`, for the matches which `compact` leaves. -/
def matchSame : Match → Match → Bool
  | .substitution a p, .substitution b q => a == b && p == q
  | .numeric f c e, .numeric f' c' e' =>
    formatBody (f.getD (.unsigned 0)) == formatBody (f'.getD (.unsigned 0)) && c == c' && e == e'
  | _, _ => false

/-- `Capture::cmp` is `Equal`, `filecheck/src/ast/pattern.rs:47-68`, when the sources are the same. -/
def capSame (a b : Cap) : Bool :=
  a.name == b.name &&
    match a.ty, b.ty with
    | .string, .string => true
    | .number f, .number g => f.getD (.unsigned 0) == g.getD (.unsigned 0)
    | _, _ => false

/-- `Prefix::as_str`, `filecheck/src/ast/pattern.rs:174-181`. -/
def Prefix.text : Prefix → Option Str
  | .empty => some []
  | .lit s | .sub s => some s
  | .rx r => some r.src
  | .dyn _ => none

/-- The captures of a prefix which is a regular expression. -/
def Prefix.caps : Prefix → List Cap
  | .rx r => r.caps
  | _ => []

/-- `Prefix::cmp` is `Equal`, `filecheck/src/ast/pattern.rs:194-235`: only texts are compared, so that a literal may be the same
as a regular expression. -/
def Prefix.same (a b : Prefix) : Bool :=
  match a, b with
  | .dyn m, .dyn n => matchSame m n
  | _, _ =>
    match a.text, b.text with
    | some s, some t => s == t && a.caps.length == b.caps.length && (a.caps.zip b.caps).all fun x => capSame x.1 x.2
    | _, _ => false

/-- A suffix with the number of its line. -/
abbrev Sfx := Compiled engine × Nat

/-- Append to one of the lists; `none` if there is no such list. -/
def pushAt {α : Type} : List (List α) → Nat → α → Option (List (List α))
  | [], _, _ => none
  | xs :: xss, 0, x => some ((xs ++ [x]) :: xss)
  | xs :: xss, i + 1, x => (pushAt xss i x).map (xs :: ·)

/-- The loop of `MatchAll::compile`, `all.rs:58-103`. `id` is the number of the line in the group; `unique` has the distinct
prefixes with the `id` and the number of their first line; `sfx` has one list for each of them. The suffix of a line whose prefix
was met before goes to the list whose index is the `id` of the first line with that prefix. `none` is a diagnostic. -/
def collect (o : Opts) : List (CPat × Nat) → Nat → List (Prefix × Nat × Nat) → List (List Sfx) →
    P (Option (List (Prefix × Nat × Nat) × List (List Sfx)))
  | [], _, unique, sfx => .ok (some (unique, sfx))
  | (p, ln) :: ls, id, unique, sfx =>
    let (pre, rest) := popPrefix (compact p)
    match unique.find? fun x => x.1.same pre with
    | some x => do
      match ← compileSuffix o rest with
      | none => .ok none
      | some c =>
        match pushAt sfx x.2.1 (c, ln) with
        | none => .error .indexOutOfBounds
        | some sfx => collect o ls (id + 1) unique sfx
    | none =>
      if pre = .empty then .ok none
      else do
        match ← compileSuffix o rest with
        | none => .ok none
        | some c => collect o ls (id + 1) (unique ++ [(pre, id, ln)]) (sfx ++ [[(c, ln)]])

/-- A regular expression of a set: `RegexSetMatcher`, `regex_set.rs:161-177`. -/
structure SetRx where
  re : Re
  caps : List Cap
  line : Nat
  deriving Repr

/-- A prefix of `MatchAll::AnyPrefix`, with the variables it captures. -/
structure SetPat where
  pat : Compiled engine
  caps : List Cap
  line : Nat

/-- `MatchAll`, `all.rs:9-39`, and `MatchAny`, `any.rs:6-35`. -/
inductive MatchSet where
  | literal (lits : List (Buf × Nat))
  | regex (rxs : List SetRx)
  | subPrefix (lits : List (Buf × Nat)) (sfx : List (List Sfx))
  | rxPrefix (rxs : List SetRx) (sfx : List (List Sfx))
  | anyPrefix (pats : List SetPat) (sfx : List (List Sfx))

/-- `PatternPrefix::into_regex_pattern`, `filecheck/src/pattern/prefix.rs:71-79`, and the parts of `RegexSetMatcher::new`,
`regex_set.rs:183-206`, for one pattern. -/
def buildSetRx (x : Prefix × Nat × Nat) : Option SetRx :=
  match x.1 with
  | .lit s | .sub s => (Regex.parse (Regex.escape s)).map fun re => ⟨re, [], x.2.2⟩
  | .rx r => (Regex.parse r.src).map fun re => ⟨re, r.caps, x.2.2⟩
  | _ => none

/-- The variables which a match block captures. -/
def dynCaps : Match → List Cap
  | .substitution name (some _) => [⟨name, .string⟩]
  | .numeric f (some name) _ => [⟨name, .number f⟩]
  | _ => []

/-- `Pattern::from_prefix`, `filecheck/src/pattern/mod.rs:46-81`. -/
def compilePrefix (o : Opts) (x : Prefix × Nat × Nat) : P (Option SetPat) :=
  match x.1 with
  | .empty => .ok none
  | .lit s | .sub s => do .ok ((← compileLit engine o s).map fun c => ⟨c, [], x.2.2⟩)
  | .rx r => do .ok ((← compileRx engine o r).map fun c => ⟨c, r.caps, x.2.2⟩)
  | .dyn m => do .ok ((← lowerMatch engine o m).map fun ops => ⟨.smart ops, dynCaps m, x.2.2⟩)

/-- The loop `all.rs:188-191`. -/
def compilePrefixes (o : Opts) : List (Prefix × Nat × Nat) → P (Option (List SetPat))
  | [] => .ok (some [])
  | x :: xs => do
    match ← compilePrefix o x with
    | none => .ok none
    | some p =>
      match ← compilePrefixes o xs with
      | none => .ok none
      | some ps => .ok (some (p :: ps))

/-- Is it the prefix of a literal? -/
def Prefix.isLit : Prefix → Bool
  | .lit _ => true
  | _ => false

/-- Is it a literal prefix of a longer pattern? -/
def Prefix.isSub : Prefix → Bool
  | .sub _ => true
  | _ => false

/-- Is it a match block? -/
def Prefix.isDyn : Prefix → Bool
  | .dyn _ => true
  | _ => false

/-- `Pattern::Empty`. -/
def isAlways : Compiled engine → Bool
  | .always => true
  | _ => false

/-- The literals of a set, `SubstringSetMatcher::new`, `filecheck/src/pattern/matcher/matchers/substring_set.rs:31-44`. -/
def setLits (o : Opts) (unique : List (Prefix × Nat × Nat)) : List (Buf × Nat) :=
  unique.map fun x => (litBytes o (x.1.text.getD []), x.2.2)

/-- The choice of the matcher, `all.rs:105-197`. -/
def classify (o : Opts) (unique : List (Prefix × Nat × Nat)) (sfx : List (List Sfx)) : P (Option MatchSet) :=
  let single := sfx.all fun ss => ss.all fun s => isAlways s.1
  if unique.all fun x => x.1.isLit then
    if single then .ok (some (.literal (setLits o unique))) else .error .assertFailed
  else if unique.all fun x => x.1.isLit || x.1.isSub then
    if single then .error .assertFailed else .ok (some (.subPrefix (setLits o unique) sfx))
  else if unique.all fun x => !x.1.isDyn then
    match unique.mapM buildSetRx with
    | none => .ok none
    | some rxs => .ok (some (if single then .regex rxs else .rxPrefix rxs sfx))
  else do
    match ← compilePrefixes o unique with
    | none => .ok none
    | some ps => .ok (some (.anyPrefix ps sfx))

/-- `MatchAll::compile`, `all.rs:42-197`. -/
def compileSet (o : Opts) (ls : List (CPat × Nat)) : P (Option MatchSet) := do
  match ← collect o ls 0 [] [] with
  | none => .ok none
  | some (unique, sfx) => classify o unique sfx

/-! ## Searchers -/

/-- `Input::is_char_boundary` of `regex_automata`: not in the middle of a character. -/
def isBoundary (b : Buf) (i : Nat) : Bool :=
  match b[i]? with
  | some x => !Regex.isCont x
  | none => true

/-- Does the expression match from `s` to `e`? An empty match in the middle of a character is ignored, `regex_set.rs:438-440`. -/
def hits (ic : Bool) (re : Re) (b : Buf) (hi s e : Nat) : Bool :=
  (re.ends ic b hi s).any (fun x => x.1 == e) && (s != e || isBoundary b e)

/-- The matches which `RegexSetSearcher::try_match_next`, `regex_set.rs:388-447`, goes through: by end, then by pattern, the
longest last. (The automaton may report patterns which end at the same place in another order.) -/
def setHits (ic : Bool) (rxs : List SetRx) (b : Buf) (lo hi : Nat) : List (Nat × Nat × Nat) :=
  (List.range' lo (hi + 1 - lo)).flatMap fun e =>
    rxs.zipIdx.flatMap fun x =>
      ((List.range' lo (e + 1 - lo)).reverse.filter fun s => hits ic x.1.re b hi s e).map fun s => (x.2, s, e)

/-- A match of a prefix waiting in the `PatternSetSearcher`, `pattern_set.rs:23`, with what it captured. -/
abbrev Pending := Info × List (Cap × Str)

/-- The state of a searcher: of `SubstringSetSearcher` the start of the rest of the input, of `RegexSetSearcher` the rest of the
matches, of `PatternSetSearcher` (`pattern_set.rs:5-24`) the matches found, the end of the last match, and the patterns
excluded. (`next_starts` has no effect: the input `pattern_set.rs:116-117` made from it is not used.) -/
inductive Searcher where
  | lits (pos : Nat)
  | rxs (rest : List (Nat × Nat × Nat))
  | pats (found : List Pending) (lastEnd : Option Nat) (excluded : List Nat)

/-- The result of `PatternSearcher::try_match_next`: a match with the end of the last match, a failure, a diagnostic, a panic. -/
inductive Next where
  | found (st : Searcher) (lastEnd : Nat) (i : Info) (vals : List (Cap × Str))
  | failed (st : Searcher) (m : MatchResult)
  | err
  | panic (p : Panic)

/-- The captures of a match of a set of regular expressions, `regex_set.rs:449-535`, with `extract_captures_from_match`,
`regex_set.rs:546-598`: the match is searched again between its bounds. (`MatchKind::All` with captures, which the code uses when
no one-pass automaton can be built, is modelled as the leftmost-first match.) -/
def setMatch (ic : Bool) (rxs : List SetRx) (b : Buf) (rest : List (Nat × Nat × Nat)) (x : Nat × Nat × Nat) : Next :=
  match rxs[x.1]? with
  | none => .panic .indexOutOfBounds
  | some rx =>
    if rxs.all fun r => r.caps.isEmpty then .found (.rxs rest) x.2.2 ⟨x.2.1, x.2.2, x.1, rx.line⟩ []
    else
      match find ic rx.re b x.2.1 x.2.2 true with
      | none => .err
      | some h =>
        match captured b h rx.caps with
        | none => .panic .unwrapNone
        | some cs =>
          if (bindAll Bindings.empty cs).isSome then .found (.rxs rest) x.2.2 ⟨h.start, h.stop, x.1, rx.line⟩ cs
          else .failed (.rxs rest) (.failed ⟨.foundConstraintFailed, true⟩)

/-- One prefix of a `PatternSetSearcher`, `pattern_set.rs:119-163`: the bindings it makes are dropped with the guard. -/
inductive Tried where
  | found (i : Info) (vals : List (Cap × Str))
  | absent
  | err
  | panic (p : Panic)
  | hang

/-- Search for one prefix, with its captures. -/
def tryPrefix (cf : Conf engine) (p : SetPat) (pid : Nat) (b : Buf) (r : Rng) (env : Vars) : Tried :=
  match p.pat with
  | .always => .found ⟨r.start, r.start, pid, p.line⟩ []
  | .substring lit =>
    match findSet cf.ignoreCase [lit] b r.stop (r.stop - r.start) r.start with
    | some (_, s, e) => .found ⟨s, e, pid, p.line⟩ []
    | none => .absent
  | .whitespace =>
    match ((whitespacePat p.line).run b r env).1 with
    | some ⟨.found, some i⟩ => .found { i with pid := pid } []
    | _ => .absent
  | .regex prog caps =>
    match engine.search prog b r.start r.stop false with
    | none => .absent
    | some h =>
      match captured b h caps with
      | none => .panic .unwrapNone
      | some cs => if (bindAll Bindings.empty cs).isSome then .found ⟨h.start, h.stop, pid, p.line⟩ cs else .absent
  | .smart [] => .panic .unwrapNone
  | .smart (op :: ops) =>
    match search cf b r.stop false op ops env (b.length + 2) r.start with
    | none => .hang
    | some (.panic p) => .panic p
    | some .err => .err
    | some .absent => .absent
    | some (.found st _) =>
      if st.pat && convertible st.caps then .found ⟨st.mstart, st.mend, pid, p.line⟩ (p.caps.zip (st.caps.map Prod.snd))
      else .absent

/-- The order of `pattern_set.rs:169-215`: by length, start and pattern. -/
def before (a b : Info) : Bool :=
  let la := a.stop - a.start
  let lb := b.stop - b.start
  decide (la < lb) || (la == lb && (decide (a.start < b.start) || (a.start == b.start && decide (a.pid ≤ b.pid))))

/-- Insert in order. -/
def insertFound (x : Pending) : List Pending → List Pending
  | [] => [x]
  | y :: ys => if before x.1 y.1 then x :: y :: ys else y :: insertFound x ys

/-- The result of a round of searches. -/
inductive Batch where
  | ok (found : List Pending) (excluded : List Nat)
  | err
  | panic (p : Panic)
  | hang

/-- One search for every prefix which is not excluded, always in the whole input: `pattern_set.rs:106-164`. -/
def batch (cfs : Nat → Conf engine) (b : Buf) (r : Rng) (env : Vars) : List (SetPat × Nat) → List Pending → List Nat → Batch
  | [], found, ex => .ok found ex
  | (p, pid) :: ps, found, ex =>
    if ex.contains pid then batch cfs b r env ps found ex
    else
      match tryPrefix (cfs p.line) p pid b r env with
      | .found i vals => batch cfs b r env ps (insertFound (i, vals) found) ex
      | .absent => batch cfs b r env ps found (ex ++ [pid])
      | .err => .err
      | .panic p => .panic p
      | .hang => .hang

/-- `try_match_next`; `none` when a search does not end. `SubstringSetSearcher`,
`filecheck/src/pattern/search/substring_set.rs:131-154`; `RegexSetSearcher`, `regex_set.rs:388-543`; `PatternSetSearcher`,
`pattern_set.rs:94-232`. -/
def nextMatch (ic : Bool) (cfs : Nat → Conf engine) (set : MatchSet) (b : Buf) (r : Rng) (env : Vars) : Searcher → Option Next
  | .lits pos =>
    let lits := match set with | .literal ls | .subPrefix ls _ => ls | _ => []
    match findSet false (lits.map Prod.fst) b r.stop (r.stop - pos) pos with
    | some (pid, s, e) => some (.found (.lits e) e ⟨s, e, pid, ((lits[pid]?).map Prod.snd).getD 0⟩ [])
    | none => some (.failed (.lits pos) matchNone)
  | .rxs [] => some (.failed (.rxs []) matchNone)
  | .rxs (x :: rest) =>
    let rxs := match set with | .regex rs | .rxPrefix rs _ => rs | _ => []
    some (setMatch ic rxs b rest x)
  | .pats (x :: found) le ex =>
    let e := max (le.getD x.1.stop) x.1.stop
    some (.found (.pats found (some e) ex) e x.1 x.2)
  | .pats [] le ex =>
    let ps := match set with | .anyPrefix ps _ => ps | _ => []
    match batch cfs b r env ps.zipIdx [] ex with
    | .err => some .err
    | .panic p => some (.panic p)
    | .hang => none
    | .ok [] ex => some (.failed (.pats [] le ex) matchNone)
    | .ok (x :: found) ex =>
      let e := max (le.getD x.1.stop) x.1.stop
      some (.found (.pats found (some e) ex) e x.1 x.2)

/-- The searcher at the start, `any.rs:213-223`, `filecheck/src/rules/dag.rs:38-71`. -/
def startSearch (ic : Bool) (set : MatchSet) (b : Buf) (r : Rng) : Searcher :=
  match set with
  | .literal _ | .subPrefix _ _ => .lits r.start
  | .regex rxs | .rxPrefix rxs _ => .rxs (setHits ic rxs b r.start r.stop)
  | .anyPrefix _ _ => .pats [] none []

/-! ## A pattern on a range, anchored or not -/

/-- `SmartMatcher::try_match_mut`, `filecheck/src/pattern/matcher/matchers/smart.rs:84-104`, on an input which may be anchored. -/
def tryMatchAt (cf : Conf engine) (ops : List (MOp engine)) (anchored : Bool) (pspan fuel : Nat) (b : Buf) (r : Rng) (env : Vars) :
    Outcome :=
  match ops with
  | [] => .panic .unwrapNone
  | op :: rest =>
    match search cf b r.stop anchored op rest env fuel r.start with
    | none => .hang
    | some (.panic p) => .panic p
    | some .err => .err env
    | some .absent => .result matchNone env
    | some (.found st env') =>
      if st.pat then
        if convertible st.caps then .result (.ok ⟨st.mstart, st.mend, 0, pspan⟩) env'
        else .result (.failed ⟨.foundConstraintFailed, true⟩) env'
      else .result matchNone env'

/-- A pattern anchored at the start of a range, as suffixes are. The automaton of a `SubstringMatcher` is not built for anchored
searches (`filecheck/src/pattern/matcher/matchers/substring.rs:28-30`), so that `AhoCorasick::find` panics (ibid. l. 92). -/
def runAnchored (cf : Conf engine) (pspan : Nat) (b : Buf) (r : Rng) (env : Vars) : Compiled engine → Outcome
  | .always => .result (.ok ⟨r.start, r.start, 0, pspan⟩) env
  | .substring _ => .panic .unwrapNone
  | .regex prog caps =>
    match engine.search prog b r.start r.stop true with
    | none => .result matchNone env
    | some h =>
      match captured b h caps with
      | none => .panic .unwrapNone
      | some cs =>
        match bindAll env cs with
        | some env' => .result (.ok ⟨h.start, h.stop, 0, pspan⟩) env'
        | none => .result (.failed ⟨.foundConstraintFailed, true⟩) env
  | .smart ops => tryMatchAt cf ops true pspan 2 b r env
  | .whitespace =>
    match (whitespacePat pspan).run b r env with
    | (some m, env') => .result m env'
    | (none, env') => .err env'

/-! ## `CHECK-NOT` -/

/-- `try_match_suffix`, `any.rs:259-307`; `none` for the result: no suffix matches. The variables bound by a suffix are bound even
if it fails. -/
inductive SfxOut where
  | found (m : MatchResult) (env : Vars)
  | absent (env : Vars)
  | err (env : Vars)
  | panic (p : Panic)
  | hang

/-- `try_match_suffix`, `any.rs:259-307`. -/
def trySuffixes (cfs : Nat → Conf engine) (b : Buf) (r : Rng) (pstart : Nat) : List Sfx → Nat → Vars → SfxOut
  | [], _, env => .absent env
  | (c, ln) :: ss, pid, env =>
    match runAnchored (cfs ln) ln b r env c with
    | .panic p => .panic p
    | .hang => .hang
    | .err env => .err env
    | .result ⟨.found, some i⟩ env => .found (.ok ⟨pstart, i.stop, pid, i.pspan⟩) env
    | .result ⟨ty, some i⟩ env => .found ⟨ty, some { i with pid := pid }⟩ env
    | .result ⟨_, none⟩ env => trySuffixes cfs b r pstart ss (pid + 1) env

/-- `try_match_searcher`, `any.rs:227-257`, for at most so many prefixes. -/
def anyLoop (ic : Bool) (cfs : Nat → Conf engine) (set : MatchSet) (sfx : List (List Sfx)) (b : Buf) (r : Rng) :
    Nat → Searcher → Vars → Outcome
  | 0, _, _ => .hang
  | fuel + 1, st, env =>
    match nextMatch ic cfs set b r env st with
    | none => .hang
    | some (.panic p) => .panic p
    | some .err => .err env
    | some (.failed _ m) => .result m env
    | some (.found st le i _) =>
      match sfx[i.pid]? with
      | none => .panic .indexOutOfBounds
      | some ss =>
        match trySuffixes cfs b ⟨le, r.stop⟩ i.start ss i.pid env with
        | .found m env => .result m env
        | .absent env => anyLoop ic cfs set sfx b r fuel st env
        | .err env => .err env
        | .panic p => .panic p
        | .hang => .hang

/-- How many prefixes are tried before the search is said not to end. A `SubstringSetSearcher` and a `RegexSetSearcher` have at
most so many matches; a `PatternSetSearcher` always starts again. -/
def fuelOf (set : MatchSet) (b : Buf) (r : Rng) : Nat :=
  match set with
  | .literal _ | .subPrefix _ _ => r.stop - r.start + 2
  | .regex rxs | .rxPrefix rxs _ => rxs.length * (r.stop + 2) * (r.stop + 2) + 2
  | .anyPrefix ps sfx => (ps.length + 2) * (ps.length + (sfx.map List.length).sum + b.length + 4)

/-- `MatchAny::try_match_mut`, `any.rs:199-225`. For `MatchAny::Regex`, `RegexSetMatcher::try_match_mut`, `regex_set.rs:347-361`:
the captures of the first match are bound. -/
def anyOut (ic : Bool) (cfs : Nat → Conf engine) (set : MatchSet) (b : Buf) (r : Rng) (env : Vars) : Outcome :=
  match set with
  | .literal lits =>
    match (litAny ic lits).run b r env with
    | (some m, env') => .result m env'
    | (none, env') => .err env'
  | .regex _ =>
    match nextMatch ic cfs set b r env (startSearch ic set b r) with
    | none => .hang
    | some (.panic p) => .panic p
    | some .err => .err env
    | some (.failed _ m) => .result m env
    | some (.found _ _ i vals) => .result (.ok i) ((bindAll env vals).getD env)
  | .subPrefix _ sfx | .rxPrefix _ sfx | .anyPrefix _ sfx =>
    anyLoop ic cfs set sfx b r (fuelOf set b r) (startSearch ic set b r) env

/-- `MatchAny::pattern_len`, `any.rs:52-60`. -/
def MatchSet.len : MatchSet → Nat
  | .literal lits => lits.length
  | .regex rxs => rxs.length
  | .subPrefix _ sfx | .rxPrefix _ sfx | .anyPrefix _ sfx => (sfx.map List.length).sum

/-- A set of `CHECK-NOT` patterns as the rules see it. A panic, and a search which does not end, are reported as a diagnostic
(`anyOut` tells them apart). -/
def anyPat (ic : Bool) (cfs : Nat → Conf engine) (set : MatchSet) : Pat Vars where
  run b r env :=
    match anyOut ic cfs set b r env with
    | .result m env' => (some m, env')
    | .err env' => (none, env')
    | .panic _ => (none, env)
    | .hang => (none, env)
  len := set.len

/-! ## `CHECK-DAG` -/

/-- The outcome of `CheckDag::apply`, `filecheck/src/rules/dag.rs:30-80`, before the guard is saved: the matches, where the cursor
is set, and the variables. -/
inductive DagOut where
  | result (ms : Matches) (pos : Option Nat) (env : Vars)
  | err
  | panic (p : Panic)
  | hang

/-- `StaticPatternSetVisitor::try_match_all`, `static.rs:49-167`, for a set of regular expressions. -/
def visitRx (ic : Bool) (rxs : List SetRx) (b : Buf) : List (Nat × Nat × Nat) → Matches → Vars → DagOut
  | [], ms, env => .result (if rxs.length = ms.length then ms else pushMissing ms (List.range rxs.length) ms) none env
  | x :: rest, ms, env =>
    match setMatch ic rxs b rest x with
    | .panic p => .panic p
    | .err => .err
    | .failed _ m => .result (ms.push m) none env
    | .found _ le i vals =>
      if ms.any (fun m => m.patternId == some i.pid) then visitRx ic rxs b rest ms env
      else if ms.any (fun m => match m.info with
          | some j => j.range.contains i.start || j.range.contains i.stop
          | none => false) then visitRx ic rxs b rest ms env
      else
        let env := (bindAll env vals).getD env
        let ms := ms.push (.ok i)
        if rxs.length = ms.length then .result ms (some le) env
        else visitRx ic rxs b rest ms env

/-- The result for one suffix of a prefix: what it matched and the variables, `MatchState`, `dynamic.rs:363-366`. -/
abbrev MState := Option (Info × Vars)

/-- The results for the suffixes of a prefix. -/
inductive StatesOut where
  | ok (states : List MState) (errors : List (Option Failure))
  | err
  | panic (p : Panic)
  | hang

/-- The loop over the suffixes of a prefix, `dynamic.rs:129-157`, with `match_pattern`, `dynamic.rs:231-255`. `penv` has the
variables of the guard `pattern_context`, `base` those of its parent; `errors` are the errors of the suffixes from `idx` on. -/
def runStates (cfs : Nat → Conf engine) (varScope : Bool) (b : Buf) (r : Rng) (base : Vars) (done : List Nat) :
    List (Sfx × Option Failure) → Nat → Vars → StatesOut
  | [], _, _ => .ok [] []
  | ((c, ln), old) :: ss, idx, penv =>
    let more (st : MState) (e : Option Failure) (penv : Vars) : StatesOut :=
      match runStates cfs varScope b r base done ss (idx + 1) penv with
      | .ok states errors => .ok (st :: states) (e :: errors)
      | x => x
    if done.contains idx then more none old penv
    else
      match runAnchored (cfs ln) ln b r penv c with
      | .panic p => .panic p
      | .hang => .hang
      | .err _ => .err
      | .result ⟨.failed f, _⟩ env => more none (some f) (if varScope then env.clear else env)
      | .result ⟨_, some i⟩ env => more (some (i, env)) none base
      | .result ⟨_, none⟩ _ => .panic .unreachableCode

/-- `select_longest_match`, `dynamic.rs:314-348`: the last of the longest. -/
def longest : List MState → Nat → Option (Nat × Info × Vars)
  | [], _ => none
  | s :: ss, idx =>
    match s, longest ss (idx + 1) with
    | none, x => x
    | some (i, env), none => some (idx, i, env)
    | some (i, env), some x => if x.2.1.stop - x.2.1.start < i.stop - i.start then some (idx, i, env) else some x

/-- For every prefix, its suffixes with their last errors, and the suffixes matched with where they matched:
`patterns_matched` and `errors`, `dynamic.rs:37-39`. -/
abbrev Progress := List (List (Sfx × Option Failure) × List (Rng × Nat))

/-- Is every suffix of a prefix matched? `is_prefix_visited`, `dynamic.rs:357-359`. -/
def visited (x : List (Sfx × Option Failure) × List (Rng × Nat)) : Bool := x.2.length == x.1.length

/-- What is missing at the end, `dynamic.rs:201-227`. -/
def missingOf (x : List (Sfx × Option Failure) × List (Rng × Nat)) : List MatchResult :=
  x.1.zipIdx.flatMap fun y =>
    match y.1.2 with
    | some f => [.failed f]
    | none => if (x.2.map Prod.snd).contains y.2 then [] else [matchNone]

/-- `DynamicPatternSetVisitor::try_match_all`, `dynamic.rs:94-229`, with `next_prefix`, `dynamic.rs:257-312`, for at most so many
prefixes. The cursor is not moved. -/
def dynLoop (ic : Bool) (cfs : Nat → Conf engine) (varScope : Bool) (set : MatchSet) (b : Buf) (r : Rng) :
    Nat → Searcher → Progress → Matches → Vars → DagOut
  | 0, _, _, _, _ => .hang
  | fuel + 1, st, pr, ms, env =>
    match nextMatch ic cfs set b r env st with
    | none => .hang
    | some (.panic p) => .panic p
    | some .err => .err
    | some (.failed _ _) => .result ((pr.flatMap missingOf).foldl Matches.push ms) none env
    | some (.found st le i vals) =>
      match pr[i.pid]? with
      | none => .panic .indexOutOfBounds
      | some x =>
        if visited x then dynLoop ic cfs varScope set b r fuel st pr ms env
        else if x.2.any fun y => y.1.contains i.start || y.1.contains i.stop then dynLoop ic cfs varScope set b r fuel st pr ms env
        else
          let base := (bindAll env vals).getD env
          match runStates cfs varScope b ⟨le, r.stop⟩ base (x.2.map Prod.snd) x.1 0 base with
          | .panic p => .panic p
          | .hang => .hang
          | .err => .err
          | .ok states errors =>
            let x1 := (x.1.map Prod.fst).zip errors
            match longest states 0 with
            | none => dynLoop ic cfs varScope set b r fuel st (pr.set i.pid (x1, x.2)) ms env
            | some (idx, j, env') =>
              let pr := pr.set i.pid (x1, x.2 ++ [(j.range, idx)])
              let env := env.merge (base.merge env')
              let ms := ms.push (.ok j)
              if pr.all visited then .result ms none env else dynLoop ic cfs varScope set b r fuel st pr ms env

/-- `CheckDag::apply`, `filecheck/src/rules/dag.rs:30-80`, before the guard is saved. -/
def dagOut (ic : Bool) (cfs : Nat → Conf engine) (varScope : Bool) (set : MatchSet) (b : Buf) (r : Rng) (env : Vars) : DagOut :=
  match set with
  | .literal lits =>
    match (litDag lits).run b r env with
    | some (ms, pos, env') => .result ms pos env'
    | none => .hang
  | .regex rxs => visitRx ic rxs b (setHits ic rxs b r.start r.stop) [] env
  | .subPrefix _ sfx | .rxPrefix _ sfx | .anyPrefix _ sfx =>
    dynLoop ic cfs varScope set b r (fuelOf set b r) (startSearch ic set b r)
      (sfx.map fun ss => (ss.map fun s => (s, none), [])) [] env

/-- A set of `CHECK-DAG` patterns as the rules see it. A panic, and a search which does not end, are reported as a diagnostic
(`dagOut` tells them apart). -/
def setDag (ic : Bool) (cfs : Nat → Conf engine) (varScope : Bool) (set : MatchSet) : Dag Vars where
  run b r env :=
    match dagOut ic cfs varScope set b r env with
    | .result ms pos env' => some (ms, pos, env')
    | _ => none

/-! ## A check file -/

/-- The options of a run: those of the matchers, `--enable-var-scope`, `--allow-empty`, whether arithmetic is checked, and the
line of the check file on which each check line is. -/
structure Run where
  opts : Opts
  check : CheckOpts
  checked : Bool
  lineOf : Nat → Nat

/-- The context of a search for the pattern of a line. -/
def Run.conf (run : Run) (ln : Nat) : Conf engine := ⟨run.opts.ignoreCase, run.lineOf ln, run.checked⟩

/-- A pattern which is never run: `CHECK-NOT` and `CHECK-DAG` lines are compiled with their group, `CHECK-EMPTY` lines have none. -/
def nonePat (ln : Nat) : Pat Vars where
  run _ _ env := (some matchNone, env)
  pspan := ln

/-- The pattern of a line, `compile_rule`, `filecheck/src/check/program.rs:524-544`; of a label,
`filecheck/src/check/program.rs:509`. -/
def compileLine (run : Run) (l : CLine) (ln : Nat) : P (Option (Line Vars)) :=
  match l.kind with
  | .not | .dag | .empty => .ok (some ⟨l.kind, nonePat ln, []⟩)
  | .label => do
    .ok ((← compileStatic engine run.opts l.pattern).map fun c => ⟨l.kind, c.pat (run.conf ln) ln, []⟩)
  | _ => do
    .ok ((← if l.literal then compileLiteral engine run.opts l.pattern else Pattern.compile engine run.opts l.pattern).map fun c =>
      ⟨l.kind, c.pat (run.conf ln) ln, []⟩)

/-- The lines, numbered. (The code compiles them as it goes through the groups; the first diagnostic ends it either way, but if
there are several it may be another one.) -/
def compileAll (run : Run) : List CLine → Nat → P (Option (List (Line Vars)))
  | [], _ => .ok (some [])
  | l :: ls, ln => do
    match ← compileLine run l ln with
    | none => .ok none
    | some x =>
      match ← compileAll run ls (ln + 1) with
      | none => .ok none
      | some xs => .ok (some (x :: xs))

/-- The regular expression of `--implicit-check-not`, `filecheck/src/check/program.rs:221-231`. -/
def implicitSrc : List Str → Str
  | [] => []
  | [p] => ['('] ++ p ++ [')']
  | p :: ps => ['('] ++ p ++ [')', '|'] ++ implicitSrc ps

/-- The patterns of the lines, and that of the implicit line after them. -/
def patsOf (ls : List CLine) (imp : List Str) : List CPat :=
  ls.map CLine.pattern ++ if imp.isEmpty then [] else [.regex (implicitSrc imp)]

/-- `MatchAll::compile` (`all.rs:42-197`) on lines given by their numbers. -/
def fileSet (run : Run) (pats : List CPat) : SetCompiler Vars where
  nots ls := do
    .ok ((← compileSet run.opts (ls.map fun l => ((pats[l.pat.pspan]?).getD .empty, l.pat.pspan))).map
      (anyPat run.opts.ignoreCase run.conf))
  dags ls := do
    .ok ((← compileSet run.opts (ls.map fun l => ((pats[l.pat.pspan]?).getD .empty, l.pat.pspan))).map
      (setDag run.opts.ignoreCase run.conf run.check.enableVarScope))

/-- The implicit line, `filecheck/src/check/program.rs:213-240`. -/
def implicitLine (ls : List CLine) (imp : List Str) : Option (Line Vars) :=
  if imp.isEmpty then none else some ⟨.not, nonePat ls.length, []⟩

/-- `Test::verify`, `filecheck/src/test/mod.rs:96-113`, on the lines of a parsed check file. -/
def verifyLines (run : Run) (imp : List Str) (ls : List CLine) (env : Vars) (b : Buf) : P Verdict := do
  match ← compileAll run ls 0 with
  | none => .ok (.invalid .pattern)
  | some lines => verify (fileSet run (patsOf ls imp)) run.check Bindings.clear (implicitLine ls imp) lines env b

/-- `Test::verify`, `filecheck/src/test/mod.rs:96-113`, on the text of a check file. -/
def verifyText (run : Run) (imp : List Str) (cfg : Lex.Cfg) (allowUnused : Bool) (text : Str) (env : Vars) (b : Buf) :
    Except Lex.PErr (P Verdict) :=
  (Lex.parse cfg allowUnused text).map fun ls => verifyLines run imp ls env b

end Litcheck.Sets
