import Verif.Spec.Agree
import Verif.Proofs.SmartFrame
import Verif.Proofs.SimulateFile

/-!
# Environments which agree on what is asked for: runs which are the same
-/

namespace Litcheck.AgreeSpec
open Spec Simulate PatternSpec
open Litcheck.Regex (Re engine)
open Litcheck.Smart Litcheck.Pattern Litcheck.Sets
open Litcheck.Lex (Part Match CPat CLine VarName Expr)

variable {S : VarName → Prop} {e e' f f' : Vars}

theorem Agree.refl (e : Vars) : Agree S e e := ⟨fun _ _ => ⟨rfl, rfl⟩, fun _ _ => ⟨rfl, rfl⟩⟩

theorem Agree.get (h : Agree S e e') {x : VarName} (hx : S x) : e'.get (keyOf x) = e.get (keyOf x) := by
  cases x with
  | user s => obtain ⟨h1, h2⟩ := h.user s hx; simp only [keyOf, Bindings.get, h1, h2]
  | global s => obtain ⟨h1, h2⟩ := h.global s hx; simp only [keyOf, Bindings.get, h1, h2]
  | pseudo s => rfl

theorem Agree.insert (h : Agree S e e') (k : VName) (v : Val) : Agree S (e.insert k v) (e'.insert k v) := by
  cases k with
  | global s =>
    refine ⟨h.user, fun t ht => ⟨?_, (h.global t ht).2⟩⟩
    simp only [Bindings.insert, Map.insert, (h.global t ht).1]
  | user s =>
    refine ⟨fun t ht => ⟨?_, (h.user t ht).2⟩, h.global⟩
    simp only [Bindings.insert, Map.insert, (h.user t ht).1]
  | pseudo s =>
    refine ⟨fun t ht => ⟨?_, (h.user t ht).2⟩, h.global⟩
    simp only [Bindings.insert, Map.insert, (h.user t ht).1]

theorem Agree.merge (h : Agree S e e') (h' : Agree S f f') : Agree S (e.merge f) (e'.merge f') := by
  refine ⟨fun t ht => ⟨?_, (h.user t ht).2⟩, fun t ht => ⟨?_, (h.global t ht).2⟩⟩
  · simp only [Bindings.merge, Map.union, (h.user t ht).1, (h'.user t ht).1]
  · simp only [Bindings.merge, Map.union, (h.global t ht).1, (h'.global t ht).1]

theorem Agree.clear (h : Agree S e e') : Agree S e.clear e'.clear :=
  ⟨fun t ht => ⟨rfl, (h.user t ht).2⟩, h.global⟩

theorem eval_agree (h : Agree S e e') (checked : Bool) (line : Nat) (ty : Option Ty) : ∀ x : Expr, (∀ v ∈ exprVars x, S v) →
    evalExpr checked line e' ty x = evalExpr checked line e ty x
  | .num n, _ => rfl
  | .var v, hv => by
    have := h.get (hv v (by simp [exprVars]))
    cases v with
    | pseudo s => rfl
    | user s => unfold evalExpr; rw [this]
    | global s => unfold evalExpr; rw [this]
  | .bin op l r, hv => by
    unfold evalExpr
    rw [eval_agree h checked line ty l fun v hx => hv v (by simp [exprVars, hx]), eval_agree h checked line ty r fun v hx => hv v (by simp [exprVars, hx])]

section
variable {cf : Conf engine} {b : Buf} {hi : Nat}

theorem matchPart_agree (h : Agree S e e') (st : Smart.St) {op : MOp engine} (ho : ∀ x ∈ opReads op, S x) :
    matchPart cf b hi e' st op = matchPart cf b hi e st op := by
  cases op with
  | subst x ty => unfold matchPart; dsimp only; rw [eval_agree h _ _ _ x ho]
  | _ => rfl

theorem constrain_agree (h : Agree S e e') (st : Smart.St) {x : Expr} (ho : ∀ v ∈ exprVars x, S v) : constrain cf e' st x = constrain cf e st x := by
  unfold constrain
  rw [eval_agree h _ _ _ x ho]

/-- The same, with variables which agree. -/
def StepRel (S : VarName → Prop) : Step (Smart.St × Vars) → Step (Smart.St × Vars) → Prop
  | .yes x, .yes y => y.1 = x.1 ∧ Agree S x.2 y.2
  | .no x, .no y => x = y
  | .err, .err => True
  | .panic x, .panic y => x = y
  | _, _ => False

theorem bindVar_agree (h : Agree S e e') (st : Smart.St) (n : VarName) (ty : Option Ty) : StepRel S (bindVar e st n ty) (bindVar e' st n ty) := by
  unfold bindVar
  cases st.stack with
  | nil => exact rfl
  | cons top rest =>
    dsimp only
    rcases ty with _ | _ | g
    · exact ⟨rfl, h.insert _ _⟩
    · exact ⟨rfl, h.insert _ _⟩
    · dsimp only
      cases asNumeric top g with
      | none => exact trivial
      | some x => exact ⟨rfl, h.insert _ _⟩

theorem matchParts_agree : ∀ (ops : List (MOp engine)) {e e' : Vars}, Agree S e e' → (∀ op ∈ ops, ∀ x ∈ opReads op, S x) → ∀ st : Smart.St,
    StepRel S (matchParts cf b hi ops e st) (matchParts cf b hi ops e' st) ∧ stoppedAt cf b hi ops e' st = stoppedAt cf b hi ops e st
  | [], e, e', h, _, st => ⟨⟨rfl, h⟩, rfl⟩
  | op :: ops, e, e', h, ho, st => by
    have ho1 := ho op List.mem_cons_self
    have ih := fun (e e' : Vars) (h : Agree S e e') => matchParts_agree ops h fun op hop => ho op (List.mem_cons_of_mem _ hop)
    have go : ∀ {e1 : Vars} {x : Step (Smart.St × Nat × Nat)}, 
        StepRel S (x.bind fun x => matchParts cf b hi ops e { x.1 with mend := x.2.2, pos := min x.2.2 b.length })
          (x.bind fun x => matchParts cf b hi ops e' { x.1 with mend := x.2.2, pos := min x.2.2 b.length }) ∧
        (match x with | .yes x => stoppedAt cf b hi ops e' { x.1 with mend := x.2.2, pos := min x.2.2 b.length } | _ => st.mend) =
          (match x with | .yes x => stoppedAt cf b hi ops e { x.1 with mend := x.2.2, pos := min x.2.2 b.length } | _ => st.mend) := by
      intro _ x
      cases x with
      | yes x => exact ih e e' h _
      | no => exact ⟨rfl, rfl⟩
      | err => exact ⟨trivial, rfl⟩
      | panic => exact ⟨rfl, rfl⟩
    have part := matchPart_agree (cf := cf) (b := b) (hi := hi) h st ho1
    by_cases hp : hi ≤ st.pos
    · cases op <;> simp only [matchParts, stoppedAt, if_pos hp] <;> exact ⟨rfl, trivial⟩
    · cases op with
      | constraint x =>
        simp only [matchParts, stoppedAt, if_neg hp]
        rw [constrain_agree h st ho1]
        cases constrain cf e st x with
        | yes x => exact ih e e' h _
        | no => exact ⟨rfl, rfl⟩
        | err => exact ⟨trivial, rfl⟩
        | panic => exact ⟨rfl, rfl⟩
      | bind n ty =>
        simp only [matchParts, stoppedAt, if_neg hp]
        have hb := bindVar_agree h st n ty
        cases h1 : bindVar e st n ty <;> cases h2 : bindVar e' st n ty <;> rw [h1, h2] at hb <;> simp only [StepRel] at hb
        · obtain ⟨h3, h4⟩ := hb
          dsimp only [Step.bind]
          rw [h3]
          exact ih _ _ h4 _
        · exact ⟨hb, rfl⟩
        · exact ⟨trivial, rfl⟩
        · exact ⟨hb, rfl⟩
      | drop =>
        simp only [matchParts, stoppedAt, if_neg hp]
        cases st.stack with
        | nil => exact ⟨rfl, rfl⟩
        | cons _ rest => exact ih e e' h _
      | literal _ => simp only [matchParts, stoppedAt, if_neg hp]; rw [part]; exact go (e1 := e)
      | regex _ _ => simp only [matchParts, stoppedAt, if_neg hp]; rw [part]; exact go (e1 := e)
      | numeric _ _ => simp only [matchParts, stoppedAt, if_neg hp]; rw [part]; exact go (e1 := e)
      | subst _ _ => simp only [matchParts, stoppedAt, if_neg hp]; rw [part]; exact go (e1 := e)

/-- The same, with variables which agree. -/
def AttRel (S : VarName → Prop) : Attempt → Attempt → Prop
  | .found st e, .found st' e' => st' = st ∧ Agree S e e'
  | .absent, .absent => True
  | .retry p, .retry q => q = p
  | .err, .err => True
  | .panic x, .panic y => y = x
  | _, _ => False

/-- The same, with variables which agree. -/
def FoundRel (S : VarName → Prop) : Option Smart.Found → Option Smart.Found → Prop
  | some (.found st e), some (.found st' e') => st' = st ∧ Agree S e e'
  | some .absent, some .absent => True
  | some .err, some .err => True
  | some (.panic x), some (.panic y) => y = x
  | none, none => True
  | _, _ => False

/-- The same, with variables which agree. -/
def OutRel (S : VarName → Prop) : Outcome → Outcome → Prop
  | .result m e, .result m' e' => m' = m ∧ Agree S e e'
  | .err e, .err e' => Agree S e e'
  | .panic x, .panic y => y = x
  | .hang, .hang => True
  | _, _ => False

theorem attempt_agree (h : Agree S e e') (anchored : Bool) {op : MOp engine} {ops : List (MOp engine)} (h1 : ∀ x ∈ opReads op, S x)
    (h2 : ∀ op ∈ ops, ∀ x ∈ opReads op, S x) (p : Nat) : AttRel S (attempt cf b hi anchored op ops e p) (attempt cf b hi anchored op ops e' p) := by
  unfold attempt
  dsimp only
  rw [matchPart_agree h _ h1]
  cases matchPart cf b hi e (start b anchored p) op with
  | err => exact trivial
  | panic => exact rfl
  | no => exact trivial
  | yes x =>
    obtain ⟨st1, s, t⟩ := x
    dsimp only
    obtain ⟨h3, h4⟩ := matchParts_agree (cf := cf) (b := b) (hi := hi) ops h h2 { st1 with mstart := s, mend := t, pos := min t b.length, anchored := true }
    rw [h4]
    generalize matchParts cf b hi ops e { st1 with mstart := s, mend := t, pos := min t b.length, anchored := true } = u at h3
    generalize matchParts cf b hi ops e' { st1 with mstart := s, mend := t, pos := min t b.length, anchored := true } = v at h3
    cases u <;> cases v <;> simp only [StepRel] at h3
    · exact h3
    · dsimp only; split_ifs <;> first | exact trivial | exact rfl
    · exact trivial
    · exact h3.symm

theorem search_agree (h : Agree S e e') (anchored : Bool) {op : MOp engine} {ops : List (MOp engine)} (h1 : ∀ x ∈ opReads op, S x)
    (h2 : ∀ op ∈ ops, ∀ x ∈ opReads op, S x) : ∀ n p : Nat,
    FoundRel S (search cf b hi anchored op ops e n p) (search cf b hi anchored op ops e' n p)
  | 0, p => trivial
  | n + 1, p => by
    unfold search
    have ha := attempt_agree (cf := cf) (b := b) (hi := hi) h anchored h1 h2 p
    generalize attempt cf b hi anchored op ops e p = u at ha
    generalize attempt cf b hi anchored op ops e' p = v at ha
    cases u <;> cases v <;> simp only [AttRel] at ha <;> dsimp only
    · exact ⟨ha.1, h.merge ha.2⟩
    · exact trivial
    · rw [ha]; exact search_agree h anchored h1 h2 n _
    · exact trivial
    · exact ha

/-- What a matcher asks for is in `S`. -/
def CompReads (S : VarName → Prop) : Compiled engine → Prop
  | .smart ops => ∀ op ∈ ops, ∀ x ∈ opReads op, S x
  | _ => True

theorem tryMatchAt_agree (h : Agree S e e') (anchored : Bool) {ops : List (MOp engine)} (ho : ∀ op ∈ ops, ∀ x ∈ opReads op, S x) (ps n : Nat) (r : Rng) :
    OutRel S (tryMatchAt cf ops anchored ps n b r e) (tryMatchAt cf ops anchored ps n b r e') := by
  cases ops with
  | nil => exact rfl
  | cons op ops =>
    unfold tryMatchAt
    dsimp only
    have ha := search_agree (cf := cf) (b := b) (hi := r.stop) h anchored (ho op List.mem_cons_self) (fun o ho' => ho o (List.mem_cons_of_mem _ ho')) n r.start
    generalize search cf b r.stop anchored op ops e n r.start = u at ha
    generalize search cf b r.stop anchored op ops e' n r.start = v at ha
    rcases u with _ | u <;> rcases v with _ | v
    · exact trivial
    · cases v <;> exact ha.elim
    · cases u <;> exact ha.elim
    · cases u <;> cases v <;> simp only [FoundRel] at ha <;> dsimp only
      · obtain ⟨rfl, ha⟩ := ha
        split_ifs <;> exact ⟨rfl, ha⟩
      · exact ⟨rfl, h⟩
      · exact h
      · exact ha

theorem tryMatch_at (cf : Conf engine) (ops : List (MOp engine)) (ps n : Nat) (b : Buf) (r : Rng) (e : Vars) :
    tryMatch cf ops ps n b r e = tryMatchAt cf ops false ps n b r e := by
  cases ops <;> rfl

theorem bindAll_agree : ∀ (l : List (Cap × Str)) {e e' : Vars}, Agree S e e' →
    (bindAll e l = none ∧ bindAll e' l = none) ∨ ∃ f f', bindAll e l = some f ∧ bindAll e' l = some f' ∧ Agree S f f'
  | [], e, e', h => .inr ⟨e, e', rfl, rfl, h⟩
  | (c, t) :: l, e, e', h => by
    unfold bindAll
    cases c.ty with
    | string => exact bindAll_agree l (h.insert _ _)
    | number g =>
      dsimp only
      cases Num.parseWithFormat t (g.getD (.unsigned 0)) with
      | ok v => exact bindAll_agree l (h.insert _ _)
      | error _ => exact .inl ⟨rfl, rfl⟩

theorem bindAll_getD {l : List (Cap × Str)} (h : Agree S e e') : Agree S ((bindAll e l).getD e) ((bindAll e' l).getD e') := by
  rcases bindAll_agree l h with ⟨h1, h2⟩ | ⟨g, g', h1, h2, h3⟩
  · rw [h1, h2]; exact h
  · rw [h1, h2]; exact h3

theorem whitespace_agree (h : Agree S e e') (ps : Nat) (r : Rng) :
    ((whitespacePat ps).run b r e').1 = ((whitespacePat ps).run b r e).1 ∧ Agree S ((whitespacePat ps).run b r e).2 ((whitespacePat ps).run b r e').2 := by
  unfold whitespacePat
  dsimp only
  split
  · exact ⟨rfl, h⟩
  · split_ifs <;> exact ⟨rfl, h⟩

/-- The matcher of a line. -/
theorem comp_agree {c : Compiled engine} (hc : CompReads S c) (cf : Conf engine) (b : Buf) (n : Nat) : PatSim (Agree S) b b (c.pat cf n) (c.pat cf n) := by
  refine ⟨?_, rfl, rfl⟩
  intro r e e' h
  cases c with
  | always => exact ⟨rfl, h⟩
  | substring lit =>
    simp only [Compiled.pat, litPat]
    split <;> exact ⟨rfl, h⟩
  | regex prog caps =>
    simp only [Compiled.pat, regexPat]
    cases engine.search prog b r.start r.stop false with
    | none => exact ⟨rfl, h⟩
    | some x =>
      dsimp only
      cases captured b x caps with
      | none => exact ⟨rfl, h⟩
      | some cs =>
        dsimp only
        rcases bindAll_agree cs h with ⟨h1, h2⟩ | ⟨g, g', h1, h2, h3⟩
        · rw [h1, h2]; exact ⟨rfl, h⟩
        · rw [h1, h2]; exact ⟨rfl, h3⟩
  | smart ops =>
    simp only [Compiled.pat, smartPat, tryMatch_at]
    have ha := tryMatchAt_agree (cf := cf) (b := b) h false hc n (b.length + 2) r
    generalize tryMatchAt cf ops false n (b.length + 2) b r e = u at ha
    generalize tryMatchAt cf ops false n (b.length + 2) b r e' = v at ha
    cases u <;> cases v <;> simp only [OutRel] at ha <;> dsimp only
    · exact ⟨by rw [ha.1], ha.2⟩
    · exact ⟨rfl, ha⟩
    · exact ⟨rfl, h⟩
    · exact ⟨rfl, h⟩
  | whitespace => exact whitespace_agree h n r

/-! ## Sets -/

theorem runAnchored_agree (h : Agree S e e') {c : Compiled engine} (hc : CompReads S c) (ps : Nat) (r : Rng) :
    OutRel S (runAnchored cf ps b r e c) (runAnchored cf ps b r e' c) := by
  cases c with
  | always => exact ⟨rfl, h⟩
  | substring lit => exact rfl
  | regex prog caps =>
    unfold runAnchored
    dsimp only
    cases engine.search prog b r.start r.stop true with
    | none => exact ⟨rfl, h⟩
    | some x =>
      dsimp only
      cases captured b x caps with
      | none => exact rfl
      | some cs =>
        dsimp only
        rcases bindAll_agree cs h with ⟨h1, h2⟩ | ⟨g, g', h1, h2, h3⟩
        · rw [h1, h2]; exact ⟨rfl, h⟩
        · rw [h1, h2]; exact ⟨rfl, h3⟩
  | smart ops => exact tryMatchAt_agree h true hc ps 2 r
  | whitespace =>
    unfold runAnchored
    dsimp only
    obtain ⟨h1, h2⟩ := whitespace_agree (b := b) h ps r
    generalize (whitespacePat ps).run b r e = u at h1 h2
    generalize (whitespacePat ps).run b r e' = v at h1 h2
    obtain ⟨u1, u2⟩ := u
    obtain ⟨v1, v2⟩ := v
    dsimp only at h1 h2
    subst h1
    cases v1 with
    | none => exact h2
    | some m => exact ⟨rfl, h2⟩

/-- The prefix asks only for variables of `S`. -/
def PatReads (S : VarName → Prop) (p : SetPat) : Prop := CompReads S p.pat

theorem tryPrefix_agree (h : Agree S e e') {p : SetPat} (hp : PatReads S p) (pid : Nat) (r : Rng) :
    tryPrefix cf p pid b r e' = tryPrefix cf p pid b r e := by
  obtain ⟨c, caps, ln⟩ := p
  cases c with
  | always => rfl
  | substring lit => rfl
  | regex prog caps => rfl
  | whitespace =>
    unfold tryPrefix
    dsimp only
    rw [(whitespace_agree h ln r).1]
  | smart ops =>
    cases ops with
    | nil => rfl
    | cons op ops =>
      unfold tryPrefix
      dsimp only
      have ho : ∀ op' ∈ op :: ops, ∀ x ∈ opReads op', S x := hp
      have ha := search_agree (cf := cf) (b := b) (hi := r.stop) h false (ho op List.mem_cons_self) (fun o ho' => ho o (List.mem_cons_of_mem _ ho'))
        (b.length + 2) r.start
      generalize search cf b r.stop false op ops e (b.length + 2) r.start = u at ha
      generalize search cf b r.stop false op ops e' (b.length + 2) r.start = v at ha
      rcases u with _ | u <;> rcases v with _ | v
      · rfl
      · cases v <;> exact ha.elim
      · cases u <;> exact ha.elim
      · cases u <;> cases v <;> simp only [FoundRel] at ha <;> dsimp only
        · rw [ha.1]
        · rw [ha]

variable {cfs : Nat → Conf engine} {ic : Bool}

theorem batch_agree (h : Agree S e e') (r : Rng) : ∀ (ps : List (SetPat × Nat)) (found : List Sets.Pending) (ex : List Nat), (∀ x ∈ ps, PatReads S x.1) →
    batch cfs b r e' ps found ex = batch cfs b r e ps found ex
  | [], _, _, _ => rfl
  | (p, pid) :: ps, found, ex, hp => by
    have ih := fun found ex => batch_agree h r ps found ex fun x hx => hp x (List.mem_cons_of_mem _ hx)
    unfold batch
    rw [tryPrefix_agree h (hp (p, pid) List.mem_cons_self)]
    split_ifs
    · exact ih _ _
    · cases tryPrefix (cfs p.line) p pid b r e with
      | found i vals => exact ih _ _
      | absent => exact ih _ _
      | err => rfl
      | panic => rfl
      | hang => rfl

/-- The suffixes of a set. -/
def sfxOf' : MatchSet → List (List Sfx)
  | .subPrefix _ sfx | .rxPrefix _ sfx | .anyPrefix _ sfx => sfx
  | _ => []

/-- The set asks only for variables of `S`. -/
structure SetReads (S : VarName → Prop) (set : MatchSet) : Prop where
  pre : ∀ ps sfx, set = .anyPrefix ps sfx → ∀ p ∈ ps, PatReads S p
  sfx : ∀ ss ∈ sfxOf' set, ∀ s ∈ ss, CompReads S s.1

theorem nextMatch_agree (h : Agree S e e') {set : MatchSet} (hs : SetReads S set) (r : Rng) (st : Searcher) :
    nextMatch ic cfs set b r e' st = nextMatch ic cfs set b r e st := by
  cases st with
  | lits pos => rfl
  | rxs rest => cases rest <;> rfl
  | pats found le ex =>
    cases found with
    | cons x found => rfl
    | nil =>
      unfold nextMatch
      dsimp only
      rw [batch_agree h]
      intro x hx
      split at hx
      · rename_i ps sfx
        refine hs.pre ps sfx rfl _ ?_
        rw [(List.mem_zipIdx' hx).2]
        exact List.getElem_mem _
      · simp at hx

/-- The same, with variables which agree. -/
def SfxRel (S : VarName → Prop) : SfxOut → SfxOut → Prop
  | .found m e, .found m' e' => m' = m ∧ Agree S e e'
  | .absent e, .absent e' => Agree S e e'
  | .err e, .err e' => Agree S e e'
  | .panic p, .panic q => q = p
  | .hang, .hang => True
  | _, _ => False

theorem trySuffixes_agree (r : Rng) (ps : Nat) : ∀ (ss : List Sfx) (pid : Nat) {e e' : Vars}, Agree S e e' → (∀ s ∈ ss, CompReads S s.1) →
    SfxRel S (trySuffixes cfs b r ps ss pid e) (trySuffixes cfs b r ps ss pid e')
  | [], _, e, e', h, _ => h
  | (c, ln) :: ss, pid, e, e', h, hs => by
    unfold trySuffixes
    have ha := runAnchored_agree (cf := cfs ln) (b := b) h (hs (c, ln) List.mem_cons_self) ln r
    generalize runAnchored (cfs ln) ln b r e c = u at ha
    generalize runAnchored (cfs ln) ln b r e' c = v at ha
    cases u <;> cases v <;> simp only [OutRel] at ha
    · rename_i m f m' f'
      obtain ⟨rfl, ha⟩ := ha
      obtain ⟨ty, i⟩ := m'
      cases i with
      | none =>
        cases ty <;> exact trySuffixes_agree r ps ss (pid + 1) ha fun s hs' => hs s (List.mem_cons_of_mem _ hs')
      | some i => cases ty <;> exact ⟨rfl, ha⟩
    · exact ha
    · exact ha
    · exact trivial

theorem anyLoop_agree {set : MatchSet} (hs : SetReads S set) {sfx : List (List Sfx)} (hx : ∀ ss ∈ sfx, ∀ s ∈ ss, CompReads S s.1) (r : Rng) :
    ∀ (n : Nat) (st : Searcher) {e e' : Vars}, Agree S e e' → OutRel S (anyLoop ic cfs set sfx b r n st e) (anyLoop ic cfs set sfx b r n st e')
  | 0, _, _, _, _ => trivial
  | n + 1, st, e, e', h => by
    unfold anyLoop
    rw [nextMatch_agree h hs]
    cases nextMatch ic cfs set b r e st with
    | none => exact trivial
    | some x =>
      cases x with
      | panic p => exact rfl
      | err => exact h
      | failed st m => exact ⟨rfl, h⟩
      | found st le i vals =>
        dsimp only
        cases hg : sfx[i.pid]? with
        | none => exact rfl
        | some ss =>
          dsimp only
          have ha := trySuffixes_agree (cfs := cfs) (b := b) ⟨le, r.stop⟩ i.start ss i.pid h (hx ss (List.mem_of_getElem? hg))
          generalize trySuffixes cfs b ⟨le, r.stop⟩ i.start ss i.pid e = u at ha
          generalize trySuffixes cfs b ⟨le, r.stop⟩ i.start ss i.pid e' = v at ha
          cases u <;> cases v <;> simp only [SfxRel] at ha
          · exact ha
          · exact anyLoop_agree hs hx r n st ha
          · exact ha
          · exact ha
          · exact trivial

theorem anyOut_agree (h : Agree S e e') {set : MatchSet} (hs : SetReads S set) (r : Rng) : OutRel S (anyOut ic cfs set b r e) (anyOut ic cfs set b r e') := by
  cases set with
  | literal lits =>
    unfold anyOut litAny
    dsimp only
    cases findSet ic (List.map Prod.fst lits) b r.stop (r.stop - r.start) r.start <;> exact ⟨rfl, h⟩
  | regex rxs =>
    unfold anyOut
    dsimp only
    rw [nextMatch_agree h hs]
    cases nextMatch ic cfs (.regex rxs) b r e (startSearch ic (.regex rxs) b r) with
    | none => exact trivial
    | some x =>
      cases x with
      | panic p => exact rfl
      | err => exact h
      | failed st m => exact ⟨rfl, h⟩
      | found st le i vals => exact ⟨rfl, bindAll_getD h⟩
  | subPrefix lits sfx => exact anyLoop_agree hs hs.sfx r _ _ h
  | rxPrefix rxs sfx => exact anyLoop_agree hs hs.sfx r _ _ h
  | anyPrefix ps sfx => exact anyLoop_agree hs hs.sfx r _ _ h

theorem anyPat_agree {set : MatchSet} (hs : SetReads S set) (b : Buf) : PatSim (Agree S) b b (anyPat ic cfs set) (anyPat ic cfs set) := by
  refine ⟨?_, rfl, rfl⟩
  intro r e e' h
  unfold anyPat
  dsimp only
  have ha := anyOut_agree (ic := ic) (cfs := cfs) (b := b) h hs r
  generalize anyOut ic cfs set b r e = u at ha
  generalize anyOut ic cfs set b r e' = v at ha
  cases u <;> cases v <;> simp only [OutRel] at ha <;> dsimp only
  · exact ⟨by rw [ha.1], ha.2⟩
  · exact ⟨rfl, ha⟩
  · exact ⟨rfl, h⟩
  · exact ⟨rfl, h⟩

/-- The same, with variables which agree. -/
def DagRel (S : VarName → Prop) : DagOut → DagOut → Prop
  | .result ms pos e, .result ms' pos' e' => ms' = ms ∧ pos' = pos ∧ Agree S e e'
  | .err, .err => True
  | .panic p, .panic q => q = p
  | .hang, .hang => True
  | _, _ => False

theorem visitRx_agree (rxs : List SetRx) : ∀ (xs : List (Nat × Nat × Nat)) (ms : Matches) {e e' : Vars}, Agree S e e' →
    DagRel S (visitRx ic rxs b xs ms e) (visitRx ic rxs b xs ms e')
  | [], ms, e, e', h => ⟨rfl, rfl, h⟩
  | x :: xs, ms, e, e', h => by
    unfold visitRx
    cases setMatch ic rxs b xs x with
    | panic p => exact rfl
    | err => exact trivial
    | failed st m => exact ⟨rfl, rfl, h⟩
    | found st le i vals =>
      dsimp only
      split_ifs
      · exact visitRx_agree rxs xs _ h
      · exact visitRx_agree rxs xs _ h
      · exact ⟨rfl, rfl, bindAll_getD h⟩
      · exact visitRx_agree rxs xs _ (bindAll_getD h)

/-- The same, with variables which agree. -/
def StateRel (S : VarName → Prop) : MState → MState → Prop
  | none, none => True
  | some x, some y => y.1 = x.1 ∧ Agree S x.2 y.2
  | _, _ => False

/-- The same, with variables which agree. -/
def StatesRel (S : VarName → Prop) : StatesOut → StatesOut → Prop
  | .ok s f, .ok s' f' => List.Forall₂ (StateRel S) s s' ∧ f' = f
  | .err, .err => True
  | .panic p, .panic q => q = p
  | .hang, .hang => True
  | _, _ => False

theorem runStates_agree (vs : Bool) (r : Rng) {base base' : Vars} (hb : Agree S base base') (done : List Nat) :
    ∀ (ss : List (Sfx × Option Failure)) (idx : Nat) {e e' : Vars}, Agree S e e' → (∀ s ∈ ss, CompReads S s.1.1) →
      StatesRel S (runStates cfs vs b r base done ss idx e) (runStates cfs vs b r base' done ss idx e')
  | [], _, _, _, _, _ => ⟨.nil, rfl⟩
  | ((c, ln), old) :: ss, idx, e, e', h, hs => by
    have more : ∀ {st st' : MState} {er : Option Failure} {f f' : Vars}, StateRel S st st' → Agree S f f' →
        StatesRel S
          (match runStates cfs vs b r base done ss (idx + 1) f with
            | .ok states errors => .ok (st :: states) (er :: errors)
            | x => x)
          (match runStates cfs vs b r base' done ss (idx + 1) f' with
            | .ok states errors => .ok (st' :: states) (er :: errors)
            | x => x) := by
      intro st st' er f f' h1 h2
      have ih := runStates_agree vs r hb done ss (idx + 1) h2 fun s hs' => hs s (List.mem_cons_of_mem _ hs')
      generalize runStates cfs vs b r base done ss (idx + 1) f = u at ih
      generalize runStates cfs vs b r base' done ss (idx + 1) f' = v at ih
      cases u <;> cases v <;> simp only [StatesRel] at ih
      · obtain ⟨ih, rfl⟩ := ih
        exact ⟨.cons h1 ih, rfl⟩
      · exact trivial
      · exact ih
      · exact trivial
    unfold runStates
    dsimp only
    split_ifs
    · exact more trivial h
    all_goals
      have ha := runAnchored_agree (cf := cfs ln) (b := b) h (hs ((c, ln), old) List.mem_cons_self) ln r
      generalize runAnchored (cfs ln) ln b r e c = u at ha
      generalize runAnchored (cfs ln) ln b r e' c = v at ha
      cases u <;> cases v <;> simp only [OutRel] at ha
      · rename_i m f m' f'
        obtain ⟨rfl, ha⟩ := ha
        obtain ⟨ty, i⟩ := m'
        cases ty with
        | failed g => first | exact more trivial ha.clear | exact more trivial ha
        | found =>
          cases i with
          | none => exact rfl
          | some i => exact more ⟨rfl, ha⟩ hb
        | excluded =>
          cases i with
          | none => exact rfl
          | some i => exact more ⟨rfl, ha⟩ hb
      · exact trivial
      · exact ha
      · exact trivial

/-- The same, with variables which agree. -/
def LongRel (S : VarName → Prop) : Option (Nat × Info × Vars) → Option (Nat × Info × Vars) → Prop
  | none, none => True
  | some x, some y => y.1 = x.1 ∧ y.2.1 = x.2.1 ∧ Agree S x.2.2 y.2.2
  | _, _ => False

theorem longest_agree : ∀ {ss ss' : List MState}, List.Forall₂ (StateRel S) ss ss' → ∀ idx : Nat, LongRel S (longest ss idx) (longest ss' idx)
  | _, _, .nil, _ => trivial
  | _, _, .cons (a := s) (b := s') h hs, idx => by
    unfold longest
    have ih := longest_agree hs (idx + 1)
    rename_i l l'
    generalize longest l (idx + 1) = u at ih
    generalize longest l' (idx + 1) = v at ih
    rcases s with _ | s <;> rcases s' with _ | s' <;> simp only [StateRel] at h
    · exact ih
    · obtain ⟨i, f⟩ := s
      obtain ⟨i', f'⟩ := s'
      dsimp only at h
      obtain ⟨rfl, h⟩ := h
      rcases u with _ | u <;> rcases v with _ | v <;> simp only [LongRel] at ih
      · exact ⟨rfl, rfl, h⟩
      · dsimp only
        rw [ih.2.1]
        split_ifs
        · exact ⟨rfl, rfl, h⟩
        · exact ih

theorem dynLoop_agree {set : MatchSet} (hs : SetReads S set) (vs : Bool) (r : Rng) :
    ∀ (n : Nat) (st : Searcher) (pr : Progress) (ms : Matches) {e e' : Vars}, Agree S e e' → (∀ x ∈ pr, ∀ s ∈ x.1, CompReads S s.1.1) →
      DagRel S (dynLoop ic cfs vs set b r n st pr ms e) (dynLoop ic cfs vs set b r n st pr ms e')
  | 0, _, _, _, _, _, _, _ => trivial
  | n + 1, st, pr, ms, e, e', h, hp => by
    unfold dynLoop
    rw [nextMatch_agree h hs]
    cases nextMatch ic cfs set b r e st with
    | none => exact trivial
    | some x =>
      cases x with
      | panic p => exact rfl
      | err => exact trivial
      | failed st m => exact ⟨rfl, rfl, h⟩
      | found st le i vals =>
        dsimp only
        cases hg : pr[i.pid]? with
        | none => exact rfl
        | some x =>
          dsimp only
          have hx : ∀ s ∈ x.1, CompReads S s.1.1 := hp x (List.mem_of_getElem? hg)
          split_ifs
          · exact dynLoop_agree hs vs r n st pr ms h hp
          · exact dynLoop_agree hs vs r n st pr ms h hp
          · have hb : Agree S ((bindAll e vals).getD e) ((bindAll e' vals).getD e') := bindAll_getD h
            generalize (bindAll e vals).getD e = base at hb
            generalize (bindAll e' vals).getD e' = base' at hb
            have ha := runStates_agree (cfs := cfs) (b := b) vs ⟨le, r.stop⟩ hb (x.2.map Prod.snd) x.1 0 hb hx
            generalize runStates cfs vs b ⟨le, r.stop⟩ base (x.2.map Prod.snd) x.1 0 base = u at ha
            generalize runStates cfs vs b ⟨le, r.stop⟩ base' (x.2.map Prod.snd) x.1 0 base' = v at ha
            cases u <;> cases v <;> simp only [StatesRel] at ha
            · rename_i ss er ss' er'
              obtain ⟨ha, rfl⟩ := ha
              dsimp only
              have hx' : ∀ y, ∀ z ∈ pr.set i.pid ((x.1.map Prod.fst).zip er', y), ∀ s ∈ z.1, CompReads S s.1.1 := by
                intro y z hz s hs'
                rcases List.mem_or_eq_of_mem_set hz with hz | hz
                · exact hp z hz s hs'
                · subst hz
                  have := (List.of_mem_zip hs').1
                  obtain ⟨w, hw, e⟩ := List.mem_map.1 this
                  rw [← e]
                  exact hx w hw
              have hl := longest_agree ha 0
              generalize longest ss 0 = u at hl
              generalize longest ss' 0 = v at hl
              rcases u with _ | ⟨k, j, g⟩ <;> rcases v with _ | ⟨k', j', g'⟩ <;> simp only [LongRel] at hl
              · exact dynLoop_agree hs vs r n st _ ms h (hx' _)
              · obtain ⟨rfl, rfl, hl⟩ := hl
                dsimp only
                have he := h.merge (hb.merge hl)
                split_ifs
                · exact ⟨rfl, rfl, he⟩
                · exact dynLoop_agree hs vs r n st _ _ he (hx' _)
            · exact trivial
            · exact ha
            · exact trivial

theorem setDag_agree {set : MatchSet} (hs : SetReads S set) (vs : Bool) (b : Buf) : DagSim (Agree S) b b (setDag ic cfs vs set) (setDag ic cfs vs set) := by
  intro r e e' h
  have dyn : ∀ sfx : List (List Sfx), (∀ ss ∈ sfx, ∀ s ∈ ss, CompReads S s.1) → ∀ x ∈ sfx.map (fun ss => (ss.map fun s => (s, (none : Option Failure)), ([] : List (Rng × Nat)))),
      ∀ s ∈ x.1, CompReads S s.1.1 := by
    intro sfx hsf x hx s hs
    obtain ⟨ss, h1, rfl⟩ := List.mem_map.1 hx
    obtain ⟨t, h2, rfl⟩ := List.mem_map.1 hs
    exact hsf ss h1 t h2
  have ha : DagRel S (dagOut ic cfs vs set b r e) (dagOut ic cfs vs set b r e') := by
    cases set with
    | literal lits =>
      unfold dagOut litDag
      dsimp only
      cases visitLoop lits b r.stop (r.stop - r.start + 1) r.start [] <;> first | exact trivial | exact ⟨rfl, rfl, h⟩
    | regex rxs => exact visitRx_agree rxs _ _ h
    | subPrefix lits sfx => exact dynLoop_agree hs vs r _ _ _ _ h (dyn _ hs.sfx)
    | rxPrefix rxs sfx => exact dynLoop_agree hs vs r _ _ _ _ h (dyn _ hs.sfx)
    | anyPrefix ps sfx => exact dynLoop_agree hs vs r _ _ _ _ h (dyn _ hs.sfx)
  unfold setDag
  dsimp only
  generalize dagOut ic cfs vs set b r e = u at ha
  generalize dagOut ic cfs vs set b r e' = v at ha
  cases u <;> cases v <;> simp only [DagRel] at ha
  · obtain ⟨rfl, rfl, ha⟩ := ha
    exact .inr ⟨_, _, _, _, rfl, rfl, ha⟩
  · exact .inl ⟨rfl, rfl⟩
  · exact .inl ⟨rfl, rfl⟩
  · exact .inl ⟨rfl, rfl⟩

end
end Litcheck.AgreeSpec
