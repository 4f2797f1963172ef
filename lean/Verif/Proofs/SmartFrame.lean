import Verif.Props.Variables

/-!
# Patterns of any form: which variables a search needs and which it sets

Nothing is assumed about the pattern: its parts need not be readable by themselves.
-/

namespace Litcheck
open Spec RegexSpec PatternSpec Smart Pattern
open Litcheck.Lex (Part Match CPat VarName Expr Op)
open Litcheck.Regex (utf8 engine)

theorem eval_defined {ck : Bool} {line : Nat} {env : Vars} {ty : Option Ty} : ∀ {e : Expr} {v : Evald},
    evalExpr ck line env ty e = .yes v → ∀ x ∈ exprVars e, Defined env x
  | .num _, _, _ => by simp [exprVars]
  | .var x, v, h => by
    intro y hy
    simp only [exprVars, List.mem_singleton] at hy
    subst hy
    cases y with
    | pseudo s =>
      simp only [evalExpr] at h
      split at h
      · assumption
      · simp at h
    | user s =>
      simp only [evalExpr] at h
      split at h
      · rename_i hg; exact ⟨_, Val.noConfusion, hg⟩
      · rename_i hg; exact ⟨_, Val.noConfusion, hg⟩
      · simp at h
      · simp at h
      · simp at h
    | global s =>
      simp only [evalExpr] at h
      split at h
      · rename_i hg; exact ⟨_, Val.noConfusion, hg⟩
      · rename_i hg; exact ⟨_, Val.noConfusion, hg⟩
      · simp at h
      · simp at h
      · simp at h
  | .bin op l r, v, h => by
    simp only [evalExpr] at h
    obtain ⟨lv, h1, h⟩ := Step.bind_yes h
    obtain ⟨rv, h2, h⟩ := Step.bind_yes h
    intro x hx
    rcases List.mem_append.1 hx with hx | hx
    · exact eval_defined h1 x hx
    · exact eval_defined h2 x hx

/-- The variables which an operation reads. -/
def opReads : MOp engine → List VarName
  | .subst e _ => exprVars e
  | .constraint e => exprVars e
  | _ => []

/-- The variables which operations set. -/
def opSets : List (MOp engine) → List VarName
  | [] => []
  | .bind x _ :: ops => x :: opSets ops
  | _ :: ops => opSets ops

theorem opSets_append : ∀ (a c : List (MOp engine)), opSets (a ++ c) = opSets a ++ opSets c
  | [], _ => rfl
  | op :: a, c => by
    have := opSets_append a c
    cases op <;> simp only [List.cons_append, opSets, this]

theorem constrain_reads {cf : Conf engine} {env : Vars} {st st1 : Smart.St} {e : Expr} (h : constrain cf env st e = .yes st1) :
    ∀ x ∈ exprVars e, Defined env x := by
  unfold constrain at h
  split at h
  · simp at h
  · obtain ⟨v, h1, _⟩ := Step.bind_yes h
    exact eval_defined h1

theorem matchPart_reads {cf : Conf engine} {b : Buf} {hi : Nat} {env : Vars} {st : Smart.St} {op : MOp engine} {y : Smart.St × Nat × Nat}
    (h : matchPart cf b hi env st op = .yes y) : (∀ x ∈ opReads op, Defined env x) ∧ opSets [op] = [] := by
  cases op with
  | subst e ty =>
    simp only [matchPart] at h
    obtain ⟨v, h1, _⟩ := Step.bind_yes h
    exact ⟨eval_defined h1, rfl⟩
  | constraint e => simp [matchPart] at h
  | bind x ty => simp [matchPart] at h
  | _ => exact ⟨by simp [opReads], rfl⟩

theorem bindVar_frame {env env1 : Vars} {st st1 : Smart.St} {x : VarName} {ty : Option Ty} (h : bindVar env st x ty = .yes (st1, env1))
    {k : VName} (hk : keyOf x ≠ k) : env1.get k = env.get k := by
  unfold bindVar at h
  split at h
  · simp at h
  · split at h
    · simp only [Smart.Step.yes.injEq, Prod.mk.injEq] at h
      rw [← h.2, get_insert_ne hk]
    · simp only [Smart.Step.yes.injEq, Prod.mk.injEq] at h
      rw [← h.2, get_insert_ne hk]
    · split at h
      · simp at h
      · simp only [Smart.Step.yes.injEq, Prod.mk.injEq] at h
        rw [← h.2, get_insert_ne hk]

theorem sets_cons {op : MOp engine} {ops : List (MOp engine)} {x : VarName} (h : x ∈ opSets ops) : x ∈ opSets (op :: ops) := by
  cases op <;> simp [opSets, h]

theorem runs_reads {cf : Conf engine} {b : Buf} {hi : Nat} {ops : List (MOp engine)} {env env2 : Vars} {st st2 : Smart.St}
    (h : Runs cf b hi ops env st st2 env2) : ∀ {pre : List (MOp engine)} {op : MOp engine} {post : List (MOp engine)},
    ops = pre ++ op :: post → ∀ x ∈ opReads op, (∀ z ∈ opSets pre, keyOf z ≠ keyOf x) → Defined env x := by
  induction h with
  | nil => intro pre op post he; simp at he
  | @constraint e ops env st st1 st2 env2 h1 _ ih =>
    intro pre op post he x hx hz
    cases pre with
    | nil =>
      simp only [List.nil_append, List.cons.injEq] at he
      rw [← he.1] at hx
      exact constrain_reads h1 x hx
    | cons a pre =>
      simp only [List.cons_append, List.cons.injEq] at he
      exact ih he.2 x hx fun z h => hz z (sets_cons h)
  | @bind y ty ops env st st1 env1 st2 env2 h1 _ ih =>
    intro pre op post he x hx hz
    cases pre with
    | nil =>
      simp only [List.nil_append, List.cons.injEq] at he
      rw [← he.1] at hx
      simp [opReads] at hx
    | cons a pre =>
      simp only [List.cons_append, List.cons.injEq] at he
      have h2 := ih he.2 x hx fun z h => hz z (sets_cons h)
      refine defined_congr (bindVar_frame h1 ?_) h2
      apply hz
      rw [← he.1]
      exact List.mem_cons_self
  | drop h1 _ ih =>
    intro pre op post he x hx hz
    cases pre with
    | nil =>
      simp only [List.nil_append, List.cons.injEq] at he
      rw [← he.1] at hx
      simp [opReads] at hx
    | cons a pre =>
      simp only [List.cons_append, List.cons.injEq] at he
      exact ih he.2 x hx fun z h => hz z (sets_cons h)
  | part h1 _ ih =>
    intro pre op post he x hx hz
    cases pre with
    | nil =>
      simp only [List.nil_append, List.cons.injEq] at he
      rw [← he.1] at hx
      exact (matchPart_reads h1).1 x hx
    | cons a pre =>
      simp only [List.cons_append, List.cons.injEq] at he
      exact ih he.2 x hx fun z h => hz z (sets_cons h)

theorem runs_frame {cf : Conf engine} {b : Buf} {hi : Nat} {ops : List (MOp engine)} {env env2 : Vars} {st st2 : Smart.St}
    (h : Runs cf b hi ops env st st2 env2) {k : VName} : (∀ z ∈ opSets ops, keyOf z ≠ k) → env2.get k = env.get k := by
  induction h with
  | nil => intro _; rfl
  | constraint h1 _ ih => intro hz; exact ih fun z h => hz z (sets_cons h)
  | bind h1 _ ih =>
    intro hz
    rw [ih fun z h => hz z (sets_cons h), bindVar_frame h1 (hz _ List.mem_cons_self)]
  | drop h1 _ ih => intro hz; exact ih fun z h => hz z (sets_cons h)
  | part h1 _ ih => intro hz; exact ih fun z h => hz z (sets_cons h)

theorem merge_get {env env' : Vars} {k : VName} (h : env'.get k = env.get k) : (env.merge env').get k = env.get k := by
  cases k with
  | pseudo => rfl
  | user s =>
    simp only [Bindings.get, Bindings.merge, Map.union] at h ⊢
    cases h1 : env'.bound (.user s) with
    | none => simp
    | some v => rw [h1] at h; simpa using h
  | global s =>
    simp only [Bindings.get, Bindings.merge, Map.union] at h ⊢
    cases h1 : env'.global s with
    | none => simp
    | some v => rw [h1] at h; simpa using h

theorem search_runs {cf : Conf engine} {b : Buf} {hi : Nat} {anc : Bool} {op : MOp engine} {rest : List (MOp engine)} {env env2 : Vars}
    {st2 : Smart.St} : ∀ {fuel p : Nat}, search cf b hi anc op rest env fuel p = some (.found st2 env2) →
    ∃ st y st1 env1, matchPart cf b hi env st op = .yes y ∧ Runs cf b hi rest env st1 st2 env1 ∧ env2 = env.merge env1
  | 0, p, h => by simp [search] at h
  | fuel + 1, p, h => by
    unfold search at h
    split at h
    · rename_i st env' ha
      simp only [Option.some.injEq, Smart.Found.found.injEq] at h
      obtain ⟨rfl, rfl⟩ := h
      unfold attempt at ha
      dsimp only at ha
      split at ha
      · simp at ha
      · simp at ha
      · simp at ha
      · rename_i hm
        split at ha
        · simp at ha
        · simp at ha
        · rename_i hmps
          simp only [Attempt.found.injEq] at ha
          obtain ⟨rfl, rfl⟩ := ha
          exact ⟨_, _, _, _, hm, matchParts_runs _ hmps, rfl⟩
        · split at ha <;> simp at ha
    · simp at h
    · simp at h
    · simp at h
    · exact search_runs h

/-- The variables which a part sets, after `compact`. -/
def cSets : CPart → List VarName
  | .lit _ => []
  | .rx r => r.caps.map Cap.name
  | .dyn m => (captures (.match_ m)).toList

theorem lowerPart_sets {o : Opts} {c : CPart} {ops : List (MOp engine)} (h : lowerPart engine o c = .ok (some ops)) :
    ∀ x ∈ opSets ops, x ∈ cSets c := by
  cases c with
  | lit s =>
    simp only [lowerPart, buildLiteral] at h
    split at h
    · simp at h
    · simp only [Except.ok.injEq, Option.some.injEq] at h
      subst h
      simp [opSets]
  | rx r =>
    simp only [lowerPart, buildRegex] at h
    split at h
    · simp at h
    · simp only [Except.ok.injEq, Option.some.injEq] at h
      subst h
      have h2 : ∀ l : List Cap, opSets (l.map fun c => (MOp.bind c.name (some c.ty) : MOp engine)) = l.map Cap.name := by
        intro l
        induction l with
        | nil => rfl
        | cons a l ih => simp only [List.map_cons, opSets, ih]
      intro x hx
      simp only [opSets, h2] at hx
      simp only [cSets]
      simpa using hx
  | dyn m =>
    unfold lowerPart lowerMatch at h
    dsimp only at h
    split at h
    · simp only [Except.ok.injEq, Option.some.injEq] at h
      subst h; simp [opSets]
    · split at h
      · simp at h
      · simp only [Except.ok.injEq, Option.some.injEq] at h
        subst h; simp [opSets, cSets, captures]
    · simp only [Except.ok.injEq, Option.some.injEq] at h
      subst h; simp [opSets]
    · simp only [Except.ok.injEq, Option.some.injEq] at h
      subst h; simp [opSets]
    · simp only [Except.ok.injEq, Option.some.injEq] at h
      subst h; simp [opSets, cSets, captures]
    · simp only [Except.ok.injEq, Option.some.injEq] at h
      subst h; simp [opSets, cSets, captures]

theorem lowerPart_reads {o : Opts} {m : Match} {ops : List (MOp engine)} (h : lowerPart engine o (.dyn m) = .ok (some ops)) {x : VarName}
    (hx : x ∈ needs (.match_ m)) : ∃ pre op post, ops = pre ++ op :: post ∧ x ∈ opReads op ∧ opSets pre = [] := by
  unfold lowerPart lowerMatch at h
  dsimp only at h
  split at h
  · simp only [Except.ok.injEq, Option.some.injEq] at h
    subst h
    exact ⟨[], _, [], rfl, hx, rfl⟩
  · simp [needs] at hx
  · simp [needs] at hx
  · simp only [Except.ok.injEq, Option.some.injEq] at h
    subst h
    exact ⟨[], _, [], rfl, hx, rfl⟩
  · simp [needs] at hx
  · simp only [Except.ok.injEq, Option.some.injEq] at h
    subst h
    exact ⟨[_], _, [_], rfl, hx, rfl⟩

theorem lowerParts_cons {o : Opts} {c : CPart} {cs : List CPart} {ops : List (MOp engine)}
    (h : lowerParts engine o (c :: cs) = .ok (some ops)) :
    ∃ ops1 ops2, lowerPart engine o c = .ok (some ops1) ∧ lowerParts engine o cs = .ok (some ops2) ∧ ops = ops1 ++ ops2 := by
  simp only [lowerParts] at h
  obtain ⟨x, h1, h⟩ := bind_ok.1 h
  cases x with
  | none => simp at h
  | some ops1 =>
    obtain ⟨y, h2, h⟩ := bind_ok.1 h
    cases y with
    | none => simp at h
    | some ops2 =>
      simp only [Except.ok.injEq, Option.some.injEq] at h
      exact ⟨_, _, h1, h2, h.symm⟩

theorem lowerParts_sets {o : Opts} : ∀ {cs : List CPart} {ops : List (MOp engine)}, lowerParts engine o cs = .ok (some ops) →
    ∀ x ∈ opSets ops, ∃ c ∈ cs, x ∈ cSets c
  | [], ops, h => by
    simp only [lowerParts, Except.ok.injEq, Option.some.injEq] at h
    subst h
    simp [opSets]
  | c :: cs, ops, h => by
    obtain ⟨ops1, ops2, h1, h2, rfl⟩ := lowerParts_cons h
    intro x hx
    rw [opSets_append] at hx
    rcases List.mem_append.1 hx with hx | hx
    · exact ⟨c, List.mem_cons_self, lowerPart_sets h1 x hx⟩
    · obtain ⟨d, h3, h4⟩ := lowerParts_sets h2 x hx
      exact ⟨d, List.mem_cons_of_mem _ h3, h4⟩

theorem lowerParts_reads {o : Opts} {m : Match} {post : List CPart} {x : VarName} (hx : x ∈ needs (.match_ m)) :
    ∀ {pre : List CPart} {ops : List (MOp engine)}, lowerParts engine o (pre ++ .dyn m :: post) = .ok (some ops) →
    ∃ opre op opost, ops = opre ++ op :: opost ∧ x ∈ opReads op ∧ ∀ z ∈ opSets opre, ∃ c ∈ pre, z ∈ cSets c
  | [], ops, h => by
    obtain ⟨ops1, ops2, h1, _, rfl⟩ := lowerParts_cons h
    obtain ⟨a, op, d, rfl, h3, h4⟩ := lowerPart_reads h1 hx
    exact ⟨a, op, d ++ ops2, by simp, h3, by simp [h4]⟩
  | c :: pre, ops, h => by
    obtain ⟨ops1, ops2, h1, h2, rfl⟩ := lowerParts_cons h
    obtain ⟨a, op, d, rfl, h3, h4⟩ := lowerParts_reads hx h2
    refine ⟨ops1 ++ a, op, d, by simp, h3, ?_⟩
    intro z hz
    rw [opSets_append] at hz
    rcases List.mem_append.1 hz with hz | hz
    · exact ⟨c, List.mem_cons_self, lowerPart_sets h1 z hz⟩
    · obtain ⟨e, h5, h6⟩ := h4 z hz
      exact ⟨e, List.mem_cons_of_mem _ h5, h6⟩

/-- The variables which the state of `compact` sets are captured by one of the parts so far. -/
def SetsIn (st : CSt) (ps : List Part) : Prop :=
  (∀ c ∈ st.out, ∀ x ∈ cSets c, ∃ q ∈ ps, captures q = some x) ∧ ∀ c ∈ st.caps, ∃ q ∈ ps, captures q = some c.name

theorem SetsIn.flush {st : CSt} {ps : List Part} (h : SetsIn st ps) : ∀ c ∈ st.flush, ∀ x ∈ cSets c, ∃ q ∈ ps, captures q = some x := by
  unfold CSt.flush
  split
  · exact h.1
  · split
    · intro c hc x hx
      rcases List.mem_append.1 hc with hc | hc
      · exact h.1 c hc x hx
      · simp only [List.mem_singleton] at hc; subst hc; simp [cSets] at hx
    · intro c hc x hx
      rcases List.mem_append.1 hc with hc | hc
      · exact h.1 c hc x hx
      · simp only [List.mem_singleton] at hc
        subst hc
        simp only [cSets, List.mem_map] at hx
        obtain ⟨d, h1, rfl⟩ := hx
        exact h.2 d h1

theorem SetsIn.step {st : CSt} {ps : List Part} (h : SetsIn st ps) (p : Part) : SetsIn (compactStep st p) (ps ++ [p]) := by
  have hm : ∀ {x : VarName}, (∃ q ∈ ps, captures q = some x) → ∃ q ∈ ps ++ [p], captures q = some x := by
    rintro x ⟨q, h1, h2⟩
    exact ⟨q, List.mem_append_left _ h1, h2⟩
  have hadd : ∀ (src : Str) (caps : List Cap), (∀ c ∈ caps, captures p = some c.name) → SetsIn (st.addRx src caps) (ps ++ [p]) := by
    intro src caps hc
    refine ⟨fun c h1 x h2 => hm (h.1 c h1 x h2), ?_⟩
    intro c h1
    rcases List.mem_append.1 h1 with h1 | h1
    · exact hm (h.2 c h1)
    · exact ⟨p, by simp, hc c h1⟩
  have hdyn : ∀ m, p = .match_ m → SetsIn ⟨st.flush ++ [.dyn m], [], [], true⟩ (ps ++ [p]) := by
    intro m hp
    refine ⟨?_, by simp⟩
    intro c h1 x h2
    rcases List.mem_append.1 h1 with h1 | h1
    · exact hm (h.flush c h1 x h2)
    · simp only [List.mem_singleton] at h1
      subst h1
      simp only [cSets, Option.mem_toList, Option.mem_def] at h2
      exact ⟨p, by simp, by rw [hp, h2]⟩
  cases p with
  | literal s => exact ⟨fun c h1 x h2 => hm (h.1 c h1 x h2), fun c h1 => hm (h.2 c h1)⟩
  | regex s => exact hadd _ _ (by simp)
  | match_ m =>
    cases m with
    | substitution x s =>
      cases s with
      | none => exact hdyn _ rfl
      | some s => exact hadd _ _ (by simp [captures])
    | numeric f cap e =>
      cases cap <;> cases e
      · exact hadd _ _ (by simp)
      · exact hdyn _ rfl
      · exact hadd _ _ (by simp [captures])
      · exact hdyn _ rfl

theorem setsIn_fold : ∀ (qs ps : List Part) (st : CSt), SetsIn st ps → SetsIn (qs.foldl compactStep st) (ps ++ qs)
  | [], ps, st, h => by simpa using h
  | q :: qs, ps, st, h => by
    have := setsIn_fold qs (ps ++ [q]) _ (h.step q)
    simpa using this

theorem flush_out (st : CSt) : ∃ more, st.flush = st.out ++ more := by
  unfold CSt.flush
  split
  · exact ⟨[], by simp⟩
  · split <;> exact ⟨_, rfl⟩

theorem step_out (st : CSt) (p : Part) : ∃ more, (compactStep st p).out = st.out ++ more := by
  have hdyn : ∀ m, ∃ more, st.flush ++ [CPart.dyn m] = st.out ++ more := by
    intro m
    obtain ⟨more, h⟩ := flush_out st
    exact ⟨more ++ [.dyn m], by simp [h]⟩
  cases p with
  | literal s => exact ⟨[], by simp [compactStep]⟩
  | regex s => exact ⟨[], by simp [compactStep, CSt.addRx]⟩
  | match_ m =>
    cases m with
    | substitution x s =>
      cases s with
      | none => exact hdyn _
      | some s => exact ⟨[], by simp [compactStep, CSt.addRx]⟩
    | numeric f cap e =>
      cases cap <;> cases e
      · exact ⟨[], by simp [compactStep, CSt.addRx]⟩
      · exact hdyn _
      · exact ⟨[], by simp [compactStep, CSt.addRx]⟩
      · exact hdyn _

theorem fold_out : ∀ (qs : List Part) (st : CSt), ∃ more, (qs.foldl compactStep st).out = st.out ++ more
  | [], st => ⟨[], by simp⟩
  | q :: qs, st => by
    obtain ⟨m1, h1⟩ := step_out st q
    obtain ⟨m2, h2⟩ := fold_out qs (compactStep st q)
    exact ⟨m1 ++ m2, by simp only [List.foldl_cons, h2, h1, List.append_assoc]⟩

theorem step_dyn {st : CSt} {p : Part} {x : VarName} (hx : x ∈ needs p) : ∃ m, p = .match_ m ∧ (compactStep st p).out = st.flush ++ [.dyn m] := by
  cases p with
  | literal s => simp [needs] at hx
  | regex s => simp [needs] at hx
  | match_ m =>
    cases m with
    | substitution y s =>
      cases s with
      | none => exact ⟨_, rfl, rfl⟩
      | some s => simp [needs] at hx
    | numeric f cap e =>
      cases cap <;> cases e
      · simp [needs] at hx
      · exact ⟨_, rfl, rfl⟩
      · simp [needs] at hx
      · exact ⟨_, rfl, rfl⟩

/-- Where the operations which read the variable are in the compiled pattern. -/
theorem compile_reads {o : Opts} {p : CPat} {c : Compiled engine} (hc : Pattern.compile engine o p = .ok (some c)) {pre post : List Part}
    {q : Part} {x : VarName} (hp : partsOf p = pre ++ q :: post) (hx : x ∈ needs q) :
    ∃ opre op opost, c = .smart (opre ++ op :: opost) ∧ x ∈ opReads op ∧ ∀ z ∈ opSets opre, ∃ y ∈ pre, captures y = some z := by
  have hps : p = .match_ (pre ++ q :: post) := by
    cases p with
    | empty => simp [partsOf] at hp
    | literal s =>
      cases pre with
      | nil => simp only [partsOf, List.nil_append, List.cons.injEq] at hp; rw [← hp.1] at hx; simp [needs] at hx
      | cons a l => simp [partsOf] at hp
    | regex s =>
      cases pre with
      | nil => simp only [partsOf, List.nil_append, List.cons.injEq] at hp; rw [← hp.1] at hx; simp [needs] at hx
      | cons a l => simp [partsOf] at hp
    | match_ ps => simp only [partsOf] at hp; rw [hp]
  have hin := setsIn_fold pre [] ⟨[], [], [], true⟩ ⟨by simp, by simp⟩
  rw [List.nil_append] at hin
  obtain ⟨m, hm, hout⟩ := step_dyn (st := pre.foldl compactStep ⟨[], [], [], true⟩) hx
  obtain ⟨more, hmore⟩ := fold_out post (compactStep (pre.foldl compactStep ⟨[], [], [], true⟩) q)
  obtain ⟨last, hlast⟩ := flush_out ((pre ++ q :: post).foldl compactStep ⟨[], [], [], true⟩)
  have hfold : ((pre ++ q :: post).foldl compactStep ⟨[], [], [], true⟩).out =
      (pre.foldl compactStep ⟨[], [], [], true⟩).flush ++ .dyn m :: more := by
    rw [List.foldl_append, List.foldl_cons, hmore, hout]; simp
  have hcomp : compact p = .parts ((pre.foldl compactStep ⟨[], [], [], true⟩).flush ++ .dyn m :: (more ++ last)) := by
    rw [hps]
    unfold compact
    split
    · simp at *
    · simp at *
    · simp at *
    · rename_i he; simp at he
    · rename_i he
      simp only [CPat.match_.injEq] at he
      rw [← he]
      dsimp only
      rw [if_neg (by rw [hfold]; simp), hlast, hfold]
      simp
  unfold Pattern.compile at hc
  rw [hcomp] at hc
  dsimp only at hc
  obtain ⟨w, h1, h2⟩ := bind_ok.1 hc
  cases w with
  | none => simp at h2
  | some ops =>
    simp only [Except.ok.injEq, Option.some.injEq] at h2
    obtain ⟨a, op, d, rfl, h3, h4⟩ := lowerParts_reads (by rw [← hm]; exact hx) h1
    refine ⟨a, op, d, h2.symm, h3, ?_⟩
    intro z hz
    obtain ⟨e, h5, h6⟩ := h4 z hz
    exact hin.flush e h5 z h6

theorem smart_found {cf : Conf engine} {ops : List (MOp engine)} {b : Buf} {r : Rng} {env env' : Vars} {m : MatchResult} {k : Nat}
    (h : ((Compiled.smart ops).pat cf k).run b r env = (some m, env')) :
    (env' = env ∧ m.isOk = false) ∨ ∃ op rest st y st1 st2 env1, ops = op :: rest ∧ matchPart cf b r.stop env st op = .yes y ∧
      Runs cf b r.stop rest env st1 st2 env1 ∧ env' = env.merge env1 := by
  simp only [Compiled.pat, smartPat] at h
  split at h
  · rename_i m' env2 ht
    simp only [Prod.mk.injEq, Option.some.injEq] at h
    obtain ⟨rfl, rfl⟩ := h
    unfold tryMatch at ht
    split at ht
    · simp at ht
    · rename_i op rest
      split at ht
      · simp at ht
      · simp at ht
      · simp at ht
      · simp only [Outcome.result.injEq] at ht
        exact .inl ⟨ht.2.symm, by rw [← ht.1]; rfl⟩
      · rename_i hs
        obtain ⟨st, y, st1, env1, h1, h2, h3⟩ := search_runs hs
        refine .inr ⟨op, rest, st, y, st1, _, env1, rfl, h1, h2, ?_⟩
        split at ht
        · split at ht <;> (simp only [Outcome.result.injEq] at ht; rw [← ht.2, h3])
        · simp only [Outcome.result.injEq] at ht
          rw [← ht.2, h3]
  · simp at h
  · simp at h
  · simp at h

end Litcheck
