import Verif.Proofs.CliEval
import Verif.Props.Env
import Verif.Props.Variables

/-!
# Properties C80 – C82: variables defined on the command line
-/

namespace Litcheck
open Spec PatternSpec CliSpec Cli
open Litcheck.Lex (Expr VarName Op Token)
open Litcheck.Smart (Val Ty Vars Evald keyOf explicitFormat evalExpr substText)

deriving instance DecidableEq for Smart.Step

/-! ## C80: texts -/

/-- **C80**: what is read as the definition of a text is exactly a name, the character `=` and any text, which is the value, whatever characters
it contains. -/
theorem C80_text (s x v : Str) : parseDef s = some (x, .str v) ↔ IsName x ∧ s = x ++ '=' :: v := by
  have key : (textVar s).map (fun y => (y.1, Def.str y.2)) = some (x, .str v) ↔ IsName x ∧ s = x ++ '=' :: v := by
    rw [← textVar_iff]
    cases textVar s with
    | none => simp
    | some y => obtain ⟨a, b⟩ := y; simp
  unfold parseDef
  split
  · rename_i r
    constructor
    · intro h
      cases h1 : lex ('#' :: r).length ('#' :: r) with
      | none => rw [h1] at h; simp at h
      | some ts =>
        rw [h1] at h
        cases h2 : numericVar ts with
        | none => rw [Option.bind_some, h2] at h; simp at h
        | some y => rw [Option.bind_some, h2] at h; simp at h
    · rintro ⟨⟨c, cs, rfl, h1, -⟩, h2⟩
      simp only [List.cons_append, List.cons.injEq] at h2
      rw [← h2.1] at h1
      exact absurd ((nameStart_iff '#').2 h1) (by decide)
  · exact key

/-- **C80**: no two readings: a command line gives one list of definitions, in order, and is rejected if one of them is not a definition. -/
theorem C80_all (ss : List Str) (ds : List (Str × Def)) :
    parseDefs ss = some ds ↔ List.Forall₂ (fun s d => parseDef s = some d) ss ds := by
  induction ss generalizing ds with
  | nil => cases ds <;> simp [parseDefs]
  | cons s ss ih =>
    simp only [parseDefs]
    cases h : parseDef s with
    | none =>
      simp only [reduceCtorEq, false_iff]
      intro h'
      cases h' with
      | cons h1 _ => rw [h] at h1; cases h1
    | some d =>
      dsimp only
      constructor
      · intro h1
        cases h2 : parseDefs ss with
        | none => rw [h2] at h1; cases h1
        | some ds' =>
          rw [h2] at h1
          cases h1
          exact .cons h ((ih _).1 h2)
      · intro h1
        cases h1 with
        | cons h2 h3 =>
          rw [h] at h2
          cases h2
          rw [(ih _).2 h3]
          rfl

/-- **C80**: at the start of a run, and as long as nothing else is bound to the name, a variable has what the last definition of its name says,
under `NAME` and under `$NAME`; and it has that again after any history if nothing bound to it counts any more. -/
theorem C80_value (defs : List (Str × Def)) (varScope : Bool) (ops : List (CtxOp Cell)) (n : VName) (hn : ∀ s, n ≠ .pseudo s)
    (h : lastBound n (keptRun varScope [] ops) = none) :
    (CtxOp.run (start defs varScope) ops).get n = .ok ((defs.reverse.find? fun d => d.1 == n.sym.toList).map fun d => d.2.cell) := by
  unfold start
  rw [C14_history _ _ _ n hn, h]
  simp only [Option.orElse_none, Except.ok.injEq]
  unfold lastDefined
  rw [← List.map_reverse, List.find?_map]
  simp only [Option.map_map]
  have : ((fun x : VName × Cell => decide (x.1.sym = n.sym)) ∘ fun d : Str × Def => (VName.user (String.ofList d.1), d.2.cell)) =
      fun d => d.1 == n.sym.toList := by
    funext d
    show decide (String.ofList d.1 = n.sym) = (d.1 == n.sym.toList)
    generalize n.sym = t
    rw [Bool.eq_iff_iff]
    simp only [decide_eq_true_eq, beq_iff_eq]
    constructor
    · intro e; rw [← e]; simp
    · intro e; rw [e]; simp
  rw [this]
  rfl

/-- Every environment of a run in which matching binds values holds the definitions. -/
theorem holding_run (defs : List (Str × Def)) (varScope : Bool) (ops : List (CtxOp Cell))
    (hv : ∀ b ∈ keptRun varScope [] ops, ∃ v, b.2 = .val v) : Holding defs (CtxOp.run (start defs varScope) ops).bindings := by
  intro n hn
  cases h : lastBound n (keptRun varScope [] ops) with
  | none => exact .inr (C80_value defs varScope ops n hn h)
  | some c =>
    left
    have h1 : (CtxOp.run (start defs varScope) ops).get n = _ := C14_history _ varScope ops n hn
    rw [h] at h1
    obtain ⟨b, hb, rfl⟩ : ∃ b ∈ keptRun varScope [] ops, b.2 = c := by
      unfold lastBound at h
      obtain ⟨b, hb, rfl⟩ := Option.map_eq_some_iff.1 h
      exact ⟨b, by simpa using List.mem_of_find?_eq_some hb, rfl⟩
    obtain ⟨v, e⟩ := hv b hb
    exact ⟨v, by rw [← e]; exact h1⟩

example : parseDef "X=a=b c".toList = some ("X".toList, .str "a=b c".toList) := by decide +kernel
example : parseDef "X=".toList = some ("X".toList, .str []) := by decide +kernel
example : parseDef "=1".toList = none ∧ parseDef "X".toList = none ∧ parseDef "".toList = none ∧ parseDef "1X=2".toList = none ∧
    parseDef "X Y=2".toList = none := by decide +kernel

theorem forall₂_split {α β : Type} {R : α → β → Prop} {l2 : List α} : ∀ {l1 : List α} {l : List β}, List.Forall₂ R (l1 ++ l2) l →
    ∃ d1 d2, List.Forall₂ R l1 d1 ∧ List.Forall₂ R l2 d2 ∧ l = d1 ++ d2
  | [], l, h => ⟨[], l, .nil, h, rfl⟩
  | a :: l1, l, h => by
    cases h with
    | cons h1 h2 =>
      obtain ⟨d1, d2, e1, e2, rfl⟩ := forall₂_split h2
      exact ⟨_ :: d1, d2, .cons h1 e1, e2, rfl⟩

theorem forall₂_right {α β : Type} {R : α → β → Prop} : ∀ {l : List α} {l' : List β}, List.Forall₂ R l l' → ∀ b ∈ l', ∃ a ∈ l, R a b
  | _, _, .cons h1 h2, b, hb => by
    rcases List.mem_cons.1 hb with rfl | hb
    · exact ⟨_, List.mem_cons_self, h1⟩
    · obtain ⟨a, ha, hr⟩ := forall₂_right h2 b hb
      exact ⟨a, List.mem_cons_of_mem _ ha, hr⟩

/-- **C80**, from the words of a command line: if the last definition of a name is `NAME=TEXT`, then `NAME` and `$NAME` are that text at the start
of a run, and after any history if nothing bound to the name counts any more; and that text is what stands for the variable in a pattern. -/
theorem C80_last {before after : List Str} {x v : Str} {ds : List (Str × Def)} (hx : IsName x)
    (hlast : ∀ s ∈ after, ∀ d, parseDef s ≠ some (x, d)) (h : parseDefs (before ++ (x ++ '=' :: v) :: after) = some ds)
    (varScope : Bool) (ops : List (CtxOp Cell)) (n : VName) (hn : ∀ s, n ≠ .pseudo s) (hs : n.sym.toList = x)
    (hk : lastBound n (keptRun varScope [] ops) = none) :
    (CtxOp.run (start ds varScope) ops).get n = .ok (some (.val (.str v))) := by
  rw [C80_value ds varScope ops n hn hk, hs]
  have hf := (C80_all _ _).1 h
  obtain ⟨d1, d2, h1, h2, rfl⟩ : ∃ d1 d2, List.Forall₂ (fun s d => parseDef s = some d) before d1 ∧
      List.Forall₂ (fun s d => parseDef s = some d) ((x ++ '=' :: v) :: after) d2 ∧ ds = d1 ++ d2 :=
    forall₂_split hf
  cases h2 with
  | @cons _ d _ d2 hd h2 =>
    rw [(C80_text _ x v).2 ⟨hx, rfl⟩] at hd
    cases hd
    have hno : d2.reverse.find? (fun d => d.1 == x) = none := by
      rw [List.find?_eq_none]
      intro y hy hyx
      obtain ⟨s, hmem, hsy⟩ := forall₂_right h2 _ (List.mem_reverse.1 hy)
      obtain ⟨a, c⟩ := y
      simp only [beq_iff_eq] at hyx
      subst hyx
      exact hlast s hmem c hsy
    rw [List.reverse_append, List.reverse_cons, List.append_assoc, List.find?_append, hno, Option.none_or]
    simp [Def.cell]

/-- `A=1`, `B=2`, `A=x=y` and `#N=3` on a command line. -/
example : (start [("A".toList, .str "1".toList), ("B".toList, .str "2".toList), ("A".toList, .str "x=y".toList), ("N".toList, .num (.num 3))] false).get
    (.global "A") = .ok (some (.val (.str "x=y".toList))) :=
  C80_last (before := ["A=1".toList, "B=2".toList]) (after := ["#N=3".toList]) (x := "A".toList) (v := "x=y".toList)
    ((validName_iff _).1 (by decide +kernel)) (by
      intro s hs d
      simp only [List.mem_cons, List.not_mem_nil, or_false] at hs
      subst hs
      have : parseDef "#N=3".toList = some ("N".toList, .num (.num 3)) := by decide +kernel
      rw [this]
      intro h
      simp only [Option.some.injEq, Prod.mk.injEq] at h
      exact absurd h.1 (by decide)) (by decide +kernel) false [] _ (by intro s hs; cases hs) rfl rfl

/-- **C80**, what does not hold: a global variable cannot be defined by its name, although the reading of names knows its sigil
(`core/src/variables/mod.rs:108-134`): the name is refused before. -/
theorem C80_global_refuted (x v : Str) : parseDef ('$' :: x ++ '=' :: v) = none := by
  cases h : parseDef ('$' :: x ++ '=' :: v) with
  | none => rfl
  | some y =>
    exfalso
    obtain ⟨⟨k, w⟩, h2, -⟩ : ∃ a, textVar ('$' :: (x ++ '=' :: v)) = some a ∧ (a.1, Def.str a.2) = y := Option.map_eq_some_iff.1 h
    obtain ⟨⟨c, cs, rfl, h3, -⟩, h4⟩ := (textVar_iff _ _ _).1 h2
    simp only [List.cons_append, List.cons.injEq] at h4
    rw [← h4.1] at h3
    exact absurd ((nameStart_iff '$').2 h3) (by decide +kernel)

/-! ## C81: numbers -/

/-- **C81**: what is read as a numeric definition is exactly a text which begins with `#` and is the tokens of a numeric definition, with spaces
and tabs between them. The name and the expression are those of the definition. -/
theorem C81_numeric_partial (s x : Str) (e : Expr) :
    parseDef s = some (x, .num e) ↔ s.head? = some '#' ∧ ∃ ts, Written s ts ∧ IsDef ts x e := by
  unfold parseDef
  split
  · rename_i r
    simp only [List.head?_cons, true_and]
    constructor
    · intro h
      cases h1 : lex ('#' :: r).length ('#' :: r) with
      | none => rw [h1] at h; simp at h
      | some ts =>
        rw [h1, Option.bind_some] at h
        cases h2 : numericVar ts with
        | none => rw [h2] at h; simp at h
        | some y =>
          rw [h2] at h
          simp only [Option.map_some, Option.some.injEq, Prod.mk.injEq, Def.num.injEq] at h
          obtain ⟨rfl, rfl⟩ := h
          exact ⟨ts, (lex_iff _ _).1 h1, (numericVar_iff _ _ _).1 h2⟩
    · rintro ⟨ts, h1, h2⟩
      rw [(lex_iff _ _).2 h1, Option.bind_some, (numericVar_iff _ _ _).2 h2]
      rfl
  · rename_i hne
    constructor
    · intro h
      cases h1 : textVar s with
      | none => rw [h1] at h; simp at h
      | some y => rw [h1] at h; simp at h
    · rintro ⟨h, -⟩
      cases s with
      | nil => simp at h
      | cons c r =>
        simp only [List.head?_cons, Option.some.injEq] at h
        subst h
        exact absurd rfl (hne r)

/-- **C81**: a text is read in one way only. -/
theorem C81_unique (s : Str) (ts us : List Tok) (h : Written s ts) (h' : Written s us) : ts = us := by
  have h1 := (lex_iff s ts).2 h
  have h2 := (lex_iff s us).2 h'
  rw [h1] at h2
  exact Option.some.inj h2

example : parseDef "#X = add(Y, 2) - 1".toList =
    some ("X".toList, .num (.bin .sub (.bin .add (.var (.user "Y".toList)) (.num 2)) (.num 1))) := by decide +kernel
example : parseDef "#%.8X,X=-5".toList = some ("X".toList, .num (.num (-5))) := by decide +kernel

/-- **C81**, what does not hold: blanks around an operator change whether a definition is accepted. `5-3` is the number 5 followed by the number
-3, and is refused; `5 - 3` is accepted. -/
theorem C81_blanks_refuted : parseDef "#X=5-3".toList = none ∧ parseDef "#X=5 -3".toList = none ∧
    parseDef "#X=5 - 3".toList = some ("X".toList, .num (.bin .sub (.num 5) (.num 3))) := by decide +kernel

/-- **C81**, what does not hold: the format which a definition asks for is forgotten. `#%x,X=255` defines the same as `#X=255`, and the variable
stands for `255`, not for `ff`. -/
theorem C81_format_refuted : parseDef "#%x,X=255".toList = parseDef "#X=255".toList ∧
    ∃ d, parseDef "#%x,X=255".toList = some d ∧
      (eval false 1 1 (start [d] false).bindings (some (.number none)) 2 false (.var (.user "X".toList))) =
        some (.yes (.num 255 none)) ∧ substText (.num 255 none) (some (.number none)) = "255".toList :=
  ⟨by decide +kernel, ("X".toList, .num (.num 255)), by decide +kernel, by decide +kernel, by decide +kernel⟩

/-! ## C82: the value of a defined variable -/

section
variable {line dline : Nat} {env : Bindings Cell} {ty : Option Ty} {d : Bool} {e : Expr} {v : Int} {g : Option NumFmt}

/-- **C82**: an expression, whose variables may be defined by expressions, is evaluated to the value of the specification, in which a definition
is evaluated whenever its variable is read. -/
theorem C82_value_iff : (∃ k, eval false line dline env ty k d e = some (.yes (.num v g))) ↔ CellValue line dline env (explicitFormat ty) d e v g :=
  ⟨fun ⟨_, h⟩ => eval_sound _ h, eval_complete⟩

end

/-- Where the first definition of a name is. -/
def place (ds : List (Str × Def)) (x : Str) : Nat := (ds.map Prod.fst).idxOf x

theorem ordered_place : ∀ (ds : List (Str × Def)), Ordered ds → ∀ x e, (x, .num e) ∈ ds → ∀ v ∈ varsOf e, nameOf v ∈ ds.map Prod.fst →
    place ds (nameOf v) < place ds x
  | [], _, x, e, h, _, _, _ => by simp at h
  | d :: ds, h, x, e, hm, v, hv, hd => by
    obtain ⟨h1, h2, h3⟩ := h
    rcases List.mem_cons.1 hm with rfl | hm
    · exact absurd hd (h2 e rfl v hv)
    · have hx : d.1 ≠ x := by
        rintro rfl
        exact h1 (List.mem_map.2 ⟨_, hm, rfl⟩)
      unfold place
      rw [List.map_cons, List.idxOf_cons_ne _ hx]
      by_cases hn : d.1 = nameOf v
      · rw [hn, List.idxOf_cons_self]; omega
      · rw [List.idxOf_cons_ne _ hn]
        have hd' : nameOf v ∈ ds.map Prod.fst := by
          rw [List.map_cons] at hd
          rcases List.mem_cons.1 hd with e | hd
          · exact absurd e.symm hn
          · exact hd
        have := ordered_place ds h3 x e hm v hv hd'
        unfold place at this
        omega

theorem toList_sym {v : VarName} : (keyOf v).sym.toList = nameOf v := by
  cases v <;> simp [keyOf, VName.sym, nameOf]

/-- **C82**: if names are defined once, and an expression names only variables which are defined before it or not at all, then the evaluation of
every expression ends, in every environment of a run. -/
theorem C82_ends_partial (defs : List (Str × Def)) (h : Ordered defs) (env : Bindings Cell) (hh : Holding defs env)
    (ck : Bool) (line dline : Nat) (ty : Option Ty) (d : Bool) (e : Expr) : ∃ k, eval ck line dline env ty k d e ≠ none := by
  have find : ∀ x e', env.get (keyOf x) = .ok (some (.expr e')) → (nameOf x, .num e') ∈ defs := by
    intro x e' hx
    have hp : ∀ s, keyOf x ≠ .pseudo s := by
      intro s hs
      rw [hs] at hx
      simp [Bindings.get] at hx
    rcases hh _ hp with ⟨v, hv⟩ | hf
    · rw [hv] at hx; simp at hx
    · rw [hf] at hx
      simp only [Except.ok.injEq, Option.map_eq_some_iff] at hx
      obtain ⟨⟨n, dd⟩, h1, h2⟩ := hx
      have hm := List.mem_of_find?_eq_some h1
      have hn := List.find?_some h1
      simp only [beq_iff_eq] at hn
      rw [toList_sym] at hn
      cases dd with
      | str s => simp [Def.cell] at h2
      | num e2 =>
        simp only [Def.cell, Cell.expr.injEq] at h2
        rw [← hn, ← h2]
        simpa using hm
  refine ends_ranked (fun n => place defs n.sym.toList) ?_ d e
  intro x e1 hx y hy e2 hy2
  rw [toList_sym, toList_sym]
  refine ordered_place defs h _ _ (find x e1 hx) y hy ?_
  exact List.mem_map.2 ⟨_, find y e2 hy2, rfl⟩

/-- **C82**: a variable defined by a constant expression stands in every pattern for what the number stands for: the text of every expression is the
same as if the variable had been bound to the number, on every line and for every format asked for. -/
theorem C82_constant (env : Bindings Cell) (vars : Vars) (h : Evaluated env vars) (ck : Bool) (line dline : Nat) (ty : Option Ty) (e : Expr) :
    ∃ k x, eval ck line dline env ty k false e = some x ∧
      x.bind (fun r => .yes (substText r ty)) = (evalExpr ck line vars ty e).bind fun r => .yes (substText r ty) := by
  obtain ⟨k, x, h1, h2⟩ := constants_agree (ck := ck) (line := line) (dline := dline) (ty := ty) h e
  refine ⟨k, x, h1, ?_⟩
  rcases h2 with rfl | ⟨v, f, f', ha, rfl, e2⟩
  · rfl
  · rw [e2]
    simp only [Smart.Step.bind, Smart.Step.yes.injEq]
    unfold explicitFormat at ha
    split at ha
    · rename_i fo
      cases fo with
      | none => exact absurd rfl ha
      | some ff => rfl
    · exact absurd rfl ha

/-- Two definitions of which the second needs the first. -/
def exDefs : List (Str × Def) :=
  [("W".toList, .num (.bin .mul (.num 4) (.num 2))), ("N".toList, .num (.bin .add (.var (.user "W".toList)) (.var (.user "C".toList)))),
   ("S".toList, .str "txt".toList)]

theorem exDefs_read : parseDefs ["#W=mul(4,2)".toList, "#N=W+C".toList, "S=txt".toList] = some exDefs := by decide +kernel

theorem exDefs_ordered : Ordered exDefs := by
  simp only [exDefs, Ordered, List.map_cons, List.map_nil, List.not_mem_nil, not_false_eq_true, and_true, true_and]
  refine ⟨by decide +kernel, ?_, by decide +kernel, ?_, ?_⟩
  · intro e he v hv; cases he; simp [varsOf] at hv
  · intro e he v hv
    cases he
    simp only [varsOf, List.cons_append, List.nil_append, List.mem_cons, List.not_mem_nil, or_false] at hv
    rcases hv with rfl | rfl <;> decide
  · intro e he; cases he

/-- `C` has been captured as the number 5. -/
def exCells : Bindings Cell := (CtxOp.run (start exDefs false) [.bind (.user "C") (.val (.num 5 none))]).bindings

theorem exCells_holding : Holding exDefs exCells :=
  holding_run _ _ _ (by intro b hb; simp [keptRun] at hb; exact ⟨_, by rw [hb]⟩)

example : ∃ k, eval true 1 1 exCells none k false (.var (.user "N".toList)) ≠ none :=
  C82_ends_partial exDefs exDefs_ordered exCells exCells_holding _ _ _ _ _ _
example : eval true 1 1 exCells none 5 false (.var (.user "N".toList)) = some (.yes (.num 13 none)) := by decide +kernel
example : eval true 1 1 exCells none 2 false (.var (.user "S".toList)) = some (.yes (.str "txt".toList)) := by decide +kernel

/-- The variables of `#W=mul(4,2)`, evaluated. -/
example : Evaluated (start [("W".toList, .num (.bin .mul (.num 4) (.num 2)))] false).bindings
    (Bindings.newWithSystem fun s => if s = "W" then some (.num 8 none) else none) := by
  intro n hn
  by_cases hw : n.sym = "W"
  · refine .inr (.inr ⟨_, 8, .bin (.num 4) (.num 2) (op := .mul) (z := 8) (by rfl) ⟨by decide +kernel, by decide +kernel⟩, ?_, ?_⟩)
    · cases n with
      | pseudo s => exact absurd rfl (hn s)
      | user s => cases hw; rfl
      | global s => cases hw; rfl
    · cases n with
      | pseudo s => exact absurd rfl (hn s)
      | user s => cases hw; rfl
      | global s => cases hw; rfl
  · refine .inr (.inl ⟨?_, ?_⟩)
    · cases n with
      | pseudo s => exact absurd rfl (hn s)
      | user s => simp [VName.sym] at hw; simp [start, Env.fromConfig, Bindings.newWithSystem, Bindings.empty, Bindings.get, Map.insert, VName.sym, hw]
      | global s => simp [VName.sym] at hw; simp [start, Env.fromConfig, Bindings.newWithSystem, Bindings.empty, Bindings.get, Map.insert, VName.sym, hw]
    · cases n with
      | pseudo s => exact absurd rfl (hn s)
      | user s => simp [VName.sym] at hw; simp [Bindings.newWithSystem, Bindings.empty, Bindings.get, hw]
      | global s => simp [VName.sym] at hw; simp [Bindings.newWithSystem, Bindings.empty, Bindings.get, hw]

/-- **C82**, what does not hold: evaluation ends. With `-D '#X=X+1'`, which is accepted, the evaluation of `X` never ends: no depth of recursion
suffices, on any line and in any build. -/
theorem C82_ends_refuted (ck : Bool) (line dline : Nat) (ty : Option Ty) : ∃ d, parseDef "#X=X+1".toList = some d ∧
    ∀ k, eval ck line dline (start [d] false).bindings ty k false (.var (.user "X".toList)) = none := by
  refine ⟨("X".toList, .num (.bin .add (.var (.user "X".toList)) (.num 1))), by decide +kernel, ?_⟩
  have main : ∀ k, (∀ b, eval ck line dline (start [("X".toList, .num (.bin .add (.var (.user "X".toList)) (.num 1)))] false).bindings ty k b
      (.var (.user "X".toList)) = none) ∧ eval ck line dline (start [("X".toList, .num (.bin .add (.var (.user "X".toList)) (.num 1)))] false).bindings ty k true
      (.bin .add (.var (.user "X".toList)) (.num 1)) = none := by
    intro k
    induction k with
    | zero => exact ⟨fun _ => rfl, rfl⟩
    | succ k ih =>
      refine ⟨fun b => ?_, ?_⟩
      · rw [eval_var (by simp)]
        exact ih.2
      · simp only [eval]
        rw [ih.1 true]
  exact fun k => (main k).1 false

/-- **C82**, what does not hold: a variable without a value is reported. With `-D '#X=Y'` and `Y` undefined, reading `X` panics, because
the report quotes the file of the expression, and a definition is in no file. -/
theorem C82_undefined_refuted : ∃ d, parseDef "#X=Y".toList = some d ∧
    eval false 1 1 (start [d] false).bindings none 2 false (.var (.user "X".toList)) = some (.panic .unwrapNone) ∧
    eval false 1 1 (start [d] false).bindings none 2 false (.var (.user "Y".toList)) = some .err :=
  ⟨("X".toList, .num (.var (.user "Y".toList))), by decide +kernel, by decide +kernel, by decide +kernel⟩

/-- **C82**, what does not hold: a defined variable keeps its value. `-D '#X=Y+1'` is evaluated when `X` is read, so that binding `Y` changes
`X`. -/
theorem C82_constant_refuted : ∃ d, parseDef "#X=Y+1".toList = some d ∧
    eval false 1 1 (CtxOp.run (start [d] false) [.bind (.user "Y") (.val (.num 1 none))]).bindings none 3 false (.var (.user "X".toList)) =
      some (.yes (.num 2 none)) ∧
    eval false 1 1 (CtxOp.run (start [d] false) [.bind (.user "Y") (.val (.num 7 none))]).bindings none 3 false (.var (.user "X".toList)) =
      some (.yes (.num 8 none)) :=
  ⟨("X".toList, .num (.bin .add (.var (.user "Y".toList)) (.num 1))), by decide +kernel, by decide +kernel, by decide +kernel⟩

end Litcheck
