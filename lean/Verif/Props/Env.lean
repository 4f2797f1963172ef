import Verif.Spec.Env

/-!
# Properties C14 and C15
-/

namespace Litcheck
open Spec
variable {V : Type}

/-! ## Lookups in lists of bindings -/

theorem lastBound_append (n : VName) (xs ys : List (VName × V)) :
    lastBound n (xs ++ ys) = (lastBound n ys).orElse fun _ => lastBound n xs := by
  unfold lastBound
  rw [List.reverse_append, List.find?_append]
  cases List.find? (fun x => decide (x.1 = n)) ys.reverse <;> simp

theorem lastBound_single (n m : VName) (v : V) : lastBound n [(m, v)] = if m = n then some v else none := by
  unfold lastBound
  by_cases h : m = n <;> simp [h]

theorem lastBound_nil (n : VName) : lastBound n ([] : List (VName × V)) = none := rfl

theorem lastBound_globals_global (s : String) (xs : List (VName × V)) :
    lastBound (.global s) (globals xs) = lastBound (.global s) xs := by
  induction xs with
  | nil => rfl
  | cons x xs ih =>
    have h1 : x :: xs = [x] ++ xs := rfl
    have h2 : globals (x :: xs) = globals [x] ++ globals xs := by
      unfold globals; rw [h1, List.filter_append]
    rw [h2, h1, lastBound_append, lastBound_append, ih]
    congr 1
    funext _
    obtain ⟨n, v⟩ := x
    cases n <;> simp [globals, VName.sym, lastBound_single, lastBound_nil]

theorem lastBound_globals_user (s : String) (xs : List (VName × V)) :
    lastBound (.user s) (globals xs) = none := by
  unfold lastBound globals
  rw [← List.filter_reverse]
  simp
  intro n v _ hn
  rw [hn]; simp

theorem orElse_assoc (a b c : Option V) :
    (a.orElse fun _ => b.orElse fun _ => c) = (a.orElse fun _ => b).orElse fun _ => c := by
  cases a <;> rfl

/-- A guard (or environment) `g` holds the bindings `ks` on top of what `b` says, where local variables of `b` may
have been cleared. -/
def Over (b g : Bindings V) (ks : List (VName × V)) : Prop :=
  g.system = b.system ∧
  (∀ s, g.global s = (lastBound (.global s) ks).orElse fun _ => b.global s) ∧
  ∃ base : Map String V, (base = (fun s => b.bound (.user s)) ∨ base = fun _ => none) ∧
    ∀ s, g.bound (.user s) = (lastBound (.user s) ks).orElse fun _ => base s

theorem Over.refl (b : Bindings V) : Over b b [] :=
  ⟨rfl, fun _ => rfl, _, .inl rfl, fun _ => rfl⟩

theorem Over.insert {b g : Bindings V} {ks} (h : Over b g ks) (n : VName) (v : V) :
    Over b (g.insert n v) (ks ++ [(n, v)]) := by
  obtain ⟨h1, h2, base, hb, h3⟩ := h
  refine ⟨?_, ?_, base, hb, ?_⟩
  · cases n <;> exact h1
  · intro s
    rw [lastBound_append, lastBound_single, ← orElse_assoc, ← h2]
    cases n with
    | pseudo s' => simp [Bindings.insert]
    | user s' => simp [Bindings.insert]
    | global s' =>
      simp only [Bindings.insert, Map.insert, VName.global.injEq]
      by_cases e : s = s'
      · subst e; simp
      · have e' : ¬ s' = s := fun h => e h.symm
        simp [e, e']
  · intro s
    rw [lastBound_append, lastBound_single, ← orElse_assoc, ← h3]
    cases n with
    | global s' => simp [Bindings.insert]
    | pseudo s' => simp [Bindings.insert, Map.insert]
    | user s' =>
      simp only [Bindings.insert, Map.insert, VName.user.injEq]
      by_cases e : s = s'
      · subst e; simp
      · have e' : ¬ s' = s := fun h => e h.symm
        simp [e, e']

theorem Over.clear {b g : Bindings V} {ks} (h : Over b g ks) : Over b g.clear (globals ks) := by
  obtain ⟨h1, h2, base, hb, h3⟩ := h
  refine ⟨h1, ?_, fun _ => none, .inr rfl, ?_⟩
  · intro s; rw [lastBound_globals_global]; exact h2 s
  · intro s; rw [lastBound_globals_user]; rfl

theorem Over.merge {b g k : Bindings V} {ks ks'} (h : Over b g ks) (h' : Over g k ks') :
    Over b (g.merge k) (ks ++ ks') := by
  obtain ⟨h1, h2, base, hb, h3⟩ := h
  obtain ⟨h1', h2', base', hb', h3'⟩ := h'
  refine ⟨h1, ?_, base, hb, ?_⟩
  · intro s
    rw [lastBound_append, ← orElse_assoc, ← h2]
    show ((k.global s).orElse fun _ => g.global s) = _
    rw [h2']
    cases lastBound (.global s) ks' <;> simp
  · intro s
    rw [lastBound_append, ← orElse_assoc, ← h3]
    show ((k.bound (.user s)).orElse fun _ => g.bound (.user s)) = _
    rw [h3']
    cases lastBound (.user s) ks' with
    | some v => rfl
    | none =>
      rcases hb' with e | e <;> subst e <;> simp

mutual
theorem Over.onGuard {b g : Bindings V} {ks} (vs : Bool) (h : Over b g ks) :
    (op : EnvOp V) → Over b (EnvOp.onGuard vs g op) (keptOp vs ks op)
  | .bind n v => by simpa [EnvOp.onGuard, keptOp] using h.insert n v
  | .clear => by
    cases vs
    · simpa [EnvOp.onGuard, keptOp] using h
    · simpa [EnvOp.onGuard, keptOp] using h.clear
  | .scope body save => by
    have hk := Over.onGuards vs (Over.refl g) body
    cases save
    · simpa [EnvOp.onGuard, keptOp] using h
    · simpa [EnvOp.onGuard, keptOp] using h.merge hk

theorem Over.onGuards {b g : Bindings V} {ks} (vs : Bool) (h : Over b g ks) :
    (ops : List (EnvOp V)) → Over b (EnvOp.onGuards vs g ops) (keptOps vs ks ops)
  | [] => by simpa [EnvOp.onGuards, keptOps] using h
  | op :: ops => by
    simp only [EnvOp.onGuards, keptOps]
    exact Over.onGuards vs (Over.onGuard vs h op) ops
end

/-! ## C14 -/

/-- **C14**: a scope which is dropped leaves the environment exactly as it was. -/
theorem C14_drop (e : Env V) (body : List (EnvOp V)) : e.step (.scope body false) = e := rfl

/-- **C14**: after a scope was saved, a variable has the value the scope bound to it last (bindings of dropped
scopes nested in it do not count), and otherwise the value it had before. -/
theorem C14_save (e : Env V) (body : List (EnvOp V)) (n : VName) (hn : ∀ s, n ≠ .pseudo s) :
    (e.step (.scope body true)).get n =
      match lastBound n (keptOps e.varScope [] body) with
      | some v => .ok (some v)
      | none => e.get n := by
  have h := (Over.refl e.bindings).merge (Over.onGuards e.varScope (Over.refl e.bindings) body)
  obtain ⟨h1, h2, -⟩ := h
  obtain ⟨h1', h2', base, hb, h3⟩ := Over.onGuards e.varScope (Over.refl e.bindings) body
  cases n with
  | pseudo s => exact absurd rfl (hn s)
  | global s =>
    simp only [Env.get, Env.step, if_true, Bindings.get, h1, h2, List.nil_append]
    cases lastBound (.global s) (keptOps e.varScope [] body) <;> simp
  | user s =>
    simp only [Env.get, Env.step, if_true, Bindings.get, Bindings.merge, Map.union, h3]
    cases lastBound (.user s) (keptOps e.varScope [] body) with
    | some v => simp
    | none => rcases hb with e' | e' <;> subst e' <;> simp

theorem lastDefined_foldl (s : String) (vars : List (VName × V)) (m : Map String V) :
    (vars.foldl (fun m x => Map.insert m x.1.sym x.2) m) s = (lastDefined s vars).orElse fun _ => m s := by
  induction vars generalizing m with
  | nil => rfl
  | cons x xs ih =>
    rw [List.foldl_cons, ih]
    unfold lastDefined
    rw [List.reverse_cons, List.find?_append]
    cases List.find? (fun x => decide (x.1.sym = s)) xs.reverse with
    | some y => rfl
    | none =>
      by_cases e : x.1.sym = s
      · simp [Map.insert, e]
      · have e' : ¬ s = x.1.sym := fun h => e h.symm
        simp [Map.insert, e, e']

/-- The environment holds exactly the bindings `ks` on top of the command line `vars`. -/
def Holds (e : Env V) (vars ks : List (VName × V)) : Prop :=
  (∀ s, e.bindings.system s = lastDefined s vars) ∧
  (∀ s, e.bindings.global s = lastBound (.global s) ks) ∧
  ∀ s, e.bindings.bound (.user s) = lastBound (.user s) ks

theorem Holds.over {e : Env V} {vars ks ks' : List (VName × V)} {b : Bindings V} (h : Holds e vars ks)
    (h' : Over e.bindings b ks') (hb : ∀ s, b.bound (.user s) = lastBound (.user s) (ks ++ ks')) :
    Holds { e with bindings := b } vars (ks ++ ks') := by
  refine ⟨fun s => ?_, fun s => ?_, hb⟩
  · rw [← h.1]; exact congrFun h'.1 s
  · show b.global s = _
    rw [h'.2.1, h.2.1, lastBound_append]

theorem CtxOp.run_holds (ops : List (CtxOp V)) : ∀ (e : Env V) (vars ks : List (VName × V)),
    Holds e vars ks → Holds (CtxOp.run e ops) vars (keptRun e.varScope ks ops) ∧ (CtxOp.run e ops).varScope = e.varScope := by
  induction ops with
  | nil => intro e vars ks h; exact ⟨h, rfl⟩
  | cons op ops ih =>
    intro e vars ks h
    cases op with
    | bind n v =>
      have h1 : Holds (e.step (.bind n v)) vars (ks ++ [(n, v)]) := by
        refine h.over ((Over.refl _).insert n v) fun s => ?_
        rw [lastBound_append, lastBound_single, ← h.2.2]
        cases n with
        | global s' => simp [Bindings.insert]
        | pseudo s' => simp [Bindings.insert, Map.insert]
        | user s' =>
          simp only [Bindings.insert, Map.insert, VName.user.injEq]
          by_cases e : s = s'
          · subst e; simp
          · have e' : ¬ s' = s := fun h => e h.symm
            simp [e, e']
      exact ih _ vars _ h1
    | scope body save =>
      cases save with
      | false => exact ih e vars ks h
      | true =>
        have hk := Over.onGuards e.varScope (Over.refl e.bindings) body
        have hm := (Over.refl e.bindings).merge hk
        have h1 : Holds (e.step (.scope body true)) vars (ks ++ keptOps e.varScope [] body) := by
          refine h.over hm fun s => ?_
          obtain ⟨-, -, base, hb, h3⟩ := hk
          rw [lastBound_append, ← h.2.2]
          show ((EnvOp.onGuards e.varScope e.bindings body).bound (.user s)).orElse _ = _
          rw [h3]
          cases lastBound (.user s) (keptOps e.varScope [] body) with
          | some v => rfl
          | none => rcases hb with e' | e' <;> subst e' <;> simp
        exact ih _ vars _ h1
    | enterBlock =>
      cases hv : e.varScope with
      | false =>
        have h1 : CtxOp.apply e .enterBlock = e := by simp [CtxOp.apply, Env.enterBlock, hv]
        have := ih e vars ks h
        rw [hv] at this
        simpa [CtxOp.run, List.foldl_cons, h1, keptRun] using this
      | true =>
        have h1 : CtxOp.apply e .enterBlock = { e with bindings := e.bindings.clear } := by
          simp [CtxOp.apply, Env.enterBlock, hv]
        have h2 : Holds { e with bindings := e.bindings.clear } vars (globals ks) := by
          refine ⟨h.1, fun s => ?_, fun s => ?_⟩
          · rw [lastBound_globals_global]; exact h.2.1 s
          · rw [lastBound_globals_user]; rfl
        have := ih _ vars _ h2
        simp only [hv] at this
        simpa [CtxOp.run, List.foldl_cons, h1, keptRun, hv] using this

/-- **C14** and **C15** for whole runs: after any history of bindings, nested scopes (saved or dropped) and block
entries, a variable has the last value bound to it which counts, otherwise the value given on the command line. -/
theorem C14_history (vars : List (VName × V)) (varScope : Bool) (ops : List (CtxOp V)) (n : VName)
    (hn : ∀ s, n ≠ .pseudo s) :
    (CtxOp.run (Env.fromConfig vars varScope) ops).get n =
      .ok ((lastBound n (keptRun varScope [] ops)).orElse fun _ => lastDefined n.sym vars) := by
  have h0 : Holds (Env.fromConfig vars varScope) vars [] := by
    refine ⟨fun s => ?_, fun s => rfl, fun s => rfl⟩
    show (vars.foldl (fun m x => Map.insert m x.1.sym x.2) fun _ => none) s = _
    rw [lastDefined_foldl]; simp
  obtain ⟨⟨h1, h2, h3⟩, -⟩ := CtxOp.run_holds ops _ vars [] h0
  cases n with
  | pseudo s => exact absurd rfl (hn s)
  | global s => simp only [Env.get, Bindings.get, h1, h2, VName.sym]; rfl
  | user s => simp only [Env.get, Bindings.get, h1, h3, VName.sym]; rfl

/-! ## C15 -/

/-- **C15**: entering a block without `--enable-var-scope` changes nothing. -/
theorem C15_off (e : Env V) (h : e.varScope = false) : e.enterBlock = e := by
  simp [Env.enterBlock, h]

/-- **C15**: right after entering a block with `--enable-var-scope`, whatever happened before, a local variable
has no value except the one of the command line; a global variable has the value it had. -/
theorem C15_on (vars : List (VName × V)) (ops : List (CtxOp V)) (s : String) :
    (CtxOp.run (Env.fromConfig vars true) ops).enterBlock.get (.user s) = .ok (lastDefined s vars) ∧
    (CtxOp.run (Env.fromConfig vars true) ops).enterBlock.get (.global s) =
      (CtxOp.run (Env.fromConfig vars true) ops).get (.global s) := by
  have h0 : Holds (Env.fromConfig vars true) vars [] := by
    refine ⟨fun s => ?_, fun s => rfl, fun s => rfl⟩
    show (vars.foldl (fun m x => Map.insert m x.1.sym x.2) fun _ => none) s = _
    rw [lastDefined_foldl]; simp
  obtain ⟨⟨h1, h2, h3⟩, hv⟩ := CtxOp.run_holds ops _ vars [] h0
  have hv' : (CtxOp.run (Env.fromConfig vars true) ops).varScope = true := hv
  simp only [Env.enterBlock, hv', if_true, Env.get, Bindings.get, Bindings.clear, h1]
  exact ⟨rfl, trivial⟩

/-! ## Witnesses -/

/-- A history with nested scopes: `X` is bound, rebound in a dropped scope, and rebound in a saved scope whose
nested scope was dropped; `$G` is bound in a saved scope. -/
def exHistory : List (CtxOp Nat) :=
  [.bind (.user "X") 1, .scope [.bind (.user "X") 2] false,
   .scope [.bind (.user "X") 3, .scope [.bind (.user "X") 4] false, .bind (.global "G") 5] true]

example : (CtxOp.run (Env.fromConfig [(.user "D", 9), (.user "X", 8)] true) exHistory).get (.user "X") = .ok (some 3) := by
  rw [C14_history _ _ _ _ (by intro s; simp)]; rfl
example : (CtxOp.run (Env.fromConfig [(.user "D", 9), (.user "X", 8)] true) (exHistory ++ [.enterBlock])).get (.user "X") = .ok (some 8) := rfl
example : (CtxOp.run (Env.fromConfig [(.user "D", 9)] true) (exHistory ++ [.enterBlock])).get (.global "G") = .ok (some 5) := rfl
example : (CtxOp.run (Env.fromConfig [(.user "D", 9)] false) (exHistory ++ [.enterBlock])).get (.user "X") = .ok (some 3) := rfl
/-- Clearing a scope does not remove the variables of its parent, even if the scope is saved. -/
example : (CtxOp.run (Env.fromConfig [] true) [.bind (.user "X") 1, .scope [.clear] true]).get (.user "X") = .ok (some 1) := rfl

end Litcheck
