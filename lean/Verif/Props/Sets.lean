import Verif.Props.CheckText
import Verif.Proofs.SetsTotal

/-!
# Properties C76 – C78: groups of `CHECK-NOT` and `CHECK-DAG` lines, with regular expressions and variables

The meaning of a pattern is the one of `Verif/Spec/Pattern.lean`; `AllAbsent` and `DagMatch` are those of `Verif/Spec/Check.lean`.
`ls` are the patterns of a group with the numbers of their lines, `set` is what they are compiled to, `r` the range of the input between
the matches before and after the group.
-/

namespace Litcheck.Sets
open Litcheck.Smart Litcheck.Spec Litcheck.PatternSpec Litcheck.Pattern
open Litcheck.Regex (engine utf8)
open Litcheck.Lex (CPat CLine)

/-! ## C76 -/

/-- **C76**: a group of `CHECK-NOT` lines whose patterns use no variable: the group is violated if and only if one of the patterns matches
somewhere in the range, and then the match reported is a match of the pattern of the line reported.
Missing (hence partial): groups which are not a `StaticGroup` (see the counterexamples below), and runs which end in a diagnostic. -/
theorem C76_nots_partial {o : Opts} {ls : List (CPat × Nat)} {set : MatchSet} (hg : StaticGroup o (ls.map Prod.fst))
    (h : compileSet o ls = .ok (some set)) {cx : Nat → PatternSpec.Ctx} (hcx : CtxOf o cx) (cfs : Nat → Conf engine)
    {b : Buf} {r : Rng} {env env' : Vars} {m : MatchResult} (hr : r.start ≤ r.stop)
    (hrun : (anyPat o.ignoreCase cfs set).run b r env = (some m, env')) :
    (m.isOk = false ↔ AllAbsent (ls.map fun y => meaning (cx y.2) y.1) b r.start r.stop) ∧
    (m.isOk = false → env' = env) ∧
    (m.isOk = true → ∃ i, m.info = some i ∧ r.start ≤ i.start ∧ i.start ≤ i.stop ∧ i.stop ≤ r.stop ∧
      ∃ y ∈ ls, i.pspan = y.2 ∧ meaning (cx y.2) y.1 env b i.start i.stop env') := by
  refine ⟨⟨fun hok => (nots_complete hg h hcx cfs b r env m env' hrun hok).2, ?_⟩,
    fun hok => (nots_complete hg h hcx cfs b r env m env' hrun hok).1, fun hok => nots_sound hg h hcx cfs hr hrun hok⟩
  intro hall
  rw [Bool.eq_false_iff]
  intro hok
  obtain ⟨i, _, h1, h2, h3, y, hy, _, h5⟩ := nots_sound hg h hcx cfs hr hrun hok
  exact hall _ (List.mem_map_of_mem hy) _ _ h1 h2 h3 _ _ h5

/-- A group of a literal, a regular expression, and a regular expression with a capture. -/
def exNots : List (CPat × Nat) := [(.literal "bad".toList, 3), (.regex "wor?se".toList, 4), (.match_ [.literal "x=".toList, .match_ (.substitution (.user "V".toList) (some "[0-9]+".toList))], 5)]

example : StaticGroup ⟨false, false⟩ (exNots.map Prod.fst) := staticGroupB_sound (by decide +kernel)

/-- What the group says of an input: the number of the line whose pattern is found. -/
def notsLine (ls : List (CPat × Nat)) (input : String) : Option (Option Nat) :=
  match compileSet ⟨false, false⟩ ls with
  | .ok (some set) =>
    match (anyPat false exRun.conf set).run (utf8 input.toList) ⟨0, (utf8 input.toList).length⟩ Bindings.empty with
    | (some ⟨.found, some i⟩, _) => some (some i.pspan)
    | (some _, _) => some none
    | _ => none
  | _ => none

example : notsLine exNots "good x=a better" = some none := by decide +kernel
example : notsLine exNots "good x=17 better" = some (some 5) := by decide +kernel
example : notsLine exNots "good wose" = some (some 4) := by decide +kernel
example : CtxOf ⟨false, false⟩ exRun.ctx := run_ctx exRun

/-- The text of a check file fails or passes. -/
abbrev passes (text input : String) : Prop := TextPasses exRun [] exCfg false text.toList Bindings.empty (utf8 input.toList)

/-- C76 is false of groups with a literal and a regular expression of the same text: the second one is lost. -/
theorem C76_same_text_refuted :
    passes "CHECK: X\nCHECK-NOT: a.c\nCHECK-NOT: {{a.c}}\n" "X=b abc " ∧ ¬ passes "CHECK: X\nCHECK-NOT: {{a.c}}\n" "X=b abc " :=
  ⟨textPasses_of (by decide +kernel), not_textPasses_of (by decide +kernel)⟩

/-- C76 is false of patterns which capture a number: a number which does not fit in 128 bits is not seen. -/
theorem C76_number_refuted :
    passes "CHECK: X\nCHECK-NOT: v[[#N:]] w\n" "X=b v340282366920938463463374607431768211456 w " ∧
    ¬ passes "CHECK: X\nCHECK-NOT: v[[#N:]] w\n" "X=b v34 w " :=
  ⟨textPasses_of (by decide +kernel), not_textPasses_of (by decide +kernel)⟩

/-- C76 is false of patterns which use variables: after the first occurrence of the text before the variable, the search goes on at its end. -/
theorem C76_variable_refuted :
    passes "CHECK: X=[[X:[a-z]]]\nCHECK-NOT: aa[[X]]\n" "X=b aaab " ∧ ¬ passes "CHECK: X=[[X:[a-z]]]\nCHECK-NOT: aa[[X]]\n" "X=b aab " :=
  ⟨textPasses_of (by decide +kernel), not_textPasses_of (by decide +kernel)⟩

/-! ## C77 -/

/-- **C77**: a group of `CHECK-DAG` lines passes only if there are non-overlapping matches of all of the patterns, in any order, and
matching goes on at the end of the last one, with what the patterns captured, in the order of their places in the input (`DagThreaded`).
Missing (hence partial): groups which are neither distinct literals nor an `RxGroup` (see the counterexamples below). -/
theorem C77_dags_partial {o : Opts} {ls : List (CPat × Nat)} {set : MatchSet} (hg : DagGroup o (ls.map Prod.fst)) (hne : ls ≠ [])
    (h : compileSet o ls = .ok (some set)) {cx : Nat → PatternSpec.Ctx} (hcx : CtxOf o cx) (cfs : Nat → Conf engine) (vs : Bool)
    {b : Buf} {r : Rng} {env env' : Vars} {ms : Matches} {pos : Option Nat}
    (hrun : (setDag o.ignoreCase cfs vs set).run b r env = some (ms, pos, env')) (hok : Matches.isOk ms = true) :
    ∃ s e, Matches.range ms = .ok (some ⟨s, e⟩) ∧ pos = some e ∧ r.start ≤ s ∧ s ≤ e ∧ e ≤ r.stop ∧
      DagThreaded (ls.map fun y => meaning (cx y.2) y.1) b r.stop r.start s e env env' :=
  dagGroup_sound hg hne h hcx o.ignoreCase cfs vs rfl b r env ms pos env' hrun hok

/-- … so the variables are as they were if the patterns mention none. -/
theorem C77_dags_keep_partial {o : Opts} {ls : List (CPat × Nat)} {set : MatchSet} (hg : DagGroup o (ls.map Prod.fst)) (hne : ls ≠ [])
    (h : compileSet o ls = .ok (some set)) {cx : Nat → PatternSpec.Ctx} (hcx : CtxOf o cx) (cfs : Nat → Conf engine) (vs : Bool)
    {b : Buf} {r : Rng} {env env' : Vars} {ms : Matches} {pos : Option Nat}
    (hrun : (setDag o.ignoreCase cfs vs set).run b r env = some (ms, pos, env')) (hok : Matches.isOk ms = true)
    (hno : ∀ y ∈ ls, ∀ x ∈ partsOf y.1, ¬ Lex.MentionsVar x) : env' = env := by
  obtain ⟨s, e, _, _, _, _, _, h6⟩ := C77_dags_partial hg hne h hcx cfs vs hrun hok
  refine h6.keeps fun μ hμ => ?_
  obtain ⟨y, hy, rfl⟩ := List.mem_map.1 hμ
  exact binds_nothing (hno y hy)

/-- A group of patterns with regular expressions. -/
def exDags : List (CPat × Nat) := [(.match_ [.literal "p".toList, .regex "[0-9]+;".toList], 3), (.match_ [.literal "q".toList, .regex "[0-9]+;".toList], 4)]

example : DagGroup ⟨false, false⟩ (exDags.map Prod.fst) := dagGroupB_sound (by decide +kernel)
example : passes "CHECK: x\nCHECK-DAG: p{{[0-9]+;}}\nCHECK-DAG: q{{[0-9]+;}}\nCHECK: y" "x q1; p22; y" := textPasses_of (by decide +kernel)
example : ¬ passes "CHECK: x\nCHECK-DAG: p{{[0-9]+;}}\nCHECK-DAG: q{{[0-9]+;}}\nCHECK: y" "x q1; 22; y" := not_textPasses_of (by decide +kernel)

/-- A group which captures variables; they are read by the line after it. -/
def exCaps : List (CPat × Nat) := [
  (.match_ [.literal "p".toList, .match_ (.substitution (.user ['X']) (some "[0-9]+".toList)), .literal ";".toList], 3),
  (.match_ [.literal "q".toList, .match_ (.substitution (.user ['Y']) (some "[0-9]+".toList)), .literal ";".toList], 4)]

example : DagGroup ⟨false, false⟩ (exCaps.map Prod.fst) := dagGroupB_sound (by decide +kernel)
example : passes "CHECK-DAG: p[[X:[0-9]+]];\nCHECK-DAG: q[[Y:[0-9]+]];\nCHECK: [[X]]-[[Y]]" "q1; p22; 22-1" := textPasses_of (by decide +kernel)
example : ¬ passes "CHECK-DAG: p[[X:[0-9]+]];\nCHECK-DAG: q[[Y:[0-9]+]];\nCHECK: [[X]]-[[Y]]" "q1; p22; 1-22" := not_textPasses_of (by decide +kernel)

/-- C77 is false when a match of one pattern is inside a match of another one: both are counted. -/
theorem C77_overlap_refuted : passes "CHECK: x\nCHECK-DAG: {{b}}\nCHECK-DAG: {{abc}}\nCHECK: y" "x abc y" := textPasses_of (by decide +kernel)

/-- … for there are no non-overlapping matches of both patterns. -/
theorem C77_overlap_none : ¬ ∃ spans : List (Nat × Nat), List.Forall₂ (fun (lit : List UInt8) sp => Occurs false lit (utf8 "x abc y".toList) sp.1 sp.2)
      [utf8 "b".toList, utf8 "abc".toList] spans ∧ spans.Pairwise (fun x y => x.2 ≤ y.1 ∨ y.2 ≤ x.1) := by
  rintro ⟨spans, h1, h2⟩
  cases h1 with
  | cons a1 h1 =>
    cases h1 with
    | cons a2 h1 =>
      cases h1
      rename_i x y
      obtain ⟨x1, x2⟩ := x
      obtain ⟨y1, y2⟩ := y
      have key : ∀ c : UInt8, ∀ lit : List UInt8, ∀ s : Nat, OccursAt false (c :: lit) (utf8 "x abc y".toList) s →
          (utf8 "x abc y".toList)[s]? = some c := by
        intro c lit s h
        obtain ⟨z, h3, h4⟩ := h 0 c rfl
        rcases h4 with rfl | ⟨h4, _⟩
        · exact h3
        · simp at h4
      have hx := key 98 [] x1 a1.2
      have hy := key 97 [98, 99] y1 a2.2
      have ex := a1.1
      have ey := a2.1
      have hub : utf8 "x abc y".toList = [120, 32, 97, 98, 99, 32, 121] := by decide +kernel
      have hb1 : (utf8 "b".toList).length = 1 := by decide +kernel
      have hb2 : (utf8 "abc".toList).length = 3 := by decide +kernel
      rw [hub] at hx hy
      have hx1 : x1 = 3 := by
        match x1, hx with
        | 0, hx => simp at hx
        | 1, hx => simp at hx
        | 2, hx => simp at hx
        | 3, _ => rfl
        | 4, hx => simp at hx
        | 5, hx => simp at hx
        | 6, hx => simp at hx
        | n + 7, hx => simp at hx
      have hy1 : y1 = 2 := by
        match y1, hy with
        | 0, hx => simp at hx
        | 1, hx => simp at hx
        | 2, _ => rfl
        | 3, hx => simp at hx
        | 4, hx => simp at hx
        | 5, hx => simp at hx
        | 6, hx => simp at hx
        | n + 7, hx => simp at hx
      dsimp only at ex ey
      have := (List.pairwise_cons.1 h2).1 (y1, y2) (by simp)
      dsimp only at this
      omega

/-- C77 is false when a regular expression is written on two lines: one match is enough for both. -/
theorem C77_twice_refuted :
    passes "CHECK: a\nCHECK-DAG: {{p}}\nCHECK-DAG: {{q}}\nCHECK-DAG: {{p}}\nCHECK: z" "a pq z" := textPasses_of (by decide +kernel)

/-- C77 is false of patterns which use variables: matching does not go on after the group. `CHECK-SAME` and `CHECK-NEXT` are satisfied by
text before the match of the `CHECK-DAG` line above them. -/
theorem C77_variable_refuted :
    passes "CHECK: x=[[X:[0-9]]]\nCHECK-DAG: b[[X]]\nCHECK-SAME: a\n" "x=1 a b1 \n" ∧
    passes "CHECK: x=[[X:[0-9]]]\nCHECK-DAG: b[[X]]\nCHECK-NEXT: a\n" "x=1\na\nb1 \n" ∧
    ¬ passes "CHECK: x=[[X:[0-9]]]\nCHECK-DAG: b1\nCHECK-SAME: a\n" "x=1 a b1 \n" :=
  ⟨textPasses_of (by decide +kernel), textPasses_of (by decide +kernel), not_textPasses_of (by decide +kernel)⟩

/-! ## C78 -/

/-- **C78**: groups of `CHECK-NOT` or `CHECK-DAG` lines are compiled without a panic, to a set or to a diagnostic, and looking for them in any
input gives a result: no panic, no diagnostic, no search without end.
Missing (hence partial): patterns which use variables or capture numbers, and groups in which two patterns have the same text (see the
counterexamples below). -/
theorem C78_total_partial {o : Opts} {ls : List (CPat × Nat)} (hg : PlainGroup o (ls.map Prod.fst)) (hne : ls ≠ []) (ic : Bool)
    (cfs : Nat → Conf engine) (varScope : Bool) :
    ∃ c, compileSet o ls = .ok c ∧ ∀ set, c = some set → ∀ (b : Buf) (r : Rng) (env : Vars),
      (∃ m env', anyOut ic cfs set b r env = .result m env') ∧
      ∃ ms pos env', dagOut ic cfs varScope set b r env = .result ms pos env' :=
  plainGroup_total hg hne ic cfs varScope

example : PlainGroup ⟨false, false⟩ (exDags.map Prod.fst) :=
  have h := rxGroupB_sound (o := ⟨false, false⟩) (ps := exDags.map Prod.fst) (by decide +kernel)
  ⟨h.static, h.texts⟩

example : PlainGroup ⟨false, false⟩ (exCaps.map Prod.fst) :=
  have h := rxGroupB_sound (o := ⟨false, false⟩) (ps := exCaps.map Prod.fst) (by decide +kernel)
  ⟨h.static, h.texts⟩

/-- The run of the test is a panic. -/
def panicked : Except Lex.PErr (P Verdict) → Bool
  | .ok (.error _) => true
  | _ => false

abbrev panics (text input : String) : Bool := panicked (verifyText exRun [] exCfg false text.toList Bindings.empty (utf8 input.toList))

/-- C78 is false of literals which are repeated: the index of a line is used as the index of a list of the distinct patterns. -/
theorem C78_repeated_refuted : panics "CHECK: a\nCHECK-NOT: z\nCHECK-NOT: z\nCHECK-NOT: y\nCHECK-NOT: y\n" "a b" = true := by decide +kernel

/-- C78 is false of a literal which is the beginning of another pattern. -/
theorem C78_prefix_refuted : panics "CHECK: X=[[X:[a-z]]]\nCHECK-NOT: foo\nCHECK-NOT: foo[[X]]\n" "X=f fcar" = true := by decide +kernel

def varX : CPat → CPat
  | .literal s => .match_ [.match_ (.substitution (.user "X".toList) none), .literal s]
  | .regex s => .match_ [.match_ (.substitution (.user "X".toList) none), .regex s]
  | p => p

/-- The variable `X` is `f`. -/
def envX : Vars := Bindings.empty.insert (.user "X") (.str "f".toList)

/-- `CHECK-NOT: [[X]]bar` -/
def exSub : List (CPat × Nat) := [(varX (.literal "bar".toList), 0)]

/-- `CHECK-NOT: [[X]]{{b.r}}` -/
def exRx : List (CPat × Nat) := [(varX (.regex "b.r".toList), 0)]

/-- What a group is compiled to. -/
def setOf (ls : List (CPat × Nat)) : MatchSet := match compileSet ⟨false, false⟩ ls with | .ok (some s) => s | _ => .literal []

/-- C78 is false of a variable followed by a literal: the matcher for the literal cannot search at a fixed position, and panics. -/
theorem C78_substring_refuted : ∃ p, anyOut false exRun.conf (setOf exSub) (utf8 "fcar".toList) ⟨0, 4⟩ envX = .panic p :=
  ⟨_, by with_unfolding_all rfl⟩

/-- A search which comes back to the state it was in does not end. -/
theorem anyLoop_stuck {ic : Bool} {cfs : Nat → Conf engine} {set : MatchSet} {sfx : List (List Sfx)} {b : Buf} {r : Rng} {st : Searcher}
    {env : Vars} {le : Nat} {i : Info} {vals : List (Cap × Str)} {ss : List Sfx}
    (h1 : nextMatch ic cfs set b r env st = some (.found st le i vals)) (h2 : sfx[i.pid]? = some ss)
    (h3 : trySuffixes cfs b ⟨le, r.stop⟩ i.start ss i.pid env = .absent env) : ∀ n, anyLoop ic cfs set sfx b r n st env = .hang
  | 0 => rfl
  | n + 1 => by
    unfold anyLoop
    rw [h1]
    dsimp only
    rw [h2]
    dsimp only
    rw [h3]
    exact anyLoop_stuck h1 h2 h3 n

def sfxOf : MatchSet → List (List Sfx)
  | .subPrefix _ s | .rxPrefix _ s | .anyPrefix _ s => s
  | _ => []

/-- C78 is false of a variable followed by a regular expression which does not match there: the search never ends, however many steps
it is given. -/
theorem C78_hang_refuted : ∀ n, anyLoop false exRun.conf (setOf exRx) (sfxOf (setOf exRx)) (utf8 "fcar".toList) ⟨0, 4⟩ n
    (startSearch false (setOf exRx) (utf8 "fcar".toList) ⟨0, 4⟩) envX = .hang := by
  have stuck : ∀ n, anyLoop false exRun.conf (setOf exRx) (sfxOf (setOf exRx)) (utf8 "fcar".toList) ⟨0, 4⟩ n
      (.pats [] (some 1) []) envX = .hang :=
    anyLoop_stuck (le := 1) (i := ⟨0, 1, 0, 0⟩) (vals := []) (ss := ((sfxOf (setOf exRx))[0]?).getD []) (by with_unfolding_all rfl)
      (by with_unfolding_all rfl) (by with_unfolding_all rfl)
  intro n
  cases n with
  | zero => rfl
  | succ n =>
    refine Eq.trans ?_ (stuck (n + 1))
    unfold anyLoop
    have e1 : nextMatch false exRun.conf (setOf exRx) (utf8 "fcar".toList) ⟨0, 4⟩ envX
        (startSearch false (setOf exRx) (utf8 "fcar".toList) ⟨0, 4⟩) = some (.found (.pats [] (some 1) []) 1 ⟨0, 1, 0, 0⟩ []) := by
      with_unfolding_all rfl
    have e2 : nextMatch false exRun.conf (setOf exRx) (utf8 "fcar".toList) ⟨0, 4⟩ envX (.pats [] (some 1) []) =
        some (.found (.pats [] (some 1) []) 1 ⟨0, 1, 0, 0⟩ []) := by
      with_unfolding_all rfl
    rw [e1, e2]

/-- `CHECK-DAG: [[X]]`, `CHECK-DAG: [[Y]]` -/
def exXY : List (CPat × Nat) :=
  [(.match_ [.match_ (.substitution (.user "X".toList) none)], 0), (.match_ [.match_ (.substitution (.user "Y".toList) none)], 1)]

def envXY : Vars := envX.insert (.user "Y") (.str "g".toList)

/-- A search for prefixes which only finds again what it has found does not end. -/
theorem dynLoop_stuck {ic : Bool} {cfs : Nat → Conf engine} {vs : Bool} {set : MatchSet} {b : Buf} {r : Rng} {st : Searcher} {pr : Progress}
    {ms : Matches} {env : Vars} {le : Nat} {i : Info} {vals : List (Cap × Str)} {x : List (Sfx × Option Failure) × List (Rng × Nat)}
    (h1 : nextMatch ic cfs set b r env st = some (.found st le i vals)) (h2 : pr[i.pid]? = some x) (h3 : visited x = true) :
    ∀ n, dynLoop ic cfs vs set b r n st pr ms env = .hang
  | 0 => rfl
  | n + 1 => by
    unfold dynLoop
    rw [h1]
    dsimp only
    rw [h2]
    dsimp only
    rw [if_pos h3]
    exact dynLoop_stuck h1 h2 h3 n

/-- C78 is false of groups of `CHECK-DAG` lines which begin with variables, when one of them does not match: the search never ends. -/
theorem C78_dag_hang_refuted : ∃ st pr ms env, (∀ n, dynLoop false exRun.conf false (setOf exXY) (utf8 "f h".toList) ⟨0, 3⟩ (n + 1)
      (startSearch false (setOf exXY) (utf8 "f h".toList) ⟨0, 3⟩) ((sfxOf (setOf exXY)).map fun ss => (ss.map fun s => (s, none), [])) [] envXY =
      dynLoop false exRun.conf false (setOf exXY) (utf8 "f h".toList) ⟨0, 3⟩ n st pr ms env) ∧
    ∀ n, dynLoop false exRun.conf false (setOf exXY) (utf8 "f h".toList) ⟨0, 3⟩ n st pr ms env = .hang :=
  ⟨_, _, _, _, fun n => by with_unfolding_all rfl,
    dynLoop_stuck (st := .pats [] (some 1) [1]) (le := 1) (i := ⟨0, 1, 0, 0⟩) (vals := []) (by with_unfolding_all rfl) (by with_unfolding_all rfl)
      (by with_unfolding_all rfl)⟩

end Litcheck.Sets
