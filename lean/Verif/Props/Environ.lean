import Verif.Model.Environ
import Verif.Props.Execute

/-!
# C98: the environment of a test

* `C98_configured_partial`: a variable of the configuration other than `PATH` has its value, all others have that of lit's environment;
* `C98_programs`: a program is looked for in the directories given with `--path`, in order, and then where lit would look for it;
* `C98_error`: the test ends with an error iff one of these directories has a colon in its name;
* `C98_path_refuted`, `C98_unset_refuted`: what is wrong.
-/

namespace Litcheck

theorem Environ.get_set (e : Environ) (k v k' : Str) : (e.set k v).get k' = if k' = k then some v else e.get k' := by
  simp only [Environ.get, Environ.set, List.find?_cons]
  by_cases h : k' = k
  · subst h; simp
  · rw [if_neg h]
    have : (k == k') = false := by simpa using fun e => h e.symm
    rw [this]
    dsimp only
    congr 1
    induction e with
    | nil => rfl
    | cons x e ih =>
      by_cases hx : x.1 = k
      · rw [List.filter_cons_of_neg (by simp [hx]), ih, List.find?_cons_of_neg]
        rw [hx]; simpa using fun e => h e.symm
      · rw [List.filter_cons_of_pos (by simp [hx])]
        by_cases hk : x.1 = k'
        · rw [List.find?_cons_of_pos (by simp [hk]), List.find?_cons_of_pos (by simp [hk])]
        · rw [List.find?_cons_of_neg (by simp [hk]), List.find?_cons_of_neg (by simp [hk]), ih]

theorem Environ.get_setAll (kvs : List (Str × Str)) (hnd : (kvs.map Prod.fst).Nodup) (e : Environ) (k : Str) :
    (e.setAll kvs).get k = ((kvs.find? (·.1 == k)).map (·.2)).or (e.get k) := by
  induction kvs generalizing e with
  | nil => rfl
  | cons x kvs ih =>
    simp only [List.map_cons, List.nodup_cons] at hnd
    show (Environ.setAll (e.set x.1 x.2) kvs).get k = _
    rw [ih hnd.2, Environ.get_set]
    by_cases hk : x.1 = k
    · rw [List.find?_cons_of_pos (by simp [hk]), if_pos hk.symm]
      have : kvs.find? (·.1 == k) = none := by
        rw [List.find?_eq_none]
        intro y hy he
        refine hnd.1 ?_
        have : y.1 = k := by simpa using he
        rw [hk, ← this]
        exact List.mem_map.2 ⟨y, hy, rfl⟩
      rw [this]
      rfl
    · rw [List.find?_cons_of_neg (by simp [hk]), if_neg (fun e => hk e.symm)]

theorem splitPaths_append {p : Str} (h : ':' ∉ p) (s : Str) : splitPaths (p ++ ':' :: s) = p :: splitPaths s := by
  induction p with
  | nil => rfl
  | cons c p ih =>
    simp only [List.mem_cons, not_or] at h
    rw [List.cons_append, splitPaths, if_neg (fun e => h.1 e.symm), ih h.2]

theorem splitPaths_one {p : Str} (h : ':' ∉ p) : splitPaths p = [p] := by
  induction p with
  | nil => rfl
  | cons c p ih =>
    simp only [List.mem_cons, not_or] at h
    rw [splitPaths, if_neg (fun e => h.1 e.symm), ih h.2]

theorem split_join : ∀ {ps : List Str}, ps ≠ [] → (∀ p ∈ ps, ':' ∉ p) → splitPaths (":".toList.intercalate ps) = ps
  | [], h, _ => absurd rfl h
  | [p], _, h => by
    have : ":".toList.intercalate [p] = p := by simp [List.intercalate]
    rw [this, splitPaths_one (h p List.mem_cons_self)]
  | p :: q :: ps, _, h => by
    have : ":".toList.intercalate (p :: q :: ps) = p ++ ':' :: ":".toList.intercalate (q :: ps) := by
      simp [List.intercalate, List.intersperse]
    rw [this, splitPaths_append (h p List.mem_cons_self),
      split_join (by simp) fun x hx => h x (List.mem_cons_of_mem _ hx)]

theorem splitPaths_clean : ∀ s : Str, ∀ p ∈ splitPaths s, ':' ∉ p
  | [], p, h => by simp [splitPaths] at h; subst h; simp
  | c :: s, p, h => by
    have ih := splitPaths_clean s
    rw [splitPaths] at h
    split at h
    · rcases List.mem_cons.1 h with rfl | h
      · simp
      · exact ih p h
    · rename_i hc
      cases hs : splitPaths s with
      | nil =>
        rw [hs] at h
        simp only [List.mem_singleton] at h
        subst h
        simpa using fun e => hc e.symm
      | cons q qs =>
        rw [hs] at h ih
        rcases List.mem_cons.1 h with rfl | h
        · simp only [List.mem_cons, not_or]
          exact ⟨fun e => hc e.symm, ih q List.mem_cons_self⟩
        · exact ih p (List.mem_cons_of_mem _ h)

theorem splitPaths_ne (s : Str) : splitPaths s ≠ [] := by
  cases s with
  | nil => simp [splitPaths]
  | cons c s =>
    rw [splitPaths]
    split
    · simp
    · split <;> simp

theorem joinPaths_some {ps : List Str} {s : Str} (h : joinPaths ps = some s) :
    (∀ p ∈ ps, ':' ∉ p) ∧ s = ":".toList.intercalate ps := by
  rw [joinPaths] at h
  split at h
  · cases h
  · rename_i hn
    simp only [Option.some.injEq] at h
    refine ⟨?_, h.symm⟩
    intro p hp hc
    exact hn (List.any_eq_true.2 ⟨p, hp, by simpa using hc⟩)

/-- **C98.** Starting the process of a test is an error iff one of the directories given with `--path` has a colon in its name. -/
theorem C98_error (own : Environ) (i : Invocation) : i.environ own = none ↔ ∃ p ∈ i.paths, ':' ∈ p := by
  simp only [Invocation.environ, Option.map_eq_none_iff, pathValue, joinPaths]
  split
  · rename_i h
    simp only [List.any_append, Bool.or_eq_true, List.any_eq_true] at h
    refine iff_of_true rfl ?_
    rcases h with ⟨p, hp, hc⟩ | ⟨p, hp, hc⟩
    · exact ⟨p, hp, by simpa using hc⟩
    · exact absurd (by simpa using hc) (splitPaths_clean _ p hp)
  · rename_i h
    refine iff_of_false (by simp) ?_
    rintro ⟨p, hp, hc⟩
    exact h (List.any_eq_true.2 ⟨p, List.mem_append_left _ hp, by simpa using hc⟩)

/-- **C98, what holds.** Every variable of the test's configuration other than `PATH` has the configured value in its process; a variable
which is neither configured nor `PATH` is that of lit's environment. Missing: `PATH`, `C98_path_refuted`. -/
theorem C98_configured_partial {own : Environ} {i : Invocation} (hnd : (i.env.map Prod.fst).Nodup) {e : Environ} (h : i.environ own = some e)
    {k : Str} (hk : k ≠ "PATH".toList) :
    (∀ v, (k, v) ∈ i.env → e.get k = some v) ∧ ((∀ v, (k, v) ∉ i.env) → e.get k = own.get k) := by
  rw [Invocation.environ, Option.map_eq_some_iff] at h
  obtain ⟨p, _, rfl⟩ := h
  rw [Environ.get_set, if_neg (show k ≠ PATH from hk), Environ.get_setAll _ hnd]
  constructor
  · intro v hv
    have : i.env.find? (·.1 == k) = some (k, v) := by
      cases hf : i.env.find? (·.1 == k) with
      | none =>
        rw [List.find?_eq_none] at hf
        exact absurd (hf _ hv) (by simp)
      | some y =>
        have hy := List.mem_of_find?_eq_some hf
        have hyk : y.1 = k := by simpa using List.find?_some hf
        congr 1
        exact List.inj_on_of_nodup_map hnd hy hv hyk
    rw [this]
    rfl
  · intro hv
    have : i.env.find? (·.1 == k) = none := by
      rw [List.find?_eq_none]
      intro y hy he
      have : y.1 = k := by simpa using he
      exact hv y.2 (by rw [← this]; exact hy)
    rw [this]
    rfl

/-- Where a program is found: the first of the directories which has it. -/
def whereIs (hasProgram : Str → Bool) (dirs : List Str) : Option Str := dirs.find? hasProgram

/-- **C98.** A program which a test runs by its name is found in the first of the directories given with `--path`, in order, which has it; if none
has, it is the one lit itself would find. -/
theorem C98_programs {own : Environ} {i : Invocation} {e : Environ} (h : i.environ own = some e) (hasProgram : Str → Bool) :
    ∃ path, e.get "PATH".toList = some path ∧
      whereIs hasProgram (splitPaths path) =
        (whereIs hasProgram i.paths).or (whereIs hasProgram (splitPaths ((own.get "PATH".toList).getD []))) := by
  rw [Invocation.environ, Option.map_eq_some_iff] at h
  obtain ⟨p, hp, rfl⟩ := h
  refine ⟨p, by rw [Environ.get_set, if_pos (show "PATH".toList = PATH from rfl)], ?_⟩
  obtain ⟨h1, rfl⟩ := joinPaths_some hp
  rw [split_join (by simp [splitPaths_ne]) h1, whereIs, List.find?_append]
  rfl

/-- A test of a suite which sets `PATH` and `A`. -/
def environExample : Invocation :=
  ⟨"sh".toList, "/w".toList, [("A".toList, "1".toList), ("PATH".toList, "/suite/bin".toList)], ["/tools".toList], none⟩

/-- The theorems apply to it. -/
example : ∃ e, environExample.environ [("PATH".toList, "/bin:/usr/bin".toList), ("B".toList, "2".toList)] = some e ∧
    e.get "A".toList = some "1".toList ∧ e.get "B".toList = some "2".toList ∧
    e.get "PATH".toList = some "/tools:/bin:/usr/bin".toList := by
  obtain ⟨e, he⟩ : ∃ e, environExample.environ [("PATH".toList, "/bin:/usr/bin".toList), ("B".toList, "2".toList)] = some e :=
    ⟨_, by with_unfolding_all rfl⟩
  have hnd : (environExample.env.map Prod.fst).Nodup := by decide +kernel
  refine ⟨e, he, (C98_configured_partial hnd he (k := "A".toList) (by decide)).1 _ (by decide +kernel), ?_, ?_⟩
  · rw [(C98_configured_partial hnd he (k := "B".toList) (by decide)).2 (by
      intro v hv
      simp [environExample] at hv)]
    decide +kernel
  · have : environExample.environ [("PATH".toList, "/bin:/usr/bin".toList), ("B".toList, "2".toList)] = some
      [("PATH".toList, "/tools:/bin:/usr/bin".toList), ("A".toList, "1".toList), ("B".toList, "2".toList)] := by decide +kernel
    rw [this] at he
    cases he
    decide +kernel

/-- `PATH` cannot be configured: a suite which sets it has its tests run with lit's. -/
theorem C98_path_refuted : ∃ (own : Environ) (i : Invocation) (e : Environ), ("PATH".toList, "/suite/bin".toList) ∈ i.env ∧ i.environ own = some e ∧
    e.get "PATH".toList = some "/tools:/bin".toList :=
  ⟨[("PATH".toList, "/bin".toList)], environExample, _, by decide +kernel, rfl, by decide +kernel⟩

/-- If lit itself has no `PATH`, its tests get one with an empty directory, which stands for the directory they run in. -/
theorem C98_unset_refuted : ∃ e, environExample.environ [] = some e ∧ e.get "PATH".toList = some "/tools:".toList ∧
    splitPaths "/tools:".toList = ["/tools".toList, []] :=
  ⟨_, rfl, by decide +kernel, by decide +kernel⟩

/-! ## The tests of both formats run like that -/

/-- The invocation of the shell format's `n`-th run. -/
def ShTest.invocation (sh : ShTest) (t : TestCase) (o : LitOptions) (script : Str) : Invocation :=
  ⟨sh.shell.getD "sh".toList, t.workingDir, t.config.env, o.searchPaths, some script⟩

/-- **C98.** In a world where the search paths can be joined iff none has a colon, a shell test which is run ends with an error exactly if its
environment cannot be made, and otherwise its process is started with the suite's working directory, the test's
environment and the search paths. -/
theorem C98_run (w : World) (hw : ∀ ps, w.pathsOk ps = true ↔ ∀ p ∈ ps, ':' ∉ p) (sh : ShTest) (t : TestCase) (o : LitOptions) (cmds : List Cmd)
    (n : Nat) {script : Str} (hs : writeScript w.quote sh.pipefail cmds = .ok script) (own : Environ) :
    ((sh.invocation t o script).environ own = none → runOnce w sh t o cmds n = .err) ∧
    (∀ e, (sh.invocation t o script).environ own = some e →
      runOnce w sh t o cmds n =
        (waitWithTimeout (w.spawn n (sh.invocation t o script)) true (o.timeout.getD 0)).bind fun r => .ok r.1) := by
  have hb : runOnce w sh t o cmds n = if w.pathsOk o.searchPaths = true then
      (waitWithTimeout (w.spawn n (sh.invocation t o script)) true (o.timeout.getD 0)).bind fun r => .ok r.1 else .err := by
    unfold runOnce
    rw [hs]
    rfl
  rw [hb]
  constructor
  · intro h
    obtain ⟨p, hp, hc⟩ := (C98_error own _).1 h
    rw [if_neg]
    intro hok
    exact (hw _).1 hok p hp hc
  · intro e he
    rw [if_pos]
    rw [hw]
    intro p hp hc
    have := (C98_error own (sh.invocation t o script)).2 ⟨p, hp, hc⟩
    rw [he] at this
    cases this

end Litcheck
