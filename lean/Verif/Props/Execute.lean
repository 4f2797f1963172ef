import Verif.Model.Execute
import Verif.Props.BoolExpr
import Verif.Props.Script
import Verif.Props.Substitutions

/-!
# C38, C39, C50, C58, C59: running one test
-/

namespace Litcheck

open BSpec (Holds anyRx)
open SubSpec (lastOf)

theorem Out.bind_eq {α β : Type} (x : Out α) (f : α → Out β) : (x >>= f) = x.bind f := rfl

theorem Out.bind_ok {α β : Type} (x : Out α) (f : α → Out β) (b : β) : (x >>= f) = .ok b ↔ ∃ a, x = .ok a ∧ f a = .ok b := by
  cases x <;> simp [Out.bind_eq, Out.bind]

/-! ## C39: retries -/

/-- A history of runs with a budget of retries: each run is made after a failure, except the first, and the history
ends with the first run that is no failure or when the budget is used up. -/
inductive Runs : Nat → List (Out Status) → Prop
  | last (r : Out Status) : Runs 0 [r]
  | stop (budget : Nat) (r : Out Status) : r ≠ .ok .fail → Runs budget [r]
  | again (budget : Nat) (rs : List (Out Status)) : Runs budget rs → Runs (budget + 1) (.ok .fail :: rs)

theorem retryLoop_spec (once : Nat → Out Status) (budget : Nat) : ∀ (retries : Nat),
    Runs budget (retryLoop once budget retries).1 ∧
    (retryLoop once budget retries).1 = (List.range' retries (retryLoop once budget retries).1.length).map once ∧
    ∃ last, (retryLoop once budget retries).1.getLast? = some last ∧
      (retryLoop once budget retries).2 = last.map fun s =>
        (s, retries + (retryLoop once budget retries).1.length - if s = .fail then 0 else 1) := by
  induction budget with
  | zero =>
    intro retries
    rw [retryLoop]
    refine ⟨.last _, by simp, once retries, rfl, ?_⟩
    dsimp only
    congr 1
    funext s
    by_cases h : s = .fail <;> simp [h]
  | succ budget ih =>
    intro retries
    rw [retryLoop]
    by_cases h : once retries = .ok .fail
    · simp only [h, if_true]
      obtain ⟨h1, h2, last, h3, h4⟩ := ih (retries + 1)
      refine ⟨.again _ _ h1, ?_, last, ?_, ?_⟩
      · rw [List.length_cons, List.range'_succ, List.map_cons, h, ← h2]
      · rw [List.getLast?_cons, h3]; rfl
      · rw [h4, List.length_cons]
        congr 1
        funext s
        congr 1
        omega
    · simp only [h, if_false]
      refine ⟨.stop _ _ h, by simp, once retries, rfl, ?_⟩
      cases hr : once retries with
      | ok s =>
        have : s ≠ .fail := by rintro rfl; exact h hr
        simp [Out.map, this]
      | _ => rfl

/-- C39: the runs made follow the budget, they are the first ones in order, and the result is the last one's: a pass
after a failure is a flaky pass, everything else stays. -/
theorem C39_retries (once : Nat → Out Status) (allowed : Option Nat) :
    let r := runTest once allowed
    Runs (allowed.getD 0) r.1 ∧ r.1 = (List.range r.1.length).map once ∧
    ∃ last, r.1.getLast? = some last ∧
      r.2 = last.map fun s => if s = .pass ∧ 1 < r.1.length then .flakyPass else s := by
  obtain ⟨h1, h2, last, h3, h4⟩ := retryLoop_spec once (allowed.getD 0) 0
  refine ⟨h1, by rw [List.range_eq_range']; exact h2, last, h3, ?_⟩
  simp only [runTest, h4]
  cases last with
  | ok s =>
    simp only [Out.map]
    congr 1
    by_cases hs : s = .pass
    · subst hs
      simp only [reduceCtorEq, if_false, and_true, true_and, Nat.zero_add, gt_iff_lt, Nat.sub_pos_iff_lt]
    · simp [hs]
  | _ => rfl

/-- C39, in numbers: at least one run, at most one more than the allowed retries; every run but the last failed. -/
theorem C39_bounds {budget : Nat} {rs : List (Out Status)} (h : Runs budget rs) :
    1 ≤ rs.length ∧ rs.length ≤ 1 + budget ∧ ∀ r ∈ rs.dropLast, r = .ok .fail := by
  induction h with
  | last r => simp
  | stop b r _ => simp
  | again b rs h ih =>
    obtain ⟨h1, h2, h3⟩ := ih
    refine ⟨by simp, by simp only [List.length_cons]; omega, ?_⟩
    cases rs with
    | nil => simp at h1
    | cons r rs =>
      intro x hx
      simp only [List.dropLast_cons_cons, List.mem_cons] at hx
      rcases hx with rfl | hx
      · rfl
      · exact h3 x hx

/-- C39, flaky passes: a test is a flaky pass iff it failed at least once and then passed, as long as no single run is
called one. -/
theorem C39_flaky (once : Nat → Out Status) (allowed : Option Nat) (h : ∀ n, once n ≠ .ok .flakyPass) :
    (runTest once allowed).2 = .ok .flakyPass ↔
      .ok .fail ∈ (runTest once allowed).1 ∧ (runTest once allowed).1.getLast? = some (.ok .pass) := by
  obtain ⟨h1, h2, last, h3, h4⟩ := C39_retries once allowed
  obtain ⟨b1, b2, b3⟩ := C39_bounds h1
  generalize hrs : (runTest once allowed).1 = rs at *
  rw [h4, h3]
  obtain ⟨init, rfl⟩ := List.getLast?_eq_some_iff.1 h3
  rw [List.dropLast_concat] at b3
  constructor
  · intro he
    cases last with
    | ok s =>
      simp only [Out.map, Out.ok.injEq] at he
      split at he
      · rename_i hc
        obtain ⟨rfl, hl⟩ := hc
        refine ⟨?_, rfl⟩
        cases init with
        | nil => simp at hl
        | cons r init => rw [← b3 r (by simp)]; simp
      · subst he
        exfalso
        have : Out.ok Status.flakyPass ∈ (List.range (init ++ [Out.ok Status.flakyPass]).length).map once := by
          rw [← h2]; simp
        obtain ⟨n, _, hn⟩ := List.mem_map.1 this
        exact h n hn
    | err => cases he
    | panic => cases he
    | hang => cases he
  · rintro ⟨hf, hl⟩
    injection hl with hl
    subst hl
    have : 1 < (init ++ [Out.ok Status.pass]).length := by
      cases init with
      | nil => simp at hf
      | cons r init => simp
    simp only [Out.map, this, and_self, if_true]

/-- Two failures, then a pass, with three retries allowed; and failures only, with one. -/
example : runTest (fun n => .ok (if n < 2 then .fail else .pass)) (some 3) =
      ([.ok .fail, .ok .fail, .ok .pass], .ok .flakyPass) ∧
    runTest (fun _ => .ok .fail) (some 1) = ([.ok .fail, .ok .fail], .ok .fail) ∧
    runTest (fun _ => .ok .pass) (some 5) = ([.ok .pass], .ok .pass) := by decide

/-! ## C58: time limits -/

/-- What `waitLoop` decides, for any polls. -/
theorem waitLoop_iff (poll : Nat → Poll) (timeout : Nat) (ts : List Nat) (s : Status) (t : Nat) :
    waitLoop poll timeout ts = .ok (s, t) ↔ ∃ before after, ts = before ++ t :: after ∧
      (∀ u ∈ before, poll u = .running ∧ (timeout = 0 ∨ u < timeout)) ∧
      (poll t = .running ∧ 0 < timeout ∧ timeout ≤ t ∧ s = .timeout ∨
       (∃ c, poll t = .exited c ∧ s = .ofExit c) ∨ poll t = .error ∧ s = .unresolved) := by
  induction ts with
  | nil => simp [waitLoop]
  | cons u ts ih =>
    rw [waitLoop]
    constructor
    · intro h
      cases hp : poll u with
      | running =>
        rw [hp] at h
        dsimp only at h
        by_cases hc : timeout = 0 ∨ u < timeout
        · rw [if_pos hc] at h
          obtain ⟨b, a, e, h1, h2⟩ := ih.1 h
          refine ⟨u :: b, a, by rw [e]; rfl, ?_, h2⟩
          intro x hx
          rcases List.mem_cons.1 hx with rfl | hx
          · exact ⟨hp, hc⟩
          · exact h1 x hx
        · rw [if_neg hc] at h
          obtain ⟨rfl, rfl⟩ := by simpa using h
          exact ⟨[], ts, rfl, by simp, Or.inl ⟨hp, by omega, by omega, rfl⟩⟩
      | exited c =>
        rw [hp] at h
        obtain ⟨rfl, rfl⟩ := by simpa using h
        exact ⟨[], ts, rfl, by simp, Or.inr (Or.inl ⟨c, hp, rfl⟩)⟩
      | error =>
        rw [hp] at h
        obtain ⟨rfl, rfl⟩ := by simpa using h
        exact ⟨[], ts, rfl, by simp, Or.inr (Or.inr ⟨hp, rfl⟩)⟩
    · rintro ⟨b, a, e, h1, h2⟩
      cases b with
      | nil =>
        injection e with e1 e2
        subst e1
        rcases h2 with ⟨hp, h3, h4, rfl⟩ | ⟨c, hp, rfl⟩ | ⟨hp, rfl⟩
        · rw [hp]
          dsimp only
          rw [if_neg (by omega)]
        · rw [hp]
        · rw [hp]
      | cons x b =>
        injection e with e1 e2
        subst e1
        have := h1 u (by simp)
        rw [this.1]
        dsimp only
        rw [if_pos this.2]
        exact ih.2 ⟨b, a, e2, fun x hx => h1 x (by simp [hx]), h2⟩

/-- C58, as far as it holds: when a piped process that was started has a verdict, the verdict is a timeout only if there
is a limit and the process was still running when it was reached; otherwise it is what its exit says. In particular,
without a limit there is no timeout. -/
theorem C58_verdict_partial (p : Proc) (timeout : Nat) (s : Status) (t : Nat)
    (h : waitWithTimeout (some p) true timeout = .ok (s, t)) : ∃ d ≤ t, d ∈ p.polls ∧
      (s = .timeout ∧ 0 < timeout ∧ timeout ≤ d ∧ p.poll d = .running ∨
       (∃ c, p.poll d = .exited c ∧ s = .ofExit c) ∨ p.poll d = .error ∧ s = .unresolved) := by
  unfold waitWithTimeout at h
  simp only [Bool.not_true, Bool.false_eq_true, if_false] at h
  split at h
  · cases h
  · obtain ⟨⟨s', d⟩, h1, h⟩ := (Out.bind_ok _ _ _).1 h
    obtain ⟨t', h2, h⟩ := (Out.bind_ok _ _ _).1 h
    injection h with h
    injection h with e1 e2
    dsimp only at e1 h2
    subst e1; subst e2
    obtain ⟨b, a, e, h3, h4⟩ := (waitLoop_iff _ _ _ _ _).1 h1
    have hd : d ∈ p.polls.filter fun t => decide (p.stdinWritten.getD 0 ≤ t) := by rw [e]; simp
    rw [List.mem_filter] at hd
    refine ⟨d, ?_, hd.1, ?_⟩
    · unfold joinOutput at h2
      split at h2
      · cases h2
      · injection h2 with h2; subst h2; exact Nat.le_max_left _ _
    · rcases h4 with ⟨h5, h6, h7, h8⟩ | h5 | h5
      · exact Or.inl ⟨h8, h6, h7, h5⟩
      · exact Or.inr (Or.inl h5)
      · exact Or.inr (Or.inr h5)

/-- C58, as far as it holds: a process that is always found running is reported as a timeout, once it is polled at the
limit or later and has closed its output. Missing: that it is stopped at the limit whatever it does with its output. -/
theorem C58_limit_partial (p : Proc) (timeout w c : Nat) (h0 : 0 < timeout) (hw : p.stdinWritten = some w)
    (hc : p.outputClosed = some c) (hr : ∀ u ∈ p.polls, p.poll u = .running)
    (hp : ∃ u ∈ p.polls, w ≤ u ∧ timeout ≤ u) : ∃ t, waitWithTimeout (some p) true timeout = .ok (.timeout, t) := by
  unfold waitWithTimeout
  simp only [Bool.not_true, Bool.false_eq_true, if_false, hw, Option.isNone_some, Option.getD_some]
  have key : ∀ ts : List Nat, (∀ u ∈ ts, p.poll u = .running) → (∃ u ∈ ts, timeout ≤ u) →
      ∃ d, waitLoop p.poll timeout ts = .ok (.timeout, d) := by
    intro ts
    induction ts with
    | nil => rintro _ ⟨u, hu, _⟩; simp at hu
    | cons x ts ih =>
      intro h1 h2
      rw [waitLoop, h1 x (by simp)]
      dsimp only
      by_cases hx : timeout = 0 ∨ x < timeout
      · rw [if_pos hx]
        refine ih (fun u hu => h1 u (by simp [hu])) ?_
        obtain ⟨u, hu, h3⟩ := h2
        rcases List.mem_cons.1 hu with rfl | hu
        · omega
        · exact ⟨u, hu, h3⟩
      · rw [if_neg hx]
        exact ⟨x, rfl⟩
  obtain ⟨u, hu, h1, h2⟩ := hp
  obtain ⟨d, hd⟩ := key (p.polls.filter fun t => decide (w ≤ t)) (fun u hu => hr u (List.mem_filter.1 hu).1)
    ⟨u, List.mem_filter.2 ⟨hu, by simpa using h1⟩, h2⟩
  rw [hd]
  refine ⟨max d c, ?_⟩
  simp [Out.bind_eq, Out.bind, joinOutput, hc]
  rfl

/-- A process that sleeps until 1000 and then exits, closing its output as it does. -/
def sleeper : Proc := ⟨fun t => if t < 1000 then .running else .exited (some 0), some 0, some 1000, [0, 1, 2]⟩

/-- C58 refuted: with a limit of 1 the test takes until 1000, when the process ends by itself; and a process that never
closes its output is never given up. The code waits for the end of the output before it kills the process. -/
theorem C58_stopped_refuted : waitWithTimeout (some sleeper) true 1 = .ok (.timeout, 1000) ∧
    waitWithTimeout (some { sleeper with poll := fun _ => .running, outputClosed := none }) true 1 = .hang := by
  decide +kernel

/-! ## C59: binaries as tests -/

/-- C59, as far as it holds: what happens without starting the binary. -/
theorem C59_not_run_partial (rx : Rx) (w : World) (unsupported : List BExpr) (t : TestCase) (o : LitOptions) :
    ((∃ e ∈ unsupported, Holds rx (· ∈ t.config.features) e) → executeBinary rx w unsupported t o = .ok .unsupported) ∧
    ((∀ e ∈ unsupported, ¬Holds rx (· ∈ t.config.features) e) → o.noExecute = true →
      executeBinary rx w unsupported t o = .ok .pass) := by
  have h := (BSpec.C37_unsupported rx t.config.features unsupported).1
  unfold executeBinary
  constructor
  · rintro ⟨e, he, hh⟩
    have : (unsupportedFeatures rx t.config.features unsupported).isSome = true := by
      cases hu : unsupportedFeatures rx t.config.features unsupported with
      | none => exact absurd hh (h.1 hu e he)
      | some _ => rfl
    rw [if_pos this]
  · intro hn ho
    rw [h.2 hn]
    simp [ho]

/-- C59 refuted: a binary that can be started never yields a verdict. The code takes a standard input that was not
asked for, and panics, whatever the binary does. -/
theorem C59_panics_refuted (rx : Rx) (w : World) (unsupported : List BExpr) (t : TestCase) (o : LitOptions)
    (hu : ∀ e ∈ unsupported, ¬Holds rx (· ∈ t.config.features) e) (ho : o.noExecute = false)
    (hp : w.pathsOk o.searchPaths = true) (hs : ∀ i, w.spawn 0 i ≠ none) :
    executeBinary rx w unsupported t o = .panic := by
  unfold executeBinary
  rw [(BSpec.C37_unsupported rx t.config.features unsupported).1.2 hu]
  simp only [Option.isSome_none, Bool.false_eq_true, if_false, ho, hp, if_true]
  generalize hi : (⟨t.absolute, t.workingDir, t.config.env, o.searchPaths, none⟩ : Invocation) = i
  cases hspawn : w.spawn 0 i with
  | none => exact absurd hspawn (hs i)
  | some p => rfl

/-! ## C38: the verdict -/

/-- The required features are there and no unsupported one is. -/
def Supported (rx : Rx) (features : List Str) (s : TestScript) : Prop :=
  (∀ e ∈ s.requires, Holds rx (· ∈ features) e) ∧ ∀ e ∈ s.unsupported, ¬Holds rx (· ∈ features) e

open Classical in
/-- The verdict once the commands have been run: a test expected to fail passes unexpectedly or fails as expected, and
every other outcome is left as it is. -/
noncomputable def finalVerdict (rx : Rx) (t : TestCase) (s : TestScript) (r : Status) : Status :=
  if t.xfailNot = false ∧ ∃ e ∈ s.xfails, Holds rx (· ∈ t.config.features) e then
    (if r = .pass ∨ r = .flakyPass then .xpass else if r = .fail then .xfail else r)
  else r

/-- C38, as far as it holds: a script that cannot be read is unresolved; a test that is not supported is so; with
`--no-execute` it passes; otherwise, if its file name has an extension, a temporary directory can be made and the
substitutions can be applied, the verdict is that of running the substituted commands with the retries the script
allows, with XFAIL taken into account. Missing: the other cases, see the refutations. -/
theorem C38_verdict_partial (rx : Rx) (srx : SubRx) (nd : Char → Bool) (w : World) (sh : ShTest) (t : TestCase)
    (o : LitOptions) (text : Str) (hsrc : t.source = some text) :
    (∀ es, Script.parse rx nd text = .error es → sh.execute rx srx nd w t o = .ok .unresolved) ∧
    (∀ s, Script.parse rx nd text = .ok s →
      (¬Supported rx t.config.features s → sh.execute rx srx nd w t o = .ok .unsupported) ∧
      (Supported rx t.config.features s →
        (o.noExecute = true → sh.execute rx srx nd w t o = .ok .pass) ∧
        (o.noExecute = false → ∀ temp stem ext cmds scope, w.temp = some temp → stemExt t.fileName = (stem, some ext) →
          applySubstitutions srx (testSubstitutions sh t temp stem ext) s.commands = .ok (cmds, scope) →
          sh.execute rx srx nd w t o =
            (runTest (runOnce w sh t o cmds) s.allowedRetries).2.map (finalVerdict rx t s)))) := by
  refine ⟨fun es h => ?_, fun s h => ⟨fun hn => ?_, fun hs => ?_⟩⟩
  · unfold ShTest.execute
    rw [hsrc]
    dsimp only
    rw [h]
  · unfold ShTest.execute
    rw [hsrc]
    dsimp only
    rw [h]
    dsimp only
    have h1 := (BSpec.C37_required rx t.config.features s.requires).1
    have h2 := (BSpec.C37_unsupported rx t.config.features s.unsupported).1
    cases hm : missingFeatures rx t.config.features s.requires with
    | some m => simp
    | none =>
      cases hu : unsupportedFeatures rx t.config.features s.unsupported with
      | some m => simp
      | none => exact absurd ⟨h1.1 hm, h2.1 hu⟩ hn
  · have hm := (BSpec.C37_required rx t.config.features s.requires).1.2 hs.1
    have hu := (BSpec.C37_unsupported rx t.config.features s.unsupported).1.2 hs.2
    refine ⟨fun ho => ?_, fun ho temp stem ext cmds scope h1 h2 h3 => ?_⟩
    · unfold ShTest.execute
      rw [hsrc]
      dsimp only
      rw [h]
      simp [hm, hu, ho]
    · unfold ShTest.execute
      rw [hsrc]
      dsimp only
      rw [h]
      simp only [hm, hu, ho, h1, h2, h3, Option.isSome_none, Bool.false_eq_true, if_false]
      have hx : (!t.xfailNot && s.xfails.any (fun e => e.evaluate rx t.config.features)) = true ↔
          (t.xfailNot = false ∧ ∃ e ∈ s.xfails, Holds rx (· ∈ t.config.features) e) := by
        rw [Bool.and_eq_true, List.any_eq_true]
        simp [BSpec.C36_meaning]
      cases (runTest (runOnce w sh t o cmds) s.allowedRetries).2 with
      | ok r =>
        simp only [Out.bind_eq, Out.bind, Out.map, finalVerdict, hx]
        by_cases hc : t.xfailNot = false ∧ ∃ e ∈ s.xfails, Holds rx (· ∈ t.config.features) e
        · rw [if_pos hc, if_pos (hx.2 hc)]
          cases r <;> simp [applyXfail, pure]
        · rw [if_neg hc, if_neg fun h => hc (hx.1 h)]
          rfl
      | _ => rfl

theorem splitOnce_spec (x : Char) (s k v : Str) (h : splitOnce x s = some (k, v)) : s = k ++ x :: v ∧ x ∉ k := by
  induction s generalizing k with
  | nil => simp [splitOnce] at h
  | cons c s ih =>
    rw [splitOnce] at h
    by_cases hc : c = x
    · subst hc
      simp only [beq_self_eq_true, if_true, Option.some.injEq, Prod.mk.injEq] at h
      obtain ⟨rfl, rfl⟩ := h
      simp
    · simp only [beq_iff_eq, hc, if_false, Option.map_eq_some_iff] at h
      obtain ⟨⟨k', v'⟩, h1, h2⟩ := h
      simp only [Prod.mk.injEq] at h2
      obtain ⟨rfl, rfl⟩ := h2
      obtain ⟨e, hn⟩ := ih _ h1
      exact ⟨by rw [e]; rfl, by simp [Ne.symm hc, hn]⟩

/-- The names of a test's temporary file: `%basename_t` is the name of the test file and `%t` adds `.tmp` to it. -/
theorem stemExt_name (name stem ext : Str) (h : stemExt name = (stem, some ext)) :
    name = stem ++ ['.'] ++ ext ∧ '.' ∉ ext ∧ stem ≠ [] := by
  unfold stemExt at h
  split at h
  · simp at h
  · cases hs : splitLastDot name with
    | none => rw [hs] at h; simp at h
    | some p =>
      rw [hs] at h
      simp only [Option.elim_some] at h
      split at h
      · simp at h
      · rename_i hne
        simp only [Prod.mk.injEq, Option.some.injEq] at h
        obtain ⟨rfl, rfl⟩ := h
        unfold splitLastDot at hs
        rw [Option.map_eq_some_iff] at hs
        obtain ⟨⟨k, v⟩, h1, rfl⟩ := hs
        obtain ⟨e, hn⟩ := splitOnce_spec _ _ _ _ h1
        have e2 := congrArg List.reverse e
        rw [List.reverse_reverse] at e2
        refine ⟨by rw [e2]; simp, by simpa using hn, ?_⟩
        intro h0
        exact hne (by rw [h0]; rfl)

theorem splitOnce_append (x : Char) (k v : Str) (h : x ∉ k) : splitOnce x (k ++ x :: v) = some (k, v) := by
  induction k with
  | nil => simp [splitOnce]
  | cons c k ih =>
    have hc : ¬ c = x := fun e => h (e ▸ List.mem_cons_self)
    rw [List.cons_append, splitOnce]
    simp only [beq_iff_eq, hc, if_false]
    rw [ih fun hm => h (List.mem_cons_of_mem _ hm)]
    rfl

/-- A file name with an extension: what is after its last dot, when there is something before it. -/
theorem stemExt_iff (name stem ext : Str) : stemExt name = (stem, some ext) ↔
    name = stem ++ ['.'] ++ ext ∧ '.' ∉ ext ∧ stem ≠ [] ∧ name ≠ ['.', '.'] := by
  constructor
  · intro h
    obtain ⟨h1, h2, h3⟩ := stemExt_name _ _ _ h
    refine ⟨h1, h2, h3, fun h4 => ?_⟩
    rw [h4] at h
    exact absurd h (by simp [stemExt])
  · rintro ⟨h1, h2, h3, h4⟩
    have hs : splitLastDot name = some (stem, ext) := by
      unfold splitLastDot
      rw [show name.reverse = ext.reverse ++ '.' :: stem.reverse by rw [h1]; simp, splitOnce_append _ _ _ (by simpa using h2)]
      simp
    unfold stemExt
    rw [if_neg h4, hs]
    simp [h3]

theorem lastOf_none (k : Str) (defs : List (Str × Str)) (h : ∀ x ∈ defs, x.1 ≠ k) : lastOf k defs = none := by
  unfold lastOf
  rw [List.find?_eq_none.2]
  · rfl
  · intro x hx
    simpa using h x (List.mem_reverse.1 hx)

/-! ## C89: the substitutions every test has -/

/-- **C89**: whatever the suite and the format define, the commands of a test see `%s` as the path of the test, `%S` as the directory it is in,
`%t` as the path of a file in the temporary directory, named as the test file and `.tmp`, `%basename_t` as the name of the test file, and `%%` as a
percent sign; every other key as the format defines it or, if it does not, as the suite does. -/
theorem C89_substitutions (sh : ShTest) (t : TestCase) (temp stem ext : Str) (h : stemExt t.fileName = (stem, some ext)) :
    let s := testSubstitutions sh t temp stem ext
    s.get "%s".toList = some t.absolute ∧ s.get "%S".toList = some t.parent ∧
    s.get "%t".toList = some (temp ++ "/".toList ++ t.fileName ++ ".tmp".toList) ∧
    s.get "%basename_t".toList = some t.fileName ∧ s.get "%%".toList = some "%".toList ∧
    ∀ k, k ∉ ["%s".toList, "%S".toList, "%t".toList, "%basename_t".toList, "%%".toList] →
      s.get k = (lastOf k sh.extra).or (t.config.substitutions.get k) := by
  have hn := (stemExt_name _ _ _ h).1
  have he : ∀ k, (testSubstitutions sh t temp stem ext).get k =
      if "%%".toList = k then some "%".toList
      else (lastOf k [("%s".toList, t.absolute), ("%S".toList, t.parent),
        ("%t".toList, temp ++ ['/'] ++ stem ++ ['.'] ++ ext ++ ".tmp".toList),
        ("%basename_t".toList, stem ++ ['.'] ++ ext)]).or ((lastOf k sh.extra).or (t.config.substitutions.get k)) := by
    intro k
    unfold testSubstitutions
    rw [C40_override]
    congr 1
    unfold Scoped.get Scoped.extend
    dsimp only
    rw [SubSet.get_extend, Option.or_assoc]
    congr 1
    exact C40_lookup _ _ _
  have hl : ∀ k a b c d, lastOf k [("%s".toList, a), ("%S".toList, b), ("%t".toList, c), ("%basename_t".toList, d)] =
      if k = "%s".toList then some a else if k = "%S".toList then some b else if k = "%t".toList then some c
      else if k = "%basename_t".toList then some d else none := by
    intro k a b c d
    by_cases h1 : k = "%s".toList
    · subst h1; rfl
    by_cases h2 : k = "%S".toList
    · subst h2; rfl
    by_cases h3 : k = "%t".toList
    · subst h3; rfl
    by_cases h4 : k = "%basename_t".toList
    · subst h4; rfl
    rw [if_neg h1, if_neg h2, if_neg h3, if_neg h4]
    exact lastOf_none _ _ fun x hx e => by
      simp only [List.mem_cons, List.not_mem_nil, or_false] at hx
      rcases hx with rfl | rfl | rfl | rfl
      · exact h1 e.symm
      · exact h2 e.symm
      · exact h3 e.symm
      · exact h4 e.symm
  refine ⟨?_, ?_, ?_, ?_, ?_, ?_⟩
  · rw [he, hl]; rfl
  · rw [he, hl]; rfl
  · rw [he, hl, hn]; simp
  · rw [he, hl, hn]; rfl
  · rw [he]; rfl
  · intro k hk
    simp only [List.mem_cons, List.not_mem_nil, or_false, not_or] at hk
    obtain ⟨h1, h2, h3, h4, h5⟩ := hk
    rw [he, hl, if_neg (Ne.symm h5), if_neg h1, if_neg h2, if_neg h3, if_neg h4]
    rfl

/-- A test file with two dots in its name. -/
example : stemExt "a.b.txt".toList = ("a.b".toList, some "txt".toList) := by decide +kernel

/-- What one run of a test can come to. -/
theorem runOnce_status (w : World) (sh : ShTest) (t : TestCase) (o : LitOptions) (cmds : List Cmd) (n : Nat) (s : Status)
    (h : runOnce w sh t o cmds n = .ok s) : s = .unresolved ∨ s = .pass ∨ s = .fail ∨ s = .timeout := by
  unfold runOnce at h
  obtain ⟨script, _, h⟩ := (Out.bind_ok _ _ _).1 h
  split at h
  · obtain ⟨⟨s', d⟩, h1, h⟩ := (Out.bind_ok _ _ _).1 h
    injection h with h
    dsimp only at h
    subst h
    cases hsp : w.spawn n ⟨sh.shell.getD "sh".toList, t.workingDir, t.config.env, o.searchPaths, some script⟩ with
    | none =>
      rw [hsp] at h1
      injection h1 with h1
      injection h1 with h1
      exact Or.inl h1.symm
    | some p =>
      rw [hsp] at h1
      obtain ⟨d, _, _, h2⟩ := C58_verdict_partial p _ _ _ h1
      rcases h2 with h2 | ⟨c, _, rfl⟩ | h2
      · exact Or.inr (Or.inr (Or.inr h2.1))
      · unfold Status.ofExit
        cases c with
        | none => exact Or.inl rfl
        | some c =>
          by_cases hc : c = 0
          · simp [hc]
          · simp [hc]
      · exact Or.inl h2.2
  · cases h

/-- C39 and C38 together: the verdict of a test script is a flaky pass only if it failed before it passed. -/
theorem C39_script (w : World) (sh : ShTest) (t : TestCase) (o : LitOptions) (cmds : List Cmd) (allowed : Option Nat) :
    let r := runTest (runOnce w sh t o cmds) allowed
    r.2 = .ok .flakyPass ↔ .ok .fail ∈ r.1 ∧ r.1.getLast? = some (.ok .pass) :=
  C39_flaky _ _ fun n h => by
    rcases runOnce_status w sh t o cmds n _ h with h | h | h | h <;> cases h

/-! ## The script given to the shell -/

/-- One command as the shell gets it. -/
def block (r : RunCmd) (quoted : Str) : Str :=
  "{\n  { set +x; } 2>/dev/null && echo 'RUN at line ".toList ++ (toString r.line).toList ++ "': ".toList ++ quoted ++
    " >&2 && { set -x; } 2>/dev/null && {\n".toList ++ r.command ++ "\n};\n}".toList

theorem writeCommands_eq (quote : Str → Option Str) (rs : List RunCmd) (first : Bool)
    (h : ∀ r ∈ rs, quote r.command ≠ none) : writeCommands quote first rs = .ok
      (if first then " && ".toList.intercalate (rs.map fun r => block r ((quote r.command).getD []))
       else (rs.map fun r => block r ((quote r.command).getD [])).flatMap (" && ".toList ++ ·)) := by
  induction rs generalizing first with
  | nil => cases first <;> simp [writeCommands, List.intercalate]
  | cons r rs ih =>
    rw [writeCommands, ih false fun r hr => h r (by simp [hr])]
    unfold writeCommand
    cases hq : quote r.command with
    | none => exact absurd hq (h r (by simp))
    | some q =>
      have hb : Out.ok ("{\n  { set +x; } 2>/dev/null && echo 'RUN at line ".toList ++ (toString r.line).toList ++
          "': ".toList ++ q ++ " >&2 && { set -x; } 2>/dev/null && {\n".toList ++ r.command ++ "\n};\n}".toList) =
        Out.ok (block r q) := rfl
      dsimp only
      rw [hb, List.map_cons, hq, Option.getD_some]
      generalize block r q = bl at *
      generalize (rs.map fun r => block r ((quote r.command).getD [])) = bs at *
      generalize " && ".toList = amp at *
      cases first
      · simp [Out.bind_eq, Out.bind, pure]
      · simp [Out.bind_eq, Out.bind, pure, Script.intercalate_cons]

/-- C38: the shell is given all commands of the RUN directives in their order, each in its own block, joined by `&&`, so
that a command is reached only when the ones before it have succeeded. -/
theorem C38_script (quote : Str → Option Str) (pipefail : Bool) (cmds : List Cmd)
    (h : ∀ r, .run r ∈ cmds → quote r.command ≠ none) : writeScript quote pipefail cmds = .ok
      ((if pipefail then "set -o pipefail;\n".toList else []) ++ "set -x;\n".toList ++
        " && ".toList.intercalate ((runsOf cmds).map fun r => block r ((quote r.command).getD [])) ++ ['\n']) := by
  unfold writeScript
  rw [writeCommands_eq quote (runsOf cmds) true]
  · rfl
  · intro r hr
    unfold runsOf at hr
    obtain ⟨c, hc, he⟩ := List.mem_filterMap.1 hr
    cases c with
    | run r' =>
      injection he with he
      subst he
      exact h r' hc
    | subst s => cases he

/-! ## Examples and refutations for C38 -/

/-- A world where the shell exits with this code. -/
def worldWith (code : Option Int) : World where
  spawn _ _ := some ⟨fun _ => .exited code, some 0, some 0, [0]⟩
  pathsOk _ := true
  temp := some "/tmp/x".toList
  quote s := some s

/-- A test file with this name and text. -/
def testNamed (name text : String) : TestCase where
  source := some text.toList
  fileName := name.toList
  absolute := "/s/".toList ++ name.toList
  parent := "/s".toList
  workingDir := "/w".toList
  config := { TestConfig.empty with features := ["linux".toList] }
  xfailNot := false

/-- No options. -/
def noOptions : LitOptions := ⟨false, none, []⟩

/-- The verdict of a test file when the shell exits with this code. -/
def verdictOf (name text : String) (code : Option Int) : Out Status :=
  ShTest.execute anyRx litRx asciiDigit (worldWith code) ⟨none, false, []⟩ (testNamed name text) noOptions

/-- The cases of C38, each with a concrete script. -/
example : verdictOf "a.txt" "RUN: x %s\n" (some 0) = .ok .pass ∧ verdictOf "a.txt" "RUN: x\n" (some 1) = .ok .fail ∧
    verdictOf "a.txt" "RUN: x\nXFAIL: linux\n" (some 0) = .ok .xpass ∧
    verdictOf "a.txt" "RUN: x\nXFAIL: linux\n" (some 3) = .ok .xfail ∧
    verdictOf "a.txt" "RUN: x\nXFAIL: linux\n" none = .ok .unresolved ∧
    verdictOf "a.txt" "RUN: x\nREQUIRES: other\n" (some 0) = .ok .unsupported ∧
    verdictOf "a.txt" "RUN: x\nUNSUPPORTED: linux\n" (some 0) = .ok .unsupported ∧
    verdictOf "a.txt" "no commands\n" (some 0) = .ok .unresolved := by
  decide +kernel

/-- C38 refuted: a test whose file name has no extension gets no verdict, the program panics. -/
theorem C38_extension_refuted : verdictOf "Makefile" "RUN: true\n" (some 0) = .panic := by decide +kernel

/-- C38 refuted: a script that redefines what is not defined is not reported as unresolved: running it is an error,
which ends the whole run. -/
theorem C38_redefine_refuted : verdictOf "a.txt" "REDEFINE: %{a} = b\nRUN: true\n" (some 0) = .err := by decide +kernel

/-! ## C50: `not` -/

/-- C50: `not` succeeds iff its command ran, did not crash and exited with a code that is not zero; with `--crash`, iff
its command crashed. A command that cannot be run is reported by its own codes. -/
theorem C50_not (crash : Bool) (cmd : Option NotOutcome) :
    (notRun crash cmd = 0 ↔ (crash = false ∧ ∃ c, cmd = some (.ended (some c)) ∧ c ≠ 0) ∨
      (crash = true ∧ cmd = some (.ended none))) ∧
    (notRun crash cmd = 127 ↔ cmd = some .notFound) ∧
    (notRun crash cmd = 126 ↔ cmd = some .cannotStart ∨ cmd = none) ∧
    (notRun crash cmd = 0 ∨ notRun crash cmd = 1 ↔ ∃ c, cmd = some (.ended c)) := by
  unfold notRun
  cases cmd with
  | none => simp
  | some r =>
    cases r with
    | notFound => simp
    | cannotStart => simp
    | ended c =>
      cases c with
      | none => cases crash <;> simp
      | some c => cases crash <;> by_cases h : c = 0 <;> simp [h]

/-- A failing command, a crash, and a missing one. -/
example : notRun false (some (.ended (some 1))) = 0 ∧ notRun false (some (.ended none)) = 1 ∧
    notRun true (some (.ended none)) = 0 ∧ notRun true (some .notFound) = 127 := by decide

end Litcheck
