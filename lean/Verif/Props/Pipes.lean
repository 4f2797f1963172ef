import Verif.Spec.Pipes
import Mathlib.Logic.Relation

/-!
# C93: the output of a test
-/

namespace Litcheck
open Pipes PipesSpec
open Relation (ReflTransGen)

namespace Pipes

/-- How much the parent can still do without the process. -/
def PState.left (s : PState) : Nat := s.script.length + (if s.writing then 1 else 0) + s.stdout.length + s.stderr.length

/-- Every run ends, whatever the schedule and the size of the pipes. -/
theorem acc (cap : Nat) : ∀ (c : Child) (n : Nat) (s : PState), s.child = c → s.left = n → Acc (fun a b => Step cap b a) s := by
  have inner : ∀ (c : Child), (∀ k s, (∃ b, c = .out b k ∨ c = .err b k) ∨ (∃ f v, c = .read f ∧ k = f v) → s.child = k → Acc (fun a b => Step cap b a) s) →
      ∀ (n : Nat) (s : PState), s.child = c → s.left = n → Acc (fun a b => Step cap b a) s := by
    intro c hc n
    induction n using Nat.strongRecOn with
    | ind n ih =>
      intro s hs hn
      refine ⟨_, fun s' h => ?_⟩
      cases h with
      | write h1 h2 h3 =>
        refine ih _ ?_ _ hs rfl
        rw [← hn]
        simp only [PState.left, h2, List.length_cons]
        omega
      | broken h1 h2 h3 =>
        refine ih _ ?_ _ hs rfl
        rw [← hn]
        simp only [PState.left, h1, List.length_nil, if_true, Bool.false_eq_true, if_false]
        omega
      | close h1 h2 =>
        refine ih _ ?_ _ hs rfl
        rw [← hn]
        simp only [PState.left, h1, if_true, Bool.false_eq_true, if_false]
        omega
      | @childRead k b r h1 h2 => exact hc (k (some b)) _ (.inr ⟨k, some b, by rw [← hs, h1], rfl⟩) rfl
      | @childEof k h1 h2 h3 => exact hc (k none) _ (.inr ⟨k, none, by rw [← hs, h1], rfl⟩) rfl
      | @childOut b k h1 h2 => exact hc k _ (.inl ⟨b, .inl (by rw [← hs, h1])⟩) rfl
      | @childErr b k h1 h2 => exact hc k _ (.inl ⟨b, .inr (by rw [← hs, h1])⟩) rfl
      | readOut h1 h2 =>
        refine ih _ ?_ _ hs rfl
        rw [← hn]
        simp only [PState.left, h2, List.length_cons]
        omega
      | readErr h1 h2 =>
        refine ih _ ?_ _ hs rfl
        rw [← hn]
        simp only [PState.left, h2, List.length_cons]
        omega
  intro c
  induction c with
  | exit =>
    refine inner _ ?_
    rintro k s (⟨b, h | h⟩ | ⟨f, v, h, -⟩) <;> cases h
  | read f ih =>
    refine inner _ ?_
    rintro k s (⟨b, h | h⟩ | ⟨f', v, h, rfl⟩) hk
    · cases h
    · cases h
    · cases h
      exact ih v _ s hk rfl
  | out b k ih =>
    refine inner _ ?_
    rintro k' s (⟨b', h | h⟩ | ⟨f', v, h, -⟩) hk
    · cases h; exact ih _ s hk rfl
    · cases h
    · cases h
  | err b k ih =>
    refine inner _ ?_
    rintro k' s (⟨b', h | h⟩ | ⟨f', v, h, -⟩) hk
    · cases h
    · cases h; exact ih _ s hk rfl
    · cases h

/-- What stays true: what was read, what is in the pipes and what is still to be written make up the output. -/
structure Good (cap : Nat) (c : Child) (script : List UInt8) (s : PState) : Prop where
  closed : s.writing = false → s.script = []
  room : s.writing = true → s.stdin.length + s.script.length ≤ cap
  out : s.gotOut ++ s.stdout ++ (writes s.child (s.stdin ++ s.script)).1 = (writes c script).1
  err : s.gotErr ++ s.stderr ++ (writes s.child (s.stdin ++ s.script)).2 = (writes c script).2

theorem writes_exit (i : List UInt8) : writes .exit i = ([], []) := by cases i <;> rfl
theorem writes_out (b : UInt8) (k : Child) (i : List UInt8) : writes (.out b k) i = (b :: (writes k i).1, (writes k i).2) := by cases i <;> rfl
theorem writes_err (b : UInt8) (k : Child) (i : List UInt8) : writes (.err b k) i = ((writes k i).1, b :: (writes k i).2) := by cases i <;> rfl

theorem Good.step {cap : Nat} {c : Child} {script : List UInt8} {s s' : PState} (h : Good cap c script s) (hs : Step cap s s') : Good cap c script s' := by
  obtain ⟨g1, g2, g3, g4⟩ := h
  cases hs with
  | @write b r h1 h2 h3 =>
    rw [h2] at g3 g4
    refine ⟨fun h => by simp [h1] at h, fun _ => ?_, ?_, ?_⟩
    · have := g2 h1
      rw [h2] at this
      simp only [List.length_append, List.length_cons, List.length_nil] at this ⊢
      omega
    · simpa using g3
    · simpa using g4
  | broken h1 h2 h3 =>
    rw [h2, writes_exit] at g3 g4
    refine ⟨fun _ => rfl, fun h => by simp at h, ?_, ?_⟩
    · simpa [h2, writes_exit] using g3
    · simpa [h2, writes_exit] using g4
  | close h1 h2 => exact ⟨fun _ => h2, fun h => by simp at h, g3, g4⟩
  | @childRead k b r h1 h2 =>
    rw [h1, h2] at g3 g4
    refine ⟨g1, fun h => ?_, g3, g4⟩
    have := g2 h
    rw [h2] at this
    simp only [List.length_cons] at this ⊢
    omega
  | @childEof k h1 h2 h3 =>
    rw [h1, h2, g1 h3] at g3 g4
    refine ⟨g1, fun h => by simp [h3] at h, ?_, ?_⟩
    · dsimp only; rw [h2, g1 h3]; exact g3
    · dsimp only; rw [h2, g1 h3]; exact g4
  | childOut h1 h2 =>
    rw [h1, writes_out] at g3 g4
    exact ⟨g1, g2, by simpa using g3, by simpa using g4⟩
  | childErr h1 h2 =>
    rw [h1, writes_err] at g3 g4
    exact ⟨g1, g2, by simpa using g3, by simpa using g4⟩
  | readOut h1 h2 =>
    rw [h2] at g3
    exact ⟨g1, g2, by simpa using g3, g4⟩
  | readErr h1 h2 =>
    rw [h2] at g4
    exact ⟨g1, g2, g3, by simpa using g4⟩

theorem good_start {cap : Nat} {c : Child} {script : List UInt8} (h : script.length ≤ cap) : Good cap c script (start c script) :=
  ⟨fun h => by simp [start] at h, fun _ => by simpa [start] using h, by simp [start], by simp [start]⟩

theorem good_runs {cap : Nat} {c : Child} {script : List UInt8} (h : script.length ≤ cap) {s : PState} (hs : ReflTransGen (Step cap) (start c script) s) :
    Good cap c script s := by
  induction hs with
  | refl => exact good_start h
  | tail _ h2 ih => exact ih.step h2

theorem Good.progress {cap : Nat} {c : Child} {script : List UInt8} {s : PState} (hc : 0 < cap) (h : Good cap c script s) : s.Done ∨ ∃ s', Step cap s s' := by
  cases hw : s.writing with
  | true =>
    right
    cases hsc : s.script with
    | nil => exact ⟨_, .close hw hsc⟩
    | cons b r =>
      have := h.room hw
      rw [hsc] at this
      simp only [List.length_cons] at this
      exact ⟨_, .write hw hsc (by omega)⟩
  | false =>
    cases ho : s.stdout with
    | cons b r => exact .inr ⟨_, .readOut hw ho⟩
    | nil =>
      cases he : s.stderr with
      | cons b r => exact .inr ⟨_, .readErr hw he⟩
      | nil =>
        cases hch : s.child with
        | exit => exact .inl ⟨hch, hw, ho, he⟩
        | read k =>
          cases hi : s.stdin with
          | nil => exact .inr ⟨_, .childEof hch hi hw⟩
          | cons b r => exact .inr ⟨_, .childRead hch hi⟩
        | out b k => exact .inr ⟨_, .childOut hch (by rw [ho]; exact hc)⟩
        | err b k => exact .inr ⟨_, .childErr hch (by rw [he]; exact hc)⟩

end Pipes

/-- **C93**: every run of a process which ends by itself comes to an end, whatever the schedule: there is no endless run. -/
theorem C93_finite (cap : Nat) (c : Child) (script : List UInt8) : Acc (fun a b => Step cap b a) (start c script) := acc cap c _ _ rfl rfl

/-- **C93**, for scripts which fit into a pipe: however its steps and those of the process are scheduled, `lit` is never stuck, and in the end it has exactly what the process
writes, each output in order, when its standard input is the script.
Missing (hence partial): scripts which are larger than a pipe, for which this is false (`C93_stuck_refuted`). -/
theorem C93_output_partial {cap : Nat} (hc : 0 < cap) (c : Child) {script : List UInt8} (h : script.length ≤ cap) {s : PState}
    (hs : ReflTransGen (Step cap) (start c script) s) :
    (s.Done ∨ ∃ s', Step cap s s') ∧ (s.Done → (s.gotOut, s.gotErr) = writes c script) := by
  have hg := good_runs h hs
  refine ⟨hg.progress hc, ?_⟩
  rintro ⟨h1, h2, h3, h4⟩
  have g3 := hg.out
  have g4 := hg.err
  rw [h1, writes_exit, h3] at g3
  rw [h1, writes_exit, h4] at g4
  simp only [List.append_nil] at g3 g4
  rw [g3, g4]

/-- **C93**: so there is a way to the end from wherever a run has got to. -/
theorem C93_reaches_end_partial {cap : Nat} (hc : 0 < cap) (c : Child) {script : List UInt8} (h : script.length ≤ cap) {s : PState}
    (hs : ReflTransGen (Step cap) (start c script) s) : ∃ s', ReflTransGen (Step cap) s s' ∧ s'.Done ∧ (s'.gotOut, s'.gotErr) = writes c script := by
  have ha : Acc (fun a b => Step cap b a) s := acc cap _ _ s rfl rfl
  induction ha with
  | intro s _ ih =>
    obtain ⟨h1 | ⟨s', h1⟩, h2⟩ := C93_output_partial hc c h hs
    · exact ⟨s, .refl, h1, h2 h1⟩
    · obtain ⟨t, h3, h4⟩ := ih s' h1 (hs.tail h1)
      exact ⟨t, .head h1 h3, h4⟩

/-- **C93**, what does not hold: a script which is larger than a pipe, and a process which writes more than a pipe holds before it reads (all of) it. Nobody reads the output while the script is
written; however the run is scheduled it never comes to the end, and never to the point where the time limit is looked at. -/
theorem C93_stuck_refuted (cap : Nat) (script : List UInt8) (h : cap < script.length) (b : UInt8) {s : PState}
    (hs : ReflTransGen (Step cap) (start (writer (cap + 1) b) script) s) : ¬ s.Done ∧ s.writing = true := by
  have key : s.writing = true ∧ s.stdin.length + s.script.length = script.length ∧ s.stdin.length ≤ cap ∧
      s.stdout.length ≤ cap ∧ ∃ n, s.child = writer n b ∧ s.stdout.length + n = cap + 1 := by
    induction hs with
    | refl => exact ⟨rfl, by simp [start], by simp [start], by simp [start], cap + 1, rfl, by simp [start]⟩
    | tail _ h2 ih =>
      obtain ⟨k1, k2, k3, k4, n, k5, k6⟩ := ih
      obtain ⟨m, rfl⟩ : ∃ m, n = m + 1 := ⟨n - 1, by omega⟩
      cases h2 with
      | write h1 h2 h3 =>
        rw [h2] at k2
        refine ⟨k1, ?_, ?_, k4, _, k5, k6⟩
        · simp only [List.length_append, List.length_cons, List.length_nil] at k2 ⊢
          omega
        · simp only [List.length_append, List.length_cons, List.length_nil]
          omega
      | broken h1 h2 h3 => rw [h2] at k5; simp [writer] at k5
      | close h1 h2 =>
        rw [h2] at k2
        simp only [List.length_nil] at k2
        omega
      | childRead h1 h2 => rw [h1] at k5; simp [writer] at k5
      | childEof h1 h2 h3 => rw [k1] at h3; cases h3
      | childOut h1 h2 =>
        rw [h1] at k5
        simp only [writer, Child.out.injEq] at k5
        refine ⟨k1, k2, k3, ?_, m, k5.2, ?_⟩
        · simp only [List.length_append, List.length_cons, List.length_nil]
          omega
        · simp only [List.length_append, List.length_cons, List.length_nil]
          omega
      | childErr h1 h2 => rw [h1] at k5; simp [writer] at k5
      | readOut h1 h2 => rw [k1] at h1; cases h1
      | readErr h1 h2 => rw [k1] at h1; cases h1
  refine ⟨fun hd => ?_, key.1⟩
  have hw := hd.2.1
  rw [key.1] at hw
  cases hw

/-! ## Examples -/

namespace PipesEx

/-- A process which echoes its standard input, and reports the end. -/
def echo : Nat → Child
  | 0 => .exit
  | n + 1 => .read fun
    | some b => .out b (echo n)
    | none => .err 33 .exit

/-- The hypotheses of C93 are met, and the output is not empty. -/
example : ∃ s, ReflTransGen (Step 4) (start (echo 9) [1, 2, 3]) s ∧ s.Done ∧ (s.gotOut, s.gotErr) = ([1, 2, 3], [33]) :=
  C93_reaches_end_partial (by decide) (echo 9) (by decide) .refl

/-- Some run does get stuck: pipes of two bytes, a script of three, and a process which writes three bytes. -/
example : ∃ s, ReflTransGen (Step 2) (start (writer 3 7) [1, 2, 3]) s ∧ ∀ s', ¬ Step 2 s s' := by
  refine ⟨⟨writer 1 7, [3], true, [1, 2], [7, 7], [], [], []⟩, ?_, ?_⟩
  · refine .head (.write (b := 1) (r := [2, 3]) rfl rfl (by decide)) (.head (.write (b := 2) (r := [3]) rfl rfl (by decide)) ?_)
    exact .head (.childOut (b := 7) (k := writer 2 7) rfl (by decide)) (.head (.childOut (b := 7) (k := writer 1 7) rfl (by decide)) .refl)
  · intro s' h
    cases h with
    | write h1 h2 h3 => exact absurd h3 (by decide)
    | broken h1 h2 h3 => cases h2
    | close h1 h2 => cases h2
    | childRead h1 h2 => cases h1
    | childEof h1 h2 h3 => cases h1
    | childOut h1 h2 => exact absurd h2 (by decide)
    | childErr h1 h2 => cases h1
    | readOut h1 h2 => cases h1
    | readErr h1 h2 => cases h1

end PipesEx

end Litcheck
