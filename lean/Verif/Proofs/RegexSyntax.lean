import Verif.Proofs.Regex

/-!
# Putting sources of regular expressions together

Sources without an alternative at the outermost level may be written one after the other; any source may be put into a
group.
-/

namespace Litcheck.Regex
open Litcheck.RegexSpec

/-- The frames of a parse inside of another one: the outermost frame gets another name, and the items `ex` before its own. -/
def embL (nm : Option Str) (ex : List Re) (stk : List Frame) : List Frame → List Frame
  | [] => stk
  | [f] => ⟨nm, f.alts, f.seq ++ ex⟩ :: stk
  | f :: g :: fs => f :: embL nm ex stk (g :: fs)

/-- The same for a state. -/
def PSt.emb (nm : Option Str) (ex : List Re) (stk : List Frame) (st : PSt) : PSt :=
  match st.stack with
  | [] => ⟨st.mode, st.lazy, ⟨nm, st.top.alts, st.top.seq ++ ex⟩, stk⟩
  | s => ⟨st.mode, st.lazy, st.top, embL nm ex stk s⟩

/-- The alternatives at the outermost level. -/
def PSt.outer (st : PSt) : List Re :=
  (st.stack.getLast?.getD st.top).alts

section
variable {nm : Option Str} {ex : List Re} {stk : List Frame}

theorem emb_push (st : PSt) (r : Re) : (st.push r).emb nm ex stk = (st.emb nm ex stk).push r := by
  obtain ⟨m, l, t, s⟩ := st
  cases s <;> simp [PSt.push, PSt.emb]

theorem emb_mode (st : PSt) (m : Mode) : ({ st with mode := m } : PSt).emb nm ex stk = { st.emb nm ex stk with mode := m } := by
  obtain ⟨m', l, t, s⟩ := st
  cases s <;> simp [PSt.emb]

theorem emb_lazy (st : PSt) (l : Bool) : ({ st with lazy := l } : PSt).emb nm ex stk = { st.emb nm ex stk with lazy := l } := by
  obtain ⟨m', l', t, s⟩ := st
  cases s <;> simp [PSt.emb]

theorem emb_lazy_eq (st : PSt) : (st.emb nm ex stk).lazy = st.lazy := by
  obtain ⟨m', l', t, s⟩ := st
  cases s <;> simp [PSt.emb]

theorem emb_mode_eq (st : PSt) : (st.emb nm ex stk).mode = st.mode := by
  obtain ⟨m', l', t, s⟩ := st
  cases s <;> simp [PSt.emb]

theorem emb_repeat {st st' : PSt} {min : Nat} {max : Option Nat} (h : st.repeat_ min max = some st') :
    (st.emb nm ex stk).repeat_ min max = some (st'.emb nm ex stk) := by
  obtain ⟨m, l, ⟨n, a, q⟩, s⟩ := st
  cases q with
  | nil => simp [PSt.repeat_] at h
  | cons r rs =>
    simp only [PSt.repeat_, Option.some.injEq] at h
    subst h
    cases s <;> simp [PSt.emb, PSt.repeat_]

theorem emb_makeLazy {st st' : PSt} (h : st.makeLazy = some st') : (st.emb nm ex stk).makeLazy = some (st'.emb nm ex stk) := by
  obtain ⟨m, l, ⟨n, a, q⟩, s⟩ := st
  unfold PSt.makeLazy at h
  dsimp only at h
  split at h
  · simp only [Option.some.injEq] at h
    subst h
    cases s <;> simp [PSt.emb, PSt.makeLazy]
  · simp at h

theorem emb_open (st : PSt) (name : Option Str) : (st.open_ name).emb nm ex stk = (st.emb nm ex stk).open_ name := by
  obtain ⟨m, l, t, s⟩ := st
  cases s <;> simp [PSt.emb, PSt.open_, embL]

theorem emb_close {st st' : PSt} (h : st.close = some st') : (st.emb nm ex stk).close = some (st'.emb nm ex stk) := by
  obtain ⟨m, l, t, s⟩ := st
  cases s with
  | nil => simp [PSt.close] at h
  | cons f fs =>
    simp only [PSt.close, Option.some.injEq] at h
    subst h
    cases fs <;> simp [PSt.emb, PSt.close, embL]

theorem emb_itemStep {s0 st' : PSt} {c : Char} (h : itemStep s0 c = some st') (hx : ex = [] ∨ st'.outer = []) :
    itemStep (s0.emb nm ex stk) c = some (st'.emb nm ex stk) := by
  unfold itemStep at h ⊢
  by_cases h1 : c = '\\'
  · rw [if_pos h1] at h ⊢; simp only [Option.some.injEq] at h ⊢; subst h; exact (emb_mode _ _).symm
  rw [if_neg h1] at h ⊢
  by_cases h1 : c = '.'
  · rw [if_pos h1] at h ⊢; simp only [Option.some.injEq] at h ⊢; subst h; rw [emb_push]
  rw [if_neg h1] at h ⊢
  by_cases h1 : c = '^'
  · rw [if_pos h1] at h ⊢; simp only [Option.some.injEq] at h ⊢; subst h; rw [emb_push]
  rw [if_neg h1] at h ⊢
  by_cases h1 : c = '$'
  · rw [if_pos h1] at h ⊢; simp only [Option.some.injEq] at h ⊢; subst h; rw [emb_push]
  rw [if_neg h1] at h ⊢
  by_cases h1 : c = '*'
  · rw [if_pos h1] at h ⊢; exact emb_repeat h
  rw [if_neg h1] at h ⊢
  by_cases h1 : c = '+'
  · rw [if_pos h1] at h ⊢; exact emb_repeat h
  rw [if_neg h1] at h ⊢
  by_cases h1 : c = '{'
  · rw [if_pos h1] at h ⊢
    split at h
    · simp at h
    · rename_i hs
      rw [if_neg]
      · simp only [Option.some.injEq] at h ⊢; subst h; exact (emb_mode _ _).symm
      · obtain ⟨m, l, ⟨n, a, q⟩, s⟩ := s0
        cases s
        · dsimp only at hs
          simp only [PSt.emb]
          cases q <;> simp_all
        · exact hs
  rw [if_neg h1] at h ⊢
  by_cases h1 : c = '|'
  · rw [if_pos h1] at h ⊢
    simp only [Option.some.injEq] at h ⊢
    subst h
    obtain ⟨m, l, ⟨n, a, q⟩, s⟩ := s0
    cases s with
    | nil =>
      simp [PSt.outer] at hx
      simp [PSt.emb, hx]
    | cons f fs => simp [PSt.emb]
  rw [if_neg h1] at h ⊢
  by_cases h1 : c = '('
  · rw [if_pos h1] at h ⊢; simp only [Option.some.injEq] at h ⊢; subst h; exact (emb_mode _ _).symm
  rw [if_neg h1] at h ⊢
  by_cases h1 : c = ')'
  · rw [if_pos h1] at h ⊢; exact emb_close h
  rw [if_neg h1] at h ⊢
  by_cases h1 : c = '['
  · rw [if_pos h1] at h ⊢; simp only [Option.some.injEq] at h ⊢; subst h; exact (emb_mode _ _).symm
  rw [if_neg h1] at h ⊢
  simp only [Option.some.injEq] at h ⊢; subst h; rw [emb_push]

theorem emb_normalStep {st st' : PSt} {c : Char} (h : normalStep st c = some st') (hx : ex = [] ∨ st'.outer = []) :
    normalStep (st.emb nm ex stk) c = some (st'.emb nm ex stk) := by
  unfold normalStep at h ⊢
  by_cases hc : c = '?'
  · rw [if_pos hc] at h ⊢
    rw [emb_lazy_eq]
    split at h
    · rename_i hl; rw [if_pos hl]; exact emb_makeLazy h
    · rename_i hl; rw [if_neg hl]; exact emb_repeat h
  · rw [if_neg hc] at h ⊢
    have e := emb_lazy (nm := nm) (ex := ex) (stk := stk) st false
    rw [← e]
    exact emb_itemStep h hx

theorem emb_step {st st' : PSt} {c : Char} (h : step st c = some st') (hx : ex = [] ∨ st'.outer = []) :
    step (st.emb nm ex stk) c = some (st'.emb nm ex stk) := by
  unfold step at h ⊢
  rw [emb_mode_eq]
  split at h
  · rename_i hm; exact emb_normalStep h hx
  · rename_i hm
    cases hr : escRe c with
    | none => simp [hr] at h
    | some r => simp only [hr, Option.map_some, Option.some.injEq] at h ⊢; subst h; rw [emb_push]
  · rename_i hm
    split at h
    · rename_i hc; rw [if_pos hc]; simp only [Option.some.injEq] at h ⊢; subst h; exact (emb_mode _ _).symm
    · rename_i hc; rw [if_neg hc, ← emb_open]; exact emb_normalStep h hx
  · split at h
    · rename_i hc; rw [if_pos hc]; simp only [Option.some.injEq] at h ⊢; subst h; rw [emb_open]
    rename_i hc; rw [if_neg hc]
    split at h
    · rename_i hc; rw [if_pos hc]; simp only [Option.some.injEq] at h ⊢; subst h; exact (emb_mode _ _).symm
    rename_i hc; rw [if_neg hc]
    split at h
    · rename_i hc; rw [if_pos hc]; simp only [Option.some.injEq] at h ⊢; subst h; exact (emb_mode _ _).symm
    · simp at h
  · split at h
    · rename_i hc; rw [if_pos hc]; simp only [Option.some.injEq] at h ⊢; subst h; exact (emb_mode _ _).symm
    · simp at h
  · split at h
    · rename_i hc; rw [if_pos hc]
      split at h
      · simp at h
      · rename_i ha; rw [if_neg ha]; simp only [Option.some.injEq] at h ⊢; subst h; rw [emb_open]
    rename_i hc; rw [if_neg hc]
    split at h
    · rename_i hc; rw [if_pos hc]; simp only [Option.some.injEq] at h ⊢; subst h; exact (emb_mode _ _).symm
    · simp at h
  · split at h
    · rename_i hc; rw [if_pos hc]; simp only [Option.some.injEq] at h ⊢; subst h; exact (emb_mode _ _).symm
    · rename_i hc; rw [if_neg hc]
      cases hr : clsStep [] .fresh c with
      | none => simp [hr] at h
      | some r => simp only [hr, Option.map_some, Option.some.injEq] at h ⊢; subst h; exact (emb_mode _ _).symm
  · split at h
    · simp at h
    · rename_i hr; simp only [hr, Option.some.injEq] at h ⊢; subst h; exact (emb_mode _ _).symm
    · rename_i hr; simp only [hr, Option.some.injEq] at h ⊢; subst h; rw [emb_push]
  · split at h
    · rename_i hd hm; simp only [hd, Option.some.injEq] at h ⊢; subst h; exact (emb_mode _ _).symm
    · simp at h
    · rename_i hd hm
      split at h
      · rename_i hc; rw [if_pos hc]; exact emb_repeat h
      rename_i hc; rw [if_neg hc]
      split at h
      · rename_i hc; rw [if_pos hc]; simp only [Option.some.injEq] at h ⊢; subst h; exact (emb_mode _ _).symm
      · simp at h
  · split at h
    · rename_i hd; simp only [hd, Option.some.injEq] at h ⊢; subst h; exact (emb_mode _ _).symm
    · rename_i hd
      split at h
      · rename_i hc
        rw [if_pos hc]
        split at h
        · exact emb_repeat h
        · split at h
          · rename_i hle; rw [if_pos hle]; exact emb_repeat h
          · simp at h
      · simp at h

end

theorem outer_push (st : PSt) (r : Re) : (st.push r).outer = st.outer := by
  obtain ⟨m, l, t, s⟩ := st
  cases s <;> simp [PSt.push, PSt.outer, List.getLast?_cons]

theorem outer_mode (st : PSt) (m : Mode) : ({ st with mode := m } : PSt).outer = st.outer := rfl

theorem outer_repeat {st st' : PSt} {min : Nat} {max : Option Nat} (h : st.repeat_ min max = some st') :
    st'.outer = st.outer := by
  obtain ⟨m, l, ⟨n, a, q⟩, s⟩ := st
  cases q with
  | nil => simp [PSt.repeat_] at h
  | cons r rs =>
    simp only [PSt.repeat_, Option.some.injEq] at h
    subst h
    cases s <;> simp [PSt.outer, List.getLast?_cons]

theorem outer_makeLazy {st st' : PSt} (h : st.makeLazy = some st') : st'.outer = st.outer := by
  obtain ⟨m, l, ⟨n, a, q⟩, s⟩ := st
  unfold PSt.makeLazy at h
  dsimp only at h
  split at h
  · simp only [Option.some.injEq] at h
    subst h
    cases s <;> simp [PSt.outer, List.getLast?_cons]
  · simp at h

theorem outer_open (st : PSt) (name : Option Str) : (st.open_ name).outer = st.outer := by
  obtain ⟨m, l, t, s⟩ := st
  cases s <;> simp [PSt.open_, PSt.outer, List.getLast?_cons]

theorem outer_close {st st' : PSt} (h : st.close = some st') : st'.outer = st.outer := by
  obtain ⟨m, l, t, s⟩ := st
  cases s with
  | nil => simp [PSt.close] at h
  | cons f fs =>
    simp only [PSt.close, Option.some.injEq] at h
    subst h
    cases fs <;> simp [PSt.outer, List.getLast?_cons]

theorem outer_itemStep {s0 st' : PSt} {c : Char} (h : itemStep s0 c = some st') (ho : st'.outer = []) : s0.outer = [] := by
  unfold itemStep at h
  repeat' split at h
  all_goals first
    | (simp at h; done)
    | (simp only [Option.some.injEq] at h; subst h; first | (rw [outer_push] at ho; exact ho) | exact ho)
    | (rw [← outer_repeat h]; exact ho)
    | (rw [← outer_close h]; exact ho)
    | skip
  simp only [Option.some.injEq] at h
  subst h
  obtain ⟨m, l, ⟨n, a, q⟩, s⟩ := s0
  cases s <;> simp_all [PSt.outer, List.getLast?_cons]

theorem outer_normalStep {st st' : PSt} {c : Char} (h : normalStep st c = some st') (ho : st'.outer = []) : st.outer = [] := by
  unfold normalStep at h
  split at h
  · split at h
    · rw [← outer_makeLazy h]; exact ho
    · rw [← outer_repeat h]; exact ho
  · exact (outer_itemStep h ho : ({ st with lazy := false } : PSt).outer = [])

theorem outer_step {st st' : PSt} {c : Char} (h : step st c = some st') (ho : st'.outer = []) : st.outer = [] := by
  unfold step at h
  split at h
  · exact outer_normalStep h ho
  · cases hr : escRe c with
    | none => simp [hr] at h
    | some r => simp only [hr, Option.map_some, Option.some.injEq] at h; subst h; rw [outer_push] at ho; exact ho
  · split at h
    · simp only [Option.some.injEq] at h; subst h; exact ho
    · have := outer_normalStep h ho; rw [outer_open] at this; exact this
  · repeat' split at h
    all_goals first
      | (simp at h; done)
      | (simp only [Option.some.injEq] at h; subst h; first | (rw [outer_open] at ho; exact ho) | exact ho)
  · repeat' split at h
    all_goals first
      | (simp at h; done)
      | (simp only [Option.some.injEq] at h; subst h; first | (rw [outer_open] at ho; exact ho) | exact ho)
  · repeat' split at h
    all_goals first
      | (simp at h; done)
      | (simp only [Option.some.injEq] at h; subst h; first | (rw [outer_open] at ho; exact ho) | exact ho)
  · split at h
    · simp only [Option.some.injEq] at h; subst h; exact ho
    · cases hr : clsStep [] .fresh c with
      | none => simp [hr] at h
      | some r => simp only [hr, Option.map_some, Option.some.injEq] at h; subst h; exact ho
  · repeat' split at h
    all_goals first
      | (simp at h; done)
      | (simp only [Option.some.injEq] at h; subst h; first | (rw [outer_push] at ho; exact ho) | exact ho)
  · repeat' split at h
    all_goals first
      | (simp at h; done)
      | (rw [← outer_repeat h]; exact ho)
      | (simp only [Option.some.injEq] at h; subst h; exact ho)
  · repeat' split at h
    all_goals first
      | (simp at h; done)
      | (rw [← outer_repeat h]; exact ho)
      | (simp only [Option.some.injEq] at h; subst h; exact ho)

theorem outer_steps : ∀ (s : Str) {st st' : PSt}, steps st s = some st' → st'.outer = [] → st.outer = []
  | [], st, st', h, ho => by simp only [steps, Option.some.injEq] at h; subst h; exact ho
  | c :: cs, st, st', h, ho => by
    simp only [steps, Option.bind_eq_some_iff] at h
    obtain ⟨st1, h1, h2⟩ := h
    exact outer_step h1 (outer_steps cs h2 ho)

theorem emb_steps {nm : Option Str} {ex : List Re} {stk : List Frame} :
    ∀ (s : Str) {st st' : PSt}, steps st s = some st' → (ex = [] ∨ st'.outer = []) →
      steps (st.emb nm ex stk) s = some (st'.emb nm ex stk)
  | [], st, st', h, _ => by simp only [steps, Option.some.injEq] at h ⊢; rw [h]
  | c :: cs, st, st', h, hx => by
    simp only [steps, Option.bind_eq_some_iff] at h
    obtain ⟨st1, h1, h2⟩ := h
    have hx1 : ex = [] ∨ st1.outer = [] := by
      rcases hx with h | h
      · exact .inl h
      · exact .inr (outer_steps cs h2 h)
    simp only [steps, emb_step h1 hx1, Option.bind_some]
    exact emb_steps cs h2 hx

theorem steps_append : ∀ (s t : Str) (st : PSt), steps st (s ++ t) = (steps st s).bind fun st' => steps st' t
  | [], t, st => by simp [steps]
  | c :: cs, t, st => by
    simp only [List.cons_append, steps]
    cases step st c with
    | none => rfl
    | some st' => simp [steps_append cs t st']

/-- The source reads as a sequence of items (given in reverse) without an alternative at the outermost level. -/
def Items (s : Str) (l : List Re) : Prop := ∃ lz, steps init s = some ⟨.normal, lz, ⟨none, [], l⟩, []⟩

/-- The source reads as one expression, possibly with alternatives. -/
def Reads (s : Str) (r : Re) : Prop := ∃ lz alts seq, steps init s = some ⟨.normal, lz, ⟨none, alts, seq⟩, []⟩ ∧ r = altRe alts (seqRe seq)

theorem Items.reads {s : Str} {l : List Re} (h : Items s l) : Reads s (seqRe l) := by
  obtain ⟨lz, h⟩ := h
  exact ⟨lz, [], l, h, rfl⟩

theorem finish_some {st : PSt} {r : Re} (h : finish st = some r) :
    ∃ lz n alts seq, st = ⟨.normal, lz, ⟨n, alts, seq⟩, []⟩ ∧ r = altRe alts (seqRe seq) := by
  obtain ⟨m, l, ⟨n, a, q⟩, s⟩ := st
  unfold finish at h
  split at h
  · rename_i hc
    simp only [Option.some.injEq] at h
    dsimp only at hc
    obtain ⟨h1, h2⟩ := hc
    subst h1 h2
    exact ⟨l, n, a, q, rfl, by rw [← h]; rfl⟩
  · simp at h

theorem emb_id {nm : Option Str} {st : PSt} (h : (match st.stack.getLast? with | none => st.top.name | some f => f.name) = nm) :
    st.emb nm [] [] = st := by
  obtain ⟨m, l, ⟨n, a, q⟩, s⟩ := st
  cases s with
  | nil => simp [PSt.emb] at h ⊢; exact h.symm
  | cons f fs =>
    simp only [PSt.emb, PSt.mk.injEq, true_and]
    dsimp only at h
    induction fs generalizing f with
    | nil => simp at h; simp [embL, ← h]
    | cons g gs ih => simp only [embL]; rw [ih g (by simpa using h)]

/-- The outermost frame keeps its name. -/
theorem steps_name {s : Str} {st : PSt} (h : steps init s = some st) (hs : st.stack = []) : st.top.name = none := by
  have h1 := emb_steps (nm := none) (ex := []) (stk := []) s h (.inl rfl)
  have h2 : init.emb none [] [] = init := rfl
  rw [h2, h, Option.some.injEq] at h1
  obtain ⟨m, l, ⟨n, a, q⟩, s⟩ := st
  dsimp only at hs
  subst hs
  simp [PSt.emb] at h1
  exact h1

theorem parse_reads {s : Str} {r : Re} (h : parse s = some r) : Reads s r ∧ r.names.Nodup := by
  unfold parse at h
  split at h
  · simp at h
  · rename_i re hre
    split at h
    · rename_i hn
      simp only [Option.some.injEq] at h
      subst h
      obtain ⟨st, h1, h2⟩ := Option.bind_eq_some_iff.1 hre
      obtain ⟨lz, n, alts, seq, rfl, rfl⟩ := finish_some h2
      have := steps_name h1 rfl
      dsimp only at this
      subst this
      exact ⟨⟨lz, alts, seq, h1, rfl⟩, hn⟩
    · simp at h

theorem reads_parse {s : Str} {r : Re} (h : Reads s r) (hn : r.names.Nodup) : parse s = some r := by
  obtain ⟨lz, alts, seq, h1, rfl⟩ := h
  have h2 : (steps init s).bind finish = some (altRe alts (seqRe seq)) := by
    rw [h1]; simp [finish, Frame.re]
  unfold parse
  rw [h2]
  exact if_pos hn

theorem Reads.unique {s : Str} {r r' : Re} (h : Reads s r) (h' : Reads s r') : r = r' := by
  obtain ⟨lz, alts, seq, h1, rfl⟩ := h
  obtain ⟨lz', alts', seq', h2, rfl⟩ := h'
  rw [h1] at h2
  simp only [Option.some.injEq, PSt.mk.injEq, Frame.mk.injEq] at h2
  obtain ⟨_, _, ⟨_, rfl, rfl⟩, _⟩ := h2
  rfl

/-- The laziness of what was read before does not matter for a source which can be read by itself. -/
theorem steps_lazy {t : Str} {st : PSt} {seq : List Re} {lz : Bool} (h : steps init t = some st) (ht : t ≠ []) :
    steps ⟨.normal, lz, ⟨none, [], seq⟩, []⟩ t = steps ⟨.normal, false, ⟨none, [], seq⟩, []⟩ t := by
  cases t with
  | nil => exact absurd rfl ht
  | cons c cs =>
    simp only [steps]
    have : c ≠ '?' := by
      rintro rfl
      simp [steps, step, normalStep, init, PSt.repeat_] at h
    have e : step ⟨.normal, lz, ⟨none, [], seq⟩, []⟩ c = step ⟨.normal, false, ⟨none, [], seq⟩, []⟩ c := by
      simp only [step, normalStep, if_neg this]
    rw [e]

/-- Two sources without alternatives at the outermost level, one after the other. -/
theorem Items.append {s t : Str} {l m : List Re} (hs : Items s l) (ht : Items t m) : Items (s ++ t) (m ++ l) := by
  obtain ⟨lz, hs⟩ := hs
  obtain ⟨lz', ht⟩ := ht
  by_cases he : t = []
  · subst he
    simp only [steps, init, Option.some.injEq, PSt.mk.injEq, Frame.mk.injEq] at ht
    obtain ⟨_, _, ⟨_, _, rfl⟩, _⟩ := ht
    exact ⟨lz, by simpa using hs⟩
  · refine ⟨lz', ?_⟩
    rw [steps_append, hs, Option.bind_some, steps_lazy ht he]
    have := emb_steps (nm := none) (ex := l) (stk := []) t ht (.inr rfl)
    simpa [init, PSt.emb] using this

theorem Items.nil : Items [] [] := ⟨false, rfl⟩

/-- The characters of the name of a group. -/
def validName (n : Str) : Prop := n ≠ [] ∧ (∀ c ∈ n.head?, nameChar true c = true) ∧ ∀ c ∈ n.tail, nameChar false c = true

theorem nameChar_not_gt {f : Bool} {c : Char} (h : nameChar f c = true) : c ≠ '>' := by
  rintro rfl
  cases f <;> revert h <;> decide

theorem steps_name_tail : ∀ (n acc : Str) (lz : Bool) (t : Frame) (stk : List Frame), acc ≠ [] → (∀ c ∈ n, nameChar false c = true) →
    steps ⟨.name acc, lz, t, stk⟩ n = some ⟨.name (acc ++ n), lz, t, stk⟩
  | [], acc, lz, t, stk, _, _ => by simp [steps]
  | c :: cs, acc, lz, t, stk, ha, h => by
    have hc := h c (by simp)
    have hg := nameChar_not_gt hc
    have he : acc.isEmpty = false := by cases acc <;> simp_all
    simp only [steps, step, if_neg hg, he, hc, if_true, Option.bind_some]
    rw [steps_name_tail cs (acc ++ [c]) lz t stk (by simp) (fun x hx => h x (by simp [hx]))]
    simp

theorem steps_groupName {n : Str} (h : validName n) (lz : Bool) (t : Frame) (stk : List Frame) :
    steps ⟨.normal, lz, t, stk⟩ ("(?P<".toList ++ n ++ ['>']) = some ⟨.normal, false, ⟨some n, [], []⟩, t :: stk⟩ := by
  obtain ⟨h1, h2, h3⟩ := h
  cases n with
  | nil => exact absurd rfl h1
  | cons c cs =>
    have hc := h2 c rfl
    have hg := nameChar_not_gt hc
    have e : steps ⟨.normal, lz, t, stk⟩ "(?P<".toList = some ⟨.name [], false, t, stk⟩ := rfl
    rw [steps_append, steps_append, e, Option.bind_some]
    have e2 : steps ⟨.name [], false, t, stk⟩ (c :: cs) = some ⟨.name (c :: cs), false, t, stk⟩ := by
      simp only [steps, step, if_neg hg, List.isEmpty_nil, hc, if_true, Option.bind_some, List.nil_append]
      rw [steps_name_tail cs [c] false t stk (by simp) h3]
      simp
    rw [e2, Option.bind_some]
    rfl

/-- A source put into a named group. -/
theorem Items.group {n s : Str} {r : Re} (hn : validName n) (hs : Reads s r) :
    Items ("(?P<".toList ++ n ++ ['>'] ++ s ++ [')']) [.cap n r] := by
  obtain ⟨lz, alts, seq, hs, rfl⟩ := hs
  refine ⟨false, ?_⟩
  rw [steps_append, steps_append, init, steps_groupName hn, Option.bind_some]
  have := emb_steps (nm := some n) (ex := []) (stk := [⟨none, [], []⟩]) s hs (.inl rfl)
  simp only [init, PSt.emb, List.append_nil] at this
  rw [this, Option.bind_some]
  rfl

/-- A source put into a group without a name. -/
theorem Items.group' {s : Str} {r : Re} (hs : Reads s r) : Items ("(?:".toList ++ s ++ [')']) [r] := by
  obtain ⟨lz, alts, seq, hs, rfl⟩ := hs
  refine ⟨false, ?_⟩
  have e : steps init "(?:".toList = some ⟨.normal, false, ⟨none, [], []⟩, [⟨none, [], []⟩]⟩ := rfl
  rw [steps_append, steps_append, e, Option.bind_some]
  have := emb_steps (nm := none) (ex := []) (stk := [⟨none, [], []⟩]) s hs (.inl rfl)
  simp only [init, PSt.emb, List.append_nil] at this
  rw [this, Option.bind_some]
  rfl

theorem itemStep_other {c : Char} (st : PSt) (h : c ∉ "\\.+*?()|[]{}^$#&-~".toList) : itemStep st c = some (st.push (.char c)) := by
  have hm : ∀ d : Char, d ∈ "\\.+*?()|[]{}^$#&-~".toList → c ≠ d := fun d hd he => h (he ▸ hd)
  unfold itemStep
  rw [if_neg (hm _ (by decide)), if_neg (hm _ (by decide)), if_neg (hm _ (by decide)), if_neg (hm _ (by decide)),
    if_neg (hm _ (by decide)), if_neg (hm _ (by decide)), if_neg (hm _ (by decide)), if_neg (hm _ (by decide)),
    if_neg (hm _ (by decide)), if_neg (hm _ (by decide)), if_neg (hm _ (by decide))]

theorem escRe_meta : ∀ c ∈ "\\.+*?()|[]{}^$#&-~".toList, escRe c = some (Re.char c) := by decide

/-- The escaped text is read as its characters. -/
theorem Items.escape : ∀ s : Str, Items (Regex.escape s) (s.map Re.char).reverse
  | [] => Items.nil
  | c :: cs => by
    have h1 : Items (if "\\.+*?()|[]{}^$#&-~".toList.contains c then ['\\', c] else [c]) [Re.char c] := by
      split
      · rename_i hc
        have hm : c ∈ "\\.+*?()|[]{}^$#&-~".toList := List.contains_iff_mem.1 hc
        refine ⟨false, ?_⟩
        have e : steps init ['\\', c] = (escRe c).map (⟨.esc, false, ⟨none, [], []⟩, []⟩ : PSt).push := by
          simp only [steps, Option.bind_some]
          have : step init '\\' = some ⟨.esc, false, ⟨none, [], []⟩, []⟩ := rfl
          rw [this, Option.bind_some]
          simp only [step]
          cases (escRe c).map (⟨.esc, false, ⟨none, [], []⟩, []⟩ : PSt).push <;> rfl
        rw [e, escRe_meta c hm]
        rfl
      · rename_i hc
        refine ⟨false, ?_⟩
        have hm : c ∉ "\\.+*?()|[]{}^$#&-~".toList := fun h => hc (List.contains_iff_mem.2 h)
        have hq : c ≠ '?' := fun h => hm (h ▸ by decide)
        simp only [steps, init, step, normalStep, if_neg hq, itemStep_other _ hm, Option.bind_some]
        rfl
    have h2 := h1.append (Items.escape cs)
    simp only [List.map_cons, List.reverse_cons]
    exact h2

end Litcheck.Regex
