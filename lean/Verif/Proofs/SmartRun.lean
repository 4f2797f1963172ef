import Verif.Proofs.SmartSound

/-!
# The operations of a pattern with variables, one after the other
-/

namespace Litcheck.Pattern
open Litcheck.Smart Litcheck.Spec Litcheck.RegexSpec Litcheck.PatternSpec
open Litcheck.Regex hiding Items
open Litcheck.Lex (Part Match CPat VarName Expr Op)

/-- A successful run of operations, without the test for the end of the input. -/
inductive Runs {eng : Engine} (cf : Conf eng) (b : Buf) (hi : Nat) : List (MOp eng) → Vars → Smart.St → Smart.St → Vars → Prop
  | nil {env st} : Runs cf b hi [] env st { st with pat := true } env
  | constraint {e ops env st st1 st2 env2} : constrain cf env st e = .yes st1 → Runs cf b hi ops env st1 st2 env2 →
      Runs cf b hi (.constraint e :: ops) env st st2 env2
  | bind {x ty ops env st st1 env1 st2 env2} : bindVar env st x ty = .yes (st1, env1) → Runs cf b hi ops env1 st1 st2 env2 →
      Runs cf b hi (.bind x ty :: ops) env st st2 env2
  | drop {v rest ops env st st2 env2} : st.stack = v :: rest → Runs cf b hi ops env { st with stack := rest } st2 env2 →
      Runs cf b hi (.drop :: ops) env st st2 env2
  | part {op ops env st st1 s e st2 env2} : matchPart cf b hi env st op = .yes (st1, s, e) →
      Runs cf b hi ops env { st1 with mend := e, pos := min e b.length } st2 env2 → Runs cf b hi (op :: ops) env st st2 env2

theorem matchParts_runs {eng : Engine} {cf : Conf eng} {b : Buf} {hi : Nat} : ∀ (ops : List (MOp eng)) {env st st2 env2},
    matchParts cf b hi ops env st = .yes (st2, env2) → Runs cf b hi ops env st st2 env2
  | [], env, st, st2, env2, h => by
    simp only [matchParts, Smart.Step.yes.injEq, Prod.mk.injEq] at h
    obtain ⟨rfl, rfl⟩ := h
    exact .nil
  | op :: ops, env, st, st2, env2, h => by
    unfold matchParts at h
    split at h
    · simp at h
    · split at h
      · obtain ⟨a, h1, h2⟩ := Step.bind_yes h
        exact .constraint h1 (matchParts_runs ops h2)
      · obtain ⟨⟨a, a'⟩, h1, h2⟩ := Step.bind_yes h
        exact .bind h1 (matchParts_runs ops h2)
      · split at h
        · simp at h
        · rename_i hs
          exact .drop hs (matchParts_runs ops h)
      · obtain ⟨⟨a, s, e⟩, h1, h2⟩ := Step.bind_yes h
        exact .part h1 (matchParts_runs ops h2)

theorem constrain_eq {eng : Engine} {cf : Conf eng} {env : Vars} {st st1 : Smart.St} {e : Expr} (h : constrain cf env st e = .yes st1) :
    (∃ pt, st1 = { st with pat := pt }) ∧ ∃ w g, Value cf.line env none e w g := by
  unfold constrain at h
  split at h
  · simp at h
  · obtain ⟨r, h1, h2⟩ := Step.bind_yes h
    split at h2
    · split at h2
      · simp at h2
      · simp only [Smart.Step.yes.injEq] at h2
        subst h2
        refine ⟨?_, _, _, (evalExpr_sound _ _ h1).1 _ _ rfl⟩
        split
        · exact ⟨false, rfl⟩
        · exact ⟨st.pat, rfl⟩
    · simp at h2

theorem bindVar_st {env env1 : Vars} {st st1 : Smart.St} {x : VarName} {ty : Option Ty} (h : bindVar env st x ty = .yes (st1, env1)) :
    ∃ v rest, st.stack = v :: rest ∧ st1 = { st with stack := rest } := by
  unfold bindVar at h
  split at h
  · simp at h
  · rename_i v rest hs
    refine ⟨v, rest, hs, ?_⟩
    split at h
    · simp only [Smart.Step.yes.injEq, Prod.mk.injEq] at h; exact h.1.symm
    · simp only [Smart.Step.yes.injEq, Prod.mk.injEq] at h; exact h.1.symm
    · split at h
      · simp at h
      · simp only [Smart.Step.yes.injEq, Prod.mk.injEq] at h; exact h.1.symm

/-- The fields which a part leaves alone. -/
theorem matchPart_keeps {eng : Engine} {cf : Conf eng} {b : Buf} {hi : Nat} {env : Vars} {st st1 : Smart.St} {op : MOp eng} {s e : Nat}
    (h : matchPart cf b hi env st op = .yes (st1, s, e)) :
    st1.anchored = st.anchored ∧ st1.mstart = st.mstart ∧ ∃ more, st1.caps = st.caps ++ more := by
  cases op with
  | literal lit =>
    simp only [matchPart] at h
    split at h
    · split at h
      · simp only [Smart.Step.yes.injEq, Prod.mk.injEq] at h; rw [← h.1]; exact ⟨rfl, rfl, [], by simp⟩
      · simp at h
    · split at h
      · simp only [Smart.Step.yes.injEq, Prod.mk.injEq] at h; rw [← h.1]; exact ⟨rfl, rfl, [], by simp⟩
      · simp at h
  | regex prog caps =>
    simp only [matchPart] at h
    split at h
    · simp at h
    · obtain ⟨cs, h1, h2⟩ := Step.bind_yes h
      simp only [Smart.Step.yes.injEq, Prod.mk.injEq] at h2; rw [← h2.1]; exact ⟨rfl, rfl, cs, rfl⟩
  | numeric f cap =>
    simp only [matchPart] at h
    split at h
    · simp at h
    · split at h
      · simp at h
      · split at h
        · simp at h
        · split at h
          · simp at h
          · split at h
            · simp only [Smart.Step.yes.injEq, Prod.mk.injEq] at h; rw [← h.1]; exact ⟨rfl, rfl, [], by simp⟩
            · split at h
              · simp at h
              · split at h
                · simp only [Smart.Step.yes.injEq, Prod.mk.injEq] at h; rw [← h.1]; exact ⟨rfl, rfl, _, rfl⟩
                · simp at h
  | subst ex ty =>
    simp only [matchPart] at h
    obtain ⟨v, h1, h2⟩ := Step.bind_yes h
    split at h2
    · simp at h2
    · split at h2
      · simp at h2
      · simp only [Smart.Step.yes.injEq, Prod.mk.injEq] at h2; rw [← h2.1]; exact ⟨rfl, rfl, [], by simp⟩
  | bind => simp [matchPart] at h
  | drop => simp [matchPart] at h
  | constraint => simp [matchPart] at h

/-- Texts which were captured stay in the list. -/
theorem Runs.caps {eng : Engine} {cf : Conf eng} {b : Buf} {hi : Nat} {ops : List (MOp eng)} {env st st2 env2}
    (h : Runs cf b hi ops env st st2 env2) : ∃ more, st2.caps = st.caps ++ more := by
  induction h with
  | nil => exact ⟨[], by simp⟩
  | constraint h1 _ ih =>
    obtain ⟨⟨pt, rfl⟩, _⟩ := constrain_eq h1
    exact ih
  | bind h1 _ ih =>
    obtain ⟨v, rest, _, rfl⟩ := bindVar_st h1
    exact ih
  | drop _ _ ih => exact ih
  | part h1 _ ih =>
    obtain ⟨m1, e1⟩ := (matchPart_keeps h1).2.2
    obtain ⟨m2, e2⟩ := ih
    exact ⟨m1 ++ m2, by rw [e2]; simp [e1]⟩

/-- The bounds of what a part matches. -/
theorem matchPart_bounds {cf : Conf engine} {b : Buf} {hi : Nat} {env : Vars} {st st1 : Smart.St} {op : MOp engine} {s e : Nat}
    (h : matchPart cf b hi env st op = .yes (st1, s, e)) :
    st.pos ≤ s ∧ s ≤ e ∧ e ≤ hi ∧ (st.anchored = true → s = st.pos) := by
  cases op with
  | literal lit =>
    simp only [matchPart] at h
    split at h
    · split at h
      · rename_i ha hh
        simp only [Smart.Step.yes.injEq, Prod.mk.injEq] at h
        obtain ⟨rfl, rfl, rfl⟩ := h
        have := (hitAt_iff.1 hh).1
        exact ⟨by omega, by omega, by omega, fun _ => rfl⟩
      · simp at h
    · rename_i ha
      split at h
      · rename_i hf
        simp only [Smart.Step.yes.injEq, Prod.mk.injEq] at h
        obtain ⟨rfl, rfl, rfl⟩ := h
        obtain ⟨h1, h2, ⟨l, h3, h4, h5⟩, _⟩ := findSet_some hf
        have := (hitAt_iff.1 h5).1
        exact ⟨h1, by omega, by omega, fun h => absurd h ha⟩
      · simp at h
  | regex prog caps =>
    simp only [matchPart] at h
    split at h
    · simp at h
    · rename_i hit hf
      obtain ⟨cs, h1, h2⟩ := Step.bind_yes h
      simp only [Smart.Step.yes.injEq, Prod.mk.injEq] at h2
      obtain ⟨rfl, rfl, rfl⟩ := h2
      have hf' : find prog.1 prog.2 b st.pos hi st.anchored = some hit := hf
      have h3 := find_some hf'
      exact ⟨h3.1, h3.2.1, h3.2.2.1, h3.2.2.2.1⟩
  | numeric f cap =>
    simp only [matchPart] at h
    split at h
    · simp at h
    · split at h
      · simp at h
      · split at h
        · simp at h
        · rename_i prog _
          split at h
          · simp at h
          · rename_i hit hf
            have hf' : find prog.1 prog.2 b st.pos hi st.anchored = some hit := hf
            have h3 := find_some hf'
            have key : hit.start = s ∧ hit.stop = e := by
              split at h
              · simp only [Smart.Step.yes.injEq, Prod.mk.injEq] at h; exact h.2
              · split at h
                · simp at h
                · split at h
                  · simp only [Smart.Step.yes.injEq, Prod.mk.injEq] at h; exact h.2
                  · simp at h
            obtain ⟨rfl, rfl⟩ := key
            exact ⟨h3.1, h3.2.1, h3.2.2.1, h3.2.2.2.1⟩
  | subst ex ty =>
    simp only [matchPart] at h
    obtain ⟨v, h1, h2⟩ := Step.bind_yes h
    split at h2
    · simp at h2
    · rename_i prog hb
      split at h2
      · simp at h2
      · rename_i hit hf
        simp only [Smart.Step.yes.injEq, Prod.mk.injEq] at h2
        obtain ⟨rfl, rfl, rfl⟩ := h2
        have hf' : find prog.1 prog.2 b st.pos hi st.anchored = some hit := hf
        have h3 := find_some hf'
        exact ⟨h3.1, h3.2.1, h3.2.2.1, h3.2.2.2.1⟩
  | bind => simp [matchPart] at h
  | drop => simp [matchPart] at h
  | constraint => simp [matchPart] at h

/-! ## Captures which are bound -/

theorem reads_unique {s : Str} {r r' : Re} (h : Reads s r) (h' : Reads s r') : r = r' := by
  obtain ⟨lz, a, q, h1, rfl⟩ := h
  obtain ⟨lz', a', q', h2, rfl⟩ := h'
  rw [h1] at h2
  simp only [Option.some.injEq, PSt.mk.injEq, Frame.mk.injEq] at h2
  obtain ⟨_, _, ⟨_, rfl, rfl⟩, _⟩ := h2
  rfl

/-- What `capture` gives when every group took part. -/
theorem capture_spans {b : Buf} {h : Hit} : ∀ {sp : List (Cap × Nat × Nat)} {cs : List (Ty × Str)},
    (∀ x ∈ sp, h.group (symOf x.1.name) = some x.2) → capture b h (sp.map Prod.fst) = .yes cs →
    List.Forall₂ (fun x c => c.1 = x.1.ty ∧ utf8 c.2 = sliceOf b x.2.1 x.2.2) sp cs
  | [], cs, _, hc => by
    simp only [List.map_nil, capture, Smart.Step.yes.injEq] at hc
    subst hc
    exact .nil
  | x :: sp, cs, hg, hc => by
    simp only [List.map_cons, capture] at hc
    rw [hg x (by simp)] at hc
    dsimp only at hc
    split at hc
    · simp at hc
    · rename_i t ht
      obtain ⟨rest, h1, h2⟩ := Step.bind_yes hc
      simp only [Smart.Step.yes.injEq] at h2
      subst h2
      exact .cons ⟨rfl, fromUtf8_sound _ _ _ ht⟩ (capture_spans (fun y hy => hg y (by simp [hy])) h1)

/-- The text can be converted to the type. -/
def Converts (c : Ty × Str) : Prop :=
  match c.1 with
  | .string => True
  | .number f => ∃ n, Num.parseWithFormat c.2 (f.getD plainFormat) = .ok n

theorem convertible_iff {caps : List (Ty × Str)} : convertible caps = true ↔ ∀ c ∈ caps, Converts c := by
  unfold convertible
  rw [List.all_eq_true]
  refine forall_congr' fun c => forall_congr' fun _ => ?_
  obtain ⟨ty, t⟩ := c
  cases ty with
  | string => simp [Converts]
  | number f =>
    simp only [Converts, plainFormat]
    cases h : Num.parseWithFormat t (f.getD (.unsigned 0)) <;> simp

/-- One binding instruction gives the variable the value of its capture. -/
theorem bind_value {ic : Bool} {b : Buf} {env env1 : Vars} {st st1 : Smart.St} {x : Cap × Nat × Nat} {c : Ty × Str} {rest : List Val}
    (hx : c.1 = x.1.ty ∧ utf8 c.2 = sliceOf b x.2.1 x.2.2) (hn : NumSpan ic b x) (hc : Converts c)
    (hs : st.stack = .str c.2 :: rest) (h : bindVar env st x.1.name (some x.1.ty) = .yes (st1, env1)) :
    ∃ v, CapVal b x.1 x.2.1 x.2.2 v ∧ env1 = env.insert (keyOf x.1.name) v ∧ st1 = { st with stack := rest } := by
  obtain ⟨cty, t⟩ := c
  obtain ⟨⟨nm, ty⟩, i, j⟩ := x
  dsimp only at hx hs h ⊢
  obtain ⟨rfl, hu⟩ := hx
  unfold bindVar at h
  rw [hs] at h
  cases cty with
  | string =>
    simp only [Smart.Step.yes.injEq, Prod.mk.injEq] at h
    obtain ⟨rfl, rfl⟩ := h
    exact ⟨.str t, ⟨t, hu, rfl⟩, rfl, rfl⟩
  | number f =>
    dsimp only at h
    split at h
    · simp at h
    · rename_i v f' ha
      simp only [Smart.Step.yes.injEq, Prod.mk.injEq] at h
      obtain ⟨rfl, rfl⟩ := h
      obtain ⟨t', h1, h2⟩ := hn f rfl
      obtain ⟨n, h3⟩ := hc
      obtain ⟨h4, _⟩ := format_text h1 h2 hu h3
      obtain ⟨rfl, rfl⟩ := asNumeric_agree h4 h3 ha
      exact ⟨_, ⟨t, hu, v, f', h3, rfl, rfl⟩, rfl, rfl⟩

/-- The binding instructions of a regular expression, the last capture first. -/
theorem binds_reversed {cf : Conf engine} {ic : Bool} {b : Buf} {hi : Nat} : ∀ (sp : List (Cap × Nat × Nat)) {cs : List (Ty × Str)}
    {env env2 : Vars} {st st2 : Smart.St} {rest : List Val} {ops : List (MOp engine)},
    List.Forall₂ (fun x c => c.1 = x.1.ty ∧ utf8 c.2 = sliceOf b x.2.1 x.2.2) sp cs →
    (∀ x ∈ sp, NumSpan ic b x) → (∀ c ∈ cs, Converts c) → st.stack = cs.map (fun c => Val.str c.2) ++ rest →
    Runs cf b hi (sp.map (fun x => .bind x.1.name (some x.1.ty)) ++ ops) env st st2 env2 →
    ∃ vs : List Val, List.Forall₂ (fun x v => CapVal b x.1 x.2.1 x.2.2 v) sp vs ∧
      Runs cf b hi ops ((sp.zip vs).foldl (fun e p => e.insert (keyOf p.1.1.name) p.2) env) { st with stack := rest } st2 env2
  | [], cs, env, env2, st, st2, rest, ops, hf, _, _, hs, hr => by
    cases hf
    have e : { st with stack := rest } = st := by rw [List.map_nil, List.nil_append] at hs; rw [← hs]
    exact ⟨[], .nil, by simpa [e] using hr⟩
  | x :: sp, cs, env, env2, st, st2, rest, ops, hf, hn, hc, hs, hr => by
    obtain ⟨c, cs', h1, h2, rfl⟩ := List.forall₂_cons_left_iff.1 hf
    rw [List.map_cons, List.cons_append] at hr hs
    cases hr with
    | bind hb hr =>
      obtain ⟨v, hv, rfl, rfl⟩ := bind_value h1 (hn x (by simp)) (hc c (by simp)) hs hb
      obtain ⟨vs, h3, h4⟩ := binds_reversed sp h2 (fun y hy => hn y (by simp [hy])) (fun y hy => hc y (by simp [hy])) (rest := rest) rfl hr
      exact ⟨v :: vs, .cons hv h3, by simpa using h4⟩
    | part hb => simp [matchPart] at hb

end Litcheck.Pattern
