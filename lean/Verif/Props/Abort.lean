import Verif.Proofs.PatternTotal
import Verif.Props.Variables

/-!
# Property C96: looking for a pattern never aborts
-/

namespace Litcheck
open Spec RegexSpec PatternSpec Smart Pattern
open Litcheck.Lex (Part Match CPat VarName Expr Op)
open Litcheck.Regex (utf8 engine)

/-- The program aborts when the pattern is compiled or looked for. -/
def Aborts (o : Opts) (line : Nat) (checked : Bool) (p : CPat) (b : Buf) (r : Rng) (env : Vars) : Prop :=
  (∃ q, Pattern.compile engine o p = .error q) ∨
  (∃ ops, Pattern.compile engine o p = .ok (some (.smart ops)) ∧ ∃ attempts q, tryMatch (pconf o line checked) ops 0 attempts b r env = .panic q) ∨
  (∃ prog caps, Pattern.compile engine o p = .ok (some (.regex prog caps)) ∧ ((regexPat prog caps 0).run b r env).1 = none)

theorem lowerPart_nonempty {o : Opts} {cp : CPart} {ops : List (MOp engine)} (h : lowerPart engine o cp = .ok (some ops)) : ops ≠ [] := by
  cases cp with
  | lit s => simp only [lowerPart, buildLiteral] at h; split at h <;> cases h; simp
  | rx r => simp only [lowerPart, buildRegex] at h; split at h <;> cases h; simp
  | dyn m =>
    simp only [lowerPart] at h
    unfold lowerMatch at h
    split at h
    · cases h; simp
    · split at h <;> cases h; simp
    all_goals (cases h; simp)

/-- There is something to be looked for. -/
theorem compile_nonempty {o : Opts} {p : CPat} {ops : List (MOp engine)} (h : Pattern.compile engine o p = .ok (some (.smart ops))) : ops ≠ [] := by
  have hl : ∀ s, compileLit engine o s ≠ .ok (some (.smart ops)) := by
    intro s h
    unfold compileLit at h
    repeat' split at h
    all_goals simp at h
  have hx : ∀ x, compileRx engine o x ≠ .ok (some (.smart ops)) := by
    intro x h
    unfold compileRx at h
    split at h <;> simp at h
  unfold Pattern.compile at h
  cases hc : compact p with
  | empty => rw [hc] at h; simp at h
  | lit s => rw [hc] at h; exact absurd h (hl _)
  | rx x => rw [hc] at h; exact absurd h (hx _)
  | parts cps =>
    have hne : cps ≠ [] := by
      unfold compact at hc
      split at hc
      · cases hc
      · cases hc
      · cases hc
      · cases hc
      · dsimp only at hc
        split at hc
        · split at hc <;> cases hc
        · rename_i ho
          cases hc
          intro he
          unfold CSt.flush at he
          split at he
          · rw [he] at ho; simp at ho
          · split at he <;> simp at he
    rw [hc] at h
    dsimp only at h
    cases hlp : lowerParts engine o cps with
    | error => rw [hlp] at h; simp [bind, Except.bind] at h
    | ok x =>
      rw [hlp] at h
      cases x with
      | none => simp [bind, Except.bind] at h
      | some ops' =>
        simp only [bind, Except.bind, Except.ok.injEq, Option.some.injEq, Compiled.smart.injEq] at h
        subst h
        cases cps with
        | nil => exact absurd rfl hne
        | cons c cs =>
          obtain ⟨x, y, h1, _, rfl⟩ := lowerParts_cons hlp
          have := lowerPart_nonempty h1
          simp [this]

/-- **C96**: compiling a pattern and looking for it never aborts, for every input, every range, all values of the variables and any number
of attempts, if its parts are well-formed and its expressions are safe (no division; in a build with checks, no overflow).
Missing (hence partial): the patterns of the counterexamples below. -/
theorem C96_no_abort_partial {o : Opts} {line : Nat} {checked : Bool} {p : CPat} {b : Buf} {r : Rng} {env : Vars}
    (hw : WellFormed p) (hs : ∀ x ∈ partsOf p, SafePart checked line x) (hr : r.start ≤ r.stop) : ¬ Aborts o line checked p b r env := by
  rintro (⟨q, h⟩ | ⟨ops, h, n, q, ht⟩ | ⟨⟨ic, re⟩, caps, h, hn⟩)
  · obtain ⟨x, hx⟩ := compile_answers (o := o) hw
    rw [h] at hx
    cases hx
  · obtain ⟨x, xs, cps, hp, hseg, hl⟩ := compile_smart hw h
    have ha := segs_able (cf := pconf o line checked) hseg hl (fun z hz => hs z (by rw [hp]; exact hz))
    cases ops with
    | nil => exact absurd rfl (compile_nonempty h)
    | cons op ops => exact tryMatch_able ha hr q ht
  · obtain ⟨m, env', hm⟩ := regexPat_some (ic := ic) (re := re) (caps := caps) 0 b r env
    rw [hm] at hn
    cases hn

/-! ## Examples -/

/-- `v={{[a-z]+}} [[X]] [[#N:max(M, @LINE)]]`. -/
def busyPat : CPat := .match_ [.literal "v=".toList, .regex "[a-z]+".toList, .literal [' '], .match_ (.substitution (.user ['X']) none), .literal [' '],
  .match_ (.numeric none (some (.user ['N'])) (some (.bin .max (.var (.user ['M'])) (.var (.pseudo "LINE".toList)))))]

theorem busy_wellFormed : WellFormed busyPat where
  parts := by
    intro ps h x hx
    cases h
    simp only [List.mem_cons, List.not_mem_nil, or_false] at hx
    rcases hx with rfl | rfl | rfl | rfl | rfl | rfl
    · trivial
    · exact ⟨[.rep (.cls false [(97, 122)]) 1 none true], _, rfl⟩
    · trivial
    · trivial
    · trivial
    · exact ⟨by unfold Regex.validName; decide, Nat.zero_le _⟩
  visible := by
    intro t h
    match t with
    | [] | [_] => simp [busyPat, partsOf] at h
    | _ :: _ :: _ => simp [busyPat, partsOf] at h

/-- A pattern with a literal, a regular expression, two uses of variables and a capture. -/
example (o : Opts) (line : Nat) (b : Buf) (r : Rng) (env : Vars) (hr : r.start ≤ r.stop) : ¬ Aborts o line false busyPat b r env := by
  refine C96_no_abort_partial busy_wellFormed ?_ hr
  intro x hx
  simp only [busyPat, partsOf, List.mem_cons, List.not_mem_nil, or_false] at hx
  rcases hx with rfl | rfl | rfl | rfl | rfl | rfl
  all_goals first | trivial | exact ⟨trivial, trivial, by decide, by simp⟩

/-- The pattern is one with variables, and it is found. -/
example : ∃ ops m env', Pattern.compile engine plainOpts busyPat = .ok (some (.smart ops)) ∧
    Searched plainOpts 1 true busyPat (utf8 "v=abc b 7 ".toList) ⟨0, 10⟩ (bVars.insert (.user "M") (.num 7 none)) m env' ∧ m.isOk = true :=
  ⟨_, _, _, rfl, ⟨_, rfl, rfl⟩, by decide +kernel⟩

theorem aborts_of {o : Opts} {line : Nat} {checked : Bool} {p : CPat} {b : Buf} {r : Rng} {env : Vars}
    (h : (match Pattern.compile engine o p with
      | .ok (some (.smart ops)) => isPanic (tryMatch (pconf o line checked) ops 0 (b.length + 2) b r env)
      | _ => false) = true) : Aborts o line checked p b r env := by
  split at h
  · rename_i ops hc
    cases ht : tryMatch (pconf o line checked) ops 0 (b.length + 2) b r env with
    | panic q => exact .inr (.inl ⟨ops, hc, _, q, ht⟩)
    | _ => rw [ht] at h; simp [isPanic] at h
  · cases h

/-- The pattern of a check file of one line. -/
def onlyPattern (text : String) : Option CPat :=
  match Lex.parse ⟨[], [], false, false⟩ false text.toList with
  | .ok [l] => some l.pattern
  | _ => none

/-- The program aborts when it looks for the pattern of this check file in this input. -/
def TextAborts (checked : Bool) (text : String) (input : String) (env : Vars) : Prop :=
  ∃ p, onlyPattern text = some p ∧ Aborts plainOpts 1 checked p (utf8 input.toList) ⟨0, (utf8 input.toList).length⟩ env

theorem textAborts_of {checked : Bool} {text input : String} {env : Vars}
    (h : (match onlyPattern text with
      | some p =>
        match Pattern.compile engine plainOpts p with
        | .ok (some (.smart ops)) => isPanic (tryMatch (pconf plainOpts 1 checked) ops 0 ((utf8 input.toList).length + 2) (utf8 input.toList)
            ⟨0, (utf8 input.toList).length⟩ env)
        | _ => false
      | none => false) = true) : TextAborts checked text input env := by
  split at h
  · rename_i p hp
    exact ⟨p, hp, aborts_of h⟩
  · cases h

/-- C96 is false of divisions: `[[#div(8, N)]]` aborts if `N` is zero. -/
theorem C96_zero_refuted : TextAborts false "CHECK: [[#div(8, N)]]\n" "8" (noVars.insert (.user "N") (.num 0 none)) :=
  textAborts_of (by decide +kernel)

/-- C96 is false of sums which overflow, in a build with checks: `[[#add(N, 1)]]`. -/
theorem C96_overflow_refuted : TextAborts true "CHECK: [[#add(N, 1)]]\n" "8" (noVars.insert (.user "N") (.num (2 ^ 127 - 1) none)) :=
  textAborts_of (by decide +kernel)

/-- C96 is false of a regular expression with alternatives before a capture: `{{a|b}}[[X:c]] [[Y]]` aborts if the input has an `a`. -/
theorem C96_alternative_refuted : TextAborts false "CHECK: {{a|b}}[[X:c]] [[Y]]\n" "a b" bVars := textAborts_of (by decide +kernel)

/-- C96 is false of a capture with a large precision and a constraint: `[[#%.40u, N: 5]]` aborts. -/
theorem C96_precision_refuted : TextAborts false "CHECK: [[#%.40u, N: 5]]\n" "5" noVars := textAborts_of (by decide +kernel)

end Litcheck
