import Verif.Props.Sets
import Verif.Proofs.ExactText

/-!
# Property C76, for groups without captures: every run is decided
-/

namespace Litcheck.Sets
open Litcheck.Smart Litcheck.Spec Litcheck.PatternSpec Litcheck.Pattern
open Litcheck.Regex (engine utf8)
open Litcheck.Lex (CPat CLine)

/-- **C76**, for groups of `CHECK-NOT` lines without variables and captures: on every input and every range the matcher answers, without a
diagnostic, and says that the group is violated if and only if one of the patterns matches somewhere in the range.
Missing (hence partial): groups which are not a `StaticGroup`, and groups with captures, for which see `C76_nots_partial`. -/
theorem C76_plain_partial {o : Opts} {ls : List (CPat × Nat)} {set : MatchSet} (hg : StaticGroup o (ls.map Prod.fst))
    (hcap : ∀ p ∈ ls.map Prod.fst, ∀ r, compact p = .rx r → r.caps = []) (h : compileSet o ls = .ok (some set))
    {cx : Nat → PatternSpec.Ctx} (hcx : CtxOf o cx) (cfs : Nat → Conf engine) (b : Buf) {r : Rng} (env : Vars) (hr : r.start ≤ r.stop) :
    ∃ m env', (anyPat o.ignoreCase cfs set).run b r env = (some m, env') ∧
      (m.isOk = true ↔ ∃ y ∈ ls, ∃ s e env1 env2, r.start ≤ s ∧ s ≤ e ∧ e ≤ r.stop ∧ meaning (cx y.2) y.1 env1 b s e env2) := by
  obtain ⟨m, env', hrun⟩ := any_answers hg hcap h o.ignoreCase cfs b r env
  refine ⟨m, env', hrun, ?_⟩
  have key := (C76_nots_partial hg h hcx cfs hr hrun).1
  constructor
  · intro hok
    obtain ⟨i, _, h1, h2, h3, y, hy, _, h5⟩ := nots_sound hg h hcx cfs hr hrun hok
    exact ⟨y, hy, i.start, i.stop, env, env', h1, h2, h3, h5⟩
  · rintro ⟨y, hy, s, e, env1, env2, h1, h2, h3, h4⟩
    cases hm : m.isOk with
    | true => rfl
    | false => exact absurd h4 (key.1 hm _ (List.mem_map_of_mem hy) _ _ h1 h2 h3 _ _)

/-- A group of literals and regular expressions. -/
def plainNots : List (CPat × Nat) := [(.literal "bad".toList, 3), (.regex "wor?se".toList, 4), (.match_ [.literal "x=".toList, .regex "[0-9]+".toList], 5)]

example : StaticGroup ⟨false, false⟩ (plainNots.map Prod.fst) := staticGroupB_sound (by decide +kernel)
example : ∀ p ∈ plainNots.map Prod.fst, ∀ r, compact p = .rx r → r.caps = [] := by
  intro p hp
  simp only [plainNots, List.map_cons, List.map_nil, List.mem_cons, List.not_mem_nil, or_false] at hp
  rcases hp with rfl | rfl | rfl
  · intro r hr; cases hr
  · intro r hr; cases hr; rfl
  · intro r hr; revert hr; unfold compact; intro hr; cases hr; rfl
example : notsLine plainNots "good x=a better" = some none := by decide +kernel
example : notsLine plainNots "good x=17 better" = some (some 5) := by decide +kernel

end Litcheck.Sets
