import Verif.Spec.Words
import Verif.Proofs.StaticComplete

/-!
# `CHECK-NOT` lines which begin with a text
-/

namespace Litcheck.PatternSpec
open Litcheck.Smart Litcheck.Spec Litcheck.Pattern
open Litcheck.Regex (engine)
open Litcheck.Lex (Part Match CPat)

/-- Two different occurrences of some of these texts can share a byte. -/
def Tangled (us : List Buf) : Prop :=
  ∃ u ∈ us, ∃ v ∈ us, ∃ (b : Buf) (i j : Nat), OccursAt false u b i ∧ OccursAt false v b j ∧ i ≤ j ∧ j < i + u.length ∧ (i ≠ j ∨ u ≠ v)

/-- A pattern which begins with the text `s`: it is this text, or after it come words, that is uses of variables or expressions with plain values and texts, from a use to
a use, and then a part without uses and captures, which is text or does not match the empty text at the end of the range. White space is strict or canonical. -/
inductive Guarded (cx : Ctx) (checked : Bool) (b : Buf) (hi : Nat) (env : Vars) : CPat → Str → Prop
  | text {s : Str} : s ≠ [] → Canonical cx.strict (.literal s) → Guarded cx checked b hi env (.literal s) s
  | uses {s : Str} {m : Match} {qs ps tail : List Part} {ws : List Str} : s ≠ [] → Canonical cx.strict (.literal s) →
      ps = .match_ m :: qs → (∃ qs m, ps = qs ++ [.match_ m]) →
      List.Forall₂ (WordOf cx.strict checked cx.line env) ps ws → (∀ w ∈ ws, w ≠ []) →
      (∀ p ∈ tail, ¬ Uses p) → (∀ p ∈ tail, PartOk p) → (∀ p ∈ tail, Canonical cx.strict p) → (∀ p ∈ tail, ¬ Captures p) →
      ((∀ p ∈ tail, ∃ s, p = .literal s) ∨ ∀ env', ¬ PartsMatch cx b env tail hi hi env') →
      Guarded cx checked b hi env (.match_ (.literal s :: (ps ++ tail))) s

end Litcheck.PatternSpec
