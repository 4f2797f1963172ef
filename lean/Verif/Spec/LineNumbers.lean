import Verif.Spec.Lexer

/-!
# On which line of a check file a directive is

As in `Spec/Lexer.lean`, with the number of the line beside each directive.
-/

namespace Litcheck.LexSpec

/-- The directives of the lines, in order, each with the number of its line; the first line has the number `k`. The rules are those of
`Recognised`. -/
inductive RecognisedAt (checks comments : List Str) : Nat → Bool → List Str → List (Nat × Directive) → Prop
  | nil {k fresh} : RecognisedAt checks comments k fresh [] []
  | blank {k l ls ds} : l.all asciiWs → RecognisedAt checks comments (k + 1) true ls ds → RecognisedAt checks comments k true (l :: ls) ds
  | none {k fresh l ls ds} : (fresh = true → ¬ l.all asciiWs) →
      (∀ a b, l = a ++ b → Place fresh a → ∀ d, ¬ Begins checks comments b d) →
      RecognisedAt checks comments (k + 1) false ls ds → RecognisedAt checks comments k fresh (l :: ls) ds
  | some {k fresh a b ls d ds} : (fresh = true → ¬ (a ++ b).all asciiWs) → Place fresh a → Begins checks comments b d →
      (∀ a' b', a ++ b = a' ++ b' → a'.length < a.length → Place fresh a' → ∀ d', ¬ Begins checks comments b' d') →
      RecognisedAt checks comments (k + 1) true ls ds → RecognisedAt checks comments k fresh ((a ++ b) :: ls) ((k, d) :: ds)

end Litcheck.LexSpec
