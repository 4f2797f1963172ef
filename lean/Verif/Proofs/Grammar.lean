import Verif.Model.Grammar

/-! # The parser of match blocks agrees with the grammar -/

namespace Litcheck.Lex

open G

theorem pVar_sound {ts : List Token} {v : VarName} {r : List Token} (h : pVar ts = some (v, r)) :
    ∃ vs, ts = vs ++ r ∧ AnyVar vs v := by
  unfold pVar at h
  split at h
  · obtain ⟨rfl, rfl⟩ := (by simpa using h : VarName.global _ = v ∧ _ = r)
    exact ⟨[.dollar, .ident _], rfl, .pattern (.global _)⟩
  · obtain ⟨rfl, rfl⟩ := (by simpa using h : VarName.pseudo _ = v ∧ _ = r)
    exact ⟨[.at_, .ident _], rfl, .pattern (.pseudo _)⟩
  · obtain ⟨rfl, rfl⟩ := (by simpa using h : lineVar = v ∧ _ = r)
    exact ⟨[.at_, .line], rfl, .line⟩
  · obtain ⟨rfl, rfl⟩ := (by simpa using h : VarName.user _ = v ∧ _ = r)
    exact ⟨[.ident _], rfl, .pattern (.user _)⟩
  · exact absurd h (by simp)

theorem pVar_complete {vs : List Token} {v : VarName} (h : AnyVar vs v) (r : List Token) : pVar (vs ++ r) = some (v, r) := by
  cases h with
  | pattern h => cases h <;> rfl
  | line => rfl

theorem sound (n : Nat) :
    (∀ ts x r, pSub n ts = some (x, r) → ∃ xs, ts = xs ++ r ∧ IsSub xs x) ∧
    (∀ ts x r, pExpr n ts = some (x, r) → ∃ xs, ts = xs ++ r ∧ IsExpr xs x) ∧
    (∀ p pre ts x r, IsExpr pre p → pTail n p ts = some (x, r) → ∃ xs, ts = xs ++ r ∧ IsExpr (pre ++ xs) x) := by
  induction n with
  | zero =>
    refine ⟨fun ts x r h => by simp [pSub] at h, fun ts x r h => by simp [pExpr] at h, fun p pre ts x r hp h => ?_⟩
    rw [pTail.eq_def] at h
    dsimp only at h
    split at h
    · simp at h
    · simp at h
    · obtain ⟨rfl, rfl⟩ := (by simpa using h : p = x ∧ _ = r)
      exact ⟨[], rfl, by simpa using hp⟩
  | succ n ih =>
    obtain ⟨ihS, ihE, ihT⟩ := ih
    refine ⟨fun ts x r h => ?_, fun ts x r h => ?_, fun p pre ts x r hp h => ?_⟩
    · rw [pSub.eq_def] at h
      dsimp only at h
      split at h
      · split at h
        · rename_i he1
          split at h
          · rename_i he2
            obtain ⟨rfl, rfl⟩ := (by simpa using h : Expr.bin _ _ _ = x ∧ _ = r)
            obtain ⟨xs, hx, dx⟩ := ihE _ _ _ he1
            obtain ⟨ys, hy, dy⟩ := ihE _ _ _ he2
            subst hx hy
            exact ⟨_, by simp, .builtin dx dy⟩
          · simp at h
        · simp at h
      · obtain ⟨rfl, rfl⟩ := (by simpa using h : Expr.num _ = x ∧ _ = r)
        exact ⟨[.num _], rfl, .num (.pos _)⟩
      · obtain ⟨rfl, rfl⟩ := (by simpa using h : Expr.num _ = x ∧ _ = r)
        exact ⟨[.minus, .num _], rfl, .num (.neg _)⟩
      · split at h
        · rename_i he1
          obtain ⟨rfl, rfl⟩ := (by simpa using h : _ = x ∧ _ = r)
          obtain ⟨xs, hx, dx⟩ := ihE _ _ _ he1
          subst hx
          exact ⟨_, by simp, .paren dx⟩
        · simp at h
      · cases hv : pVar ts with
        | none => rw [hv] at h; simp at h
        | some y =>
          rw [hv] at h
          obtain ⟨rfl, rfl⟩ := (by simpa using h : Expr.var _ = x ∧ _ = r)
          obtain ⟨vs, h1, h2⟩ := pVar_sound hv
          exact ⟨vs, h1, .var h2⟩
    · rw [pExpr] at h
      split at h
      · rename_i hs
        obtain ⟨xs, h1, dx⟩ := ihS _ _ _ hs
        obtain ⟨ys, h2, dy⟩ := ihT _ _ _ _ _ (.one dx) h
        subst h1 h2
        exact ⟨xs ++ ys, by simp, dy⟩
      · simp at h
    · rw [pTail.eq_def] at h
      dsimp only at h
      split at h
      · split at h
        · rename_i hs
          obtain ⟨xs, h1, dx⟩ := ihS _ _ _ hs
          obtain ⟨ys, h2, dy⟩ := ihT _ _ _ _ _ (.add hp dx) h
          subst h1 h2
          exact ⟨.plus :: (xs ++ ys), by simp, by simpa using dy⟩
        · simp at h
      · split at h
        · rename_i hs
          obtain ⟨xs, h1, dx⟩ := ihS _ _ _ hs
          obtain ⟨ys, h2, dy⟩ := ihT _ _ _ _ _ (.sub hp dx) h
          subst h1 h2
          exact ⟨.minus :: (xs ++ ys), by simp, by simpa using dy⟩
        · simp at h
      · obtain ⟨rfl, rfl⟩ := (by simpa using h : p = x ∧ _ = r)
        exact ⟨[], rfl, by simpa using hp⟩

/-- Whether the tokens begin with a further operand. -/
def more : List Token → Bool
  | .plus :: _ => true
  | .minus :: _ => true
  | _ => false

theorem pTail_done (n : Nat) (x : Expr) (r : List Token) (h : more r = false) : pTail n x r = some (x, r) := by
  cases n <;> rw [pTail] <;> unfold more at h <;> split at h <;> simp_all

mutual
theorem sub_complete {xs : List Token} {x : Expr} : IsSub xs x → 1 ≤ xs.length ∧ ∀ n r, 2 * xs.length ≤ n → pSub n (xs ++ r) = some (x, r)
  | .builtin (o := o) (xs := xs) (ys := ys) hx hy => by
    obtain ⟨-, hx⟩ := expr_complete hx
    obtain ⟨-, hy⟩ := expr_complete hy
    refine ⟨by simp, fun n r hn => ?_⟩
    simp only [List.length_cons, List.length_append, List.length_nil] at hn
    obtain ⟨n, rfl⟩ : ∃ m, n = m + 1 := ⟨n - 1, by omega⟩
    obtain ⟨c, -, hc⟩ := hx n (.comma :: (ys ++ .rparen :: r)) (by omega)
    obtain ⟨d, -, hd⟩ := hy n (.rparen :: r) (by omega)
    rw [pTail_done _ _ _ rfl] at hc hd
    simp [pSub, hc, hd]
  | .num hx => by
    cases hx with
    | pos k =>
      refine ⟨by simp, fun n r hn => ?_⟩
      obtain ⟨n, rfl⟩ : ∃ m, n = m + 1 := ⟨n - 1, by simp at hn; omega⟩
      simp [pSub]
    | neg k =>
      refine ⟨by simp, fun n r hn => ?_⟩
      obtain ⟨n, rfl⟩ : ∃ m, n = m + 1 := ⟨n - 1, by simp at hn; omega⟩
      simp [pSub]
  | .var hv => by
    refine ⟨by cases hv with | pattern h => cases h <;> simp | line => simp, fun n r hn => ?_⟩
    have h1 := pVar_complete hv r
    obtain ⟨n, rfl⟩ : ∃ m, n = m + 1 := ⟨n - 1, by cases hv with | pattern h => cases h <;> simp at hn <;> omega | line => simp at hn; omega⟩
    cases hv with
    | pattern h => cases h <;> simp [pSub, pVar]
    | line => simp [pSub, pVar]
  | .paren (xs := xs) hx => by
    obtain ⟨-, hx⟩ := expr_complete hx
    refine ⟨by simp, fun n r hn => ?_⟩
    simp only [List.length_cons, List.length_append, List.length_nil] at hn
    obtain ⟨n, rfl⟩ : ∃ m, n = m + 1 := ⟨n - 1, by omega⟩
    obtain ⟨c, -, hc⟩ := hx n (.rparen :: r) (by omega)
    rw [pTail_done _ _ _ rfl] at hc
    simp [pSub, hc]

theorem expr_complete {xs : List Token} {x : Expr} : IsExpr xs x → 1 ≤ xs.length ∧
    ∀ n r, 2 * xs.length + 1 ≤ n → ∃ c, c ≤ xs.length ∧ pExpr n (xs ++ r) = pTail (n - c) x r
  | .add (xs := xs) (ys := ys) hx hy => by
    obtain ⟨l1, hx⟩ := expr_complete hx
    obtain ⟨l2, hy⟩ := sub_complete hy
    refine ⟨by simp only [List.length_append, List.length_cons]; omega, fun n r hn => ?_⟩
    simp only [List.length_cons, List.length_append] at hn
    obtain ⟨c, hc, he⟩ := hx n (.plus :: (ys ++ r)) (by omega)
    refine ⟨c + 1, by simp; omega, ?_⟩
    obtain ⟨m, hm⟩ : ∃ m, n - c = m + 1 := ⟨n - c - 1, by omega⟩
    have h2 := hy m r (by omega)
    rw [List.append_assoc, List.cons_append, he, hm, pTail, h2]
    show pTail m _ _ = _
    congr 1
    omega
  | .sub (xs := xs) (ys := ys) hx hy => by
    obtain ⟨l1, hx⟩ := expr_complete hx
    obtain ⟨l2, hy⟩ := sub_complete hy
    refine ⟨by simp only [List.length_append, List.length_cons]; omega, fun n r hn => ?_⟩
    simp only [List.length_cons, List.length_append] at hn
    obtain ⟨c, hc, he⟩ := hx n (.minus :: (ys ++ r)) (by omega)
    refine ⟨c + 1, by simp; omega, ?_⟩
    obtain ⟨m, hm⟩ : ∃ m, n - c = m + 1 := ⟨n - c - 1, by omega⟩
    have h2 := hy m r (by omega)
    rw [List.append_assoc, List.cons_append, he, hm, pTail, h2]
    show pTail m _ _ = _
    congr 1
    omega
  | .one hx => by
    obtain ⟨l1, hx⟩ := sub_complete hx
    refine ⟨l1, fun n r hn => ⟨1, l1, ?_⟩⟩
    obtain ⟨n, rfl⟩ : ∃ m, n = m + 1 := ⟨n - 1, by omega⟩
    rw [pExpr, hx n r (by omega)]
    rfl
end

theorem pWhole_iff (ts : List Token) (e : Expr) : pWhole ts = some e ↔ IsExpr ts e := by
  constructor
  · intro h
    unfold pWhole at h
    split at h
    · rename_i x he
      obtain rfl := (by simpa using h : x = e)
      obtain ⟨xs, h1, h2⟩ := (sound _).2.1 _ _ _ he
      simp at h1
      exact h1 ▸ h2
    · simp at h
  · intro h
    obtain ⟨-, hc⟩ := expr_complete h
    obtain ⟨c, -, hc⟩ := hc (2 * ts.length + 2) [] (by omega)
    rw [List.append_nil, pTail_done _ _ _ rfl] at hc
    simp [pWhole, hc]

theorem pRest_iff (lhs : Expr) (ts : List Token) (e : Expr) : pRest lhs ts = some e ↔ Rest lhs ts e := by
  constructor
  · intro h
    unfold pRest at h
    split at h
    · obtain rfl := (by simpa using h : lhs = e)
      exact .none
    · obtain ⟨x, hx, rfl⟩ := (by simpa [Option.map_eq_some_iff] using h)
      exact .add ((pWhole_iff _ _).1 hx)
    · obtain ⟨x, hx, rfl⟩ := (by simpa [Option.map_eq_some_iff] using h)
      exact .sub ((pWhole_iff _ _).1 hx)
    · simp at h
  · intro h
    cases h with
    | add h => simp [pRest, (pWhole_iff _ _).2 h]
    | sub h => simp [pRest, (pWhole_iff _ _).2 h]
    | none => rfl

theorem not_eq_head {ts : List Token} {e : Expr} (h : IsExpr ts e) : ∀ r, ts ≠ .equals :: r := by
  intro r hr
  have h1 := (pWhole_iff _ _).2 h
  rw [hr] at h1
  simp [pWhole, pExpr, pSub, pVar] at h1

theorem pCapture_sound {ts : List Token} {c e} (h : pCapture ts = some (c, e)) : Capture ts c e := by
  unfold pCapture at h
  split at h
  · obtain ⟨x, hx, h1⟩ := Option.map_eq_some_iff.1 h
    obtain ⟨rfl, rfl⟩ := (by simpa using h1 : none = c ∧ some x = e)
    exact .eq ((pWhole_iff _ _).1 hx)
  · split at h
    · rename_i hs
      obtain ⟨rfl, rfl⟩ := (by simpa using h : none = c ∧ some _ = e)
      obtain ⟨xs, h1, h2⟩ := (sound _).1 _ _ _ hs
      simp at h1
      subst h1
      cases h2 with
      | builtin hx hy => exact .builtin hx hy
      | num hn => cases hn
      | var hv => cases hv with | pattern hp => cases hp
    · simp at h
  · split at h
    · rename_i hs
      obtain ⟨x, hx, h1⟩ := Option.map_eq_some_iff.1 h
      obtain ⟨rfl, rfl⟩ := (by simpa using h1 : none = c ∧ some x = e)
      obtain ⟨xs, h1, h2⟩ := (sound _).1 _ _ _ hs
      have hr := (pRest_iff _ _ _).1 hx
      cases h2 with
      | builtin _ _ => simp at h1
      | num hn => cases hn <;> simp at h1
      | var hv => cases hv with
        | pattern hp => cases hp <;> simp at h1
        | line => simp at h1
      | paren hp =>
        rw [h1]
        simp only [List.cons_append, List.append_assoc, List.nil_append]
        exact .paren hp hr
    · simp at h
  · split at h
    · rename_i v r hv
      obtain ⟨vs, h1, h2⟩ := pVar_sound hv
      rw [h1]
      unfold pEither at h
      split at h
      · obtain ⟨rfl, rfl⟩ := (by simpa using h : some v = c ∧ none = e)
        exact .var h2
      · obtain ⟨x, hx, hh⟩ := Option.map_eq_some_iff.1 h
        obtain ⟨rfl, rfl⟩ := (by simpa using hh : some v = c ∧ some x = e)
        exact .varEq h2 ((pWhole_iff _ _).1 hx)
      · obtain ⟨x, hx, hh⟩ := Option.map_eq_some_iff.1 h
        obtain ⟨rfl, rfl⟩ := (by simpa using hh : some v = c ∧ some x = e)
        exact .varExpr h2 ((pWhole_iff _ _).1 hx)
      · obtain ⟨x, hx, hh⟩ := Option.map_eq_some_iff.1 h
        obtain ⟨rfl, rfl⟩ := (by simpa using hh : none = c ∧ some x = e)
        exact .expr h2 ((pRest_iff _ _ _).1 hx)
    · simp at h

theorem pCapture_var {vs : List Token} {v : VarName} (h : AnyVar vs v) (r : List Token) :
    pCapture (vs ++ r) = pEither v r := by
  cases h with
  | pattern h => cases h <;> simp [pCapture, pVar]
  | line => simp [pCapture, pVar]

theorem pCapture_iff (ts : List Token) (c e) : pCapture ts = some (c, e) ↔ Capture ts c e := by
  refine ⟨pCapture_sound, fun h => ?_⟩
  cases h with
  | var hv => rw [pCapture_var hv]; rfl
  | varEq hv he => rw [pCapture_var hv]; simp [pEither, (pWhole_iff _ _).2 he]
  | @varExpr vs v ts e hv he =>
    rw [pCapture_var hv]
    have h1 := not_eq_head he
    have h2 := (pWhole_iff _ _).2 he
    cases ts with
    | nil => have := (expr_complete he).1; simp at this
    | cons t r =>
      cases t <;> first | exact absurd rfl (h1 r) | simp [pEither, h2]
  | expr hv hr =>
    rw [pCapture_var hv]
    have h2 := (pRest_iff _ _ _).2 hr
    cases hr with
    | add h => simp [pEither, h2]
    | sub h => simp [pEither, h2]
    | none => simp [pEither, h2]
  | eq he => simp [pCapture, (pWhole_iff _ _).2 he]
  | @builtin o xs ys x y hx hy =>
    have h := (sub_complete (IsSub.builtin (o := o) hx hy)).2 (2 * (Token.op o :: Token.lparen :: (xs ++ Token.comma :: (ys ++ [Token.rparen]))).length + 2) [] (by omega)
    rw [List.append_nil] at h
    simp only [pCapture, h]
  | @paren xs x ts e hx hr =>
    have h := (sub_complete (IsSub.paren hx)).2 (2 * (Token.lparen :: (xs ++ Token.rparen :: ts)).length + 2) ts (by simp; omega)
    simp only [List.cons_append, List.append_assoc, List.nil_append] at h
    simp only [pCapture, h, (pRest_iff _ _ _).2 hr, Option.map_some]

theorem format_spec_head {pfx : Bool} {ps : List Token} {p : Nat} (h : Precision ps p) (spec : Option Str) (r : List Token) :
    pFormat (hashTokens pfx ++ (ps ++ specTokens spec) ++ .comma :: r) = (G.format pfx p spec).map fun f => (f, r) := by
  cases h with
  | some n hn => cases pfx <;> cases spec <;> simp [pFormat, pHash, pPrecision, hashTokens, specTokens, hn]
  | none => cases pfx <;> cases spec <;> simp [pFormat, pHash, pPrecision, hashTokens, specTokens]

theorem pHash_eq (ts : List Token) : ts = hashTokens (pHash ts).1 ++ (pHash ts).2 := by
  unfold pHash
  split <;> rfl

theorem pPrecision_sound {ts : List Token} {p r} (h : pPrecision ts = some (p, r)) : ∃ ps, Precision ps p ∧ ts = ps ++ r := by
  unfold pPrecision at h
  split at h
  · rename_i n r3
    split at h
    · rename_i hn
      obtain ⟨hp, rfl⟩ := (by simpa using h : n.toNat = p ∧ _ = r)
      refine ⟨[.dot, .num n], ?_, rfl⟩
      have : n = (p : Int) := by omega
      subst this
      exact .some p (by omega)
    · simp at h
  · simp at h
  · obtain ⟨rfl, rfl⟩ := (by simpa using h : 0 = p ∧ _ = r)
    exact ⟨[], .none, rfl⟩

theorem pFormat_sound {ts : List Token} {f r} (h : pFormat ts = some (f, r)) :
    ∃ fs, Format (.percent :: fs) f ∧ ts = fs ++ .comma :: r := by
  unfold pFormat at h
  have hts := pHash_eq ts
  split at h
  · simp at h
  · rename_i p s r2 hy
    obtain ⟨f', hf, h1⟩ := Option.map_eq_some_iff.1 h
    obtain ⟨rfl, rfl⟩ := (by simpa using h1 : f' = f ∧ r2 = r)
    obtain ⟨ps, h3, h4⟩ := pPrecision_sound hy
    rw [h4] at hts
    exact ⟨_, .mk (spec := some s) h3 hf, hts.trans (by simp [specTokens])⟩
  · rename_i p r2 hy
    obtain ⟨f', hf, h1⟩ := Option.map_eq_some_iff.1 h
    obtain ⟨rfl, rfl⟩ := (by simpa using h1 : f' = f ∧ r2 = r)
    obtain ⟨ps, h3, h4⟩ := pPrecision_sound hy
    rw [h4] at hts
    exact ⟨_, .mk (spec := none) h3 hf, hts.trans (by simp [specTokens])⟩
  · simp at h

theorem capture_ne_nil {ts c e} (h : Capture ts c e) : ts ≠ [] := by
  rintro rfl
  have := (pCapture_iff _ _ _).2 h
  simp [pCapture, pVar] at this

theorem capture_ne_percent {ts c e} (h : Capture ts c e) : ∀ r, ts ≠ .percent :: r := by
  rintro r rfl
  have := (pCapture_iff _ _ _).2 h
  simp [pCapture, pVar] at this

/-- The parser accepts what the grammar derives, and nothing else. -/
theorem pMatch_iff (ts : List Token) (m : Match) : pMatch ts = some m ↔ IsMatch ts m := by
  constructor
  · intro h
    unfold pMatch at h
    split at h
    · obtain rfl := (by simpa using h : Match.numeric none none none = m)
      exact .numeric .plain
    · split at h
      · simp at h
      · rename_i f hf
        obtain rfl := (by simpa using h : Match.numeric (some f) none none = m)
        obtain ⟨fs, h1, rfl⟩ := pFormat_sound hf
        exact .numeric (.format h1)
      · rename_i f r hne hf
        obtain ⟨x, hx, rfl⟩ := Option.map_eq_some_iff.1 h
        obtain ⟨fs, h1, rfl⟩ := pFormat_sound hf
        exact .numeric (.formatCapture h1 ((pCapture_iff _ _ _).1 hx))
    · obtain ⟨x, hx, rfl⟩ := Option.map_eq_some_iff.1 h
      exact .numeric (.capture ((pCapture_iff _ _ _).1 hx))
    · obtain rfl := (by simpa using h : _ = m)
      exact .line
    · rename_i hne
      obtain ⟨x, hx, rfl⟩ := Option.map_eq_some_iff.1 h
      exact .lineRest (fun h => by simp_all) ((pRest_iff _ _ _).1 hx)
    · obtain rfl := (by simpa using h : _ = m)
      exact .var (.pseudo _)
    · obtain rfl := (by simpa using h : _ = m)
      exact .var (.global _)
    · obtain rfl := (by simpa using h : _ = m)
      exact .var (.user _)
    · obtain rfl := (by simpa using h : _ = m)
      exact .pattern (ts := [.dollar, .ident _]) (.global _)
    · obtain rfl := (by simpa using h : _ = m)
      exact .pattern (ts := [.ident _]) (.user _)
    · simp at h
  · intro h
    cases h with
    | line => rfl
    | @lineRest ts e hne hr =>
      have h2 := (pRest_iff _ _ _).2 hr
      cases ts with
      | nil => exact absurd rfl hne
      | cons t r => simp [pMatch, h2]
    | var hv => cases hv <;> rfl
    | pattern hv => cases hv <;> rfl
    | @numeric ts m hn =>
      cases hn with
      | plain => rfl
      | capture hc =>
        have h1 := capture_ne_nil hc
        have h2 := capture_ne_percent hc
        have h3 := (pCapture_iff _ _ _).2 hc
        cases ts with
        | nil => exact absurd rfl h1
        | cons t r => cases t <;> first | exact absurd rfl (h2 r) | simp [pMatch, h3]
      | format hf =>
        cases hf with
        | @mk pfx ps p spec f hp hf =>
          have := format_spec_head (pfx := pfx) hp spec []
          simp only [hf, Option.map_some] at this
          simp only [pMatch, List.cons_append, this]
      | @formatCapture _ _ ts' _ _ hf hc =>
        cases hf with
        | @mk pfx ps p spec f hp hf =>
          have h4 := format_spec_head (pfx := pfx) hp spec ts'
          simp only [hf, Option.map_some] at h4
          have h1 := capture_ne_nil hc
          have h3 := (pCapture_iff _ _ _).2 hc
          cases ts' with
          | nil => exact absurd rfl h1
          | cons t r => simp only [pMatch, List.cons_append, h4, h3, Option.map_some]

end Litcheck.Lex
