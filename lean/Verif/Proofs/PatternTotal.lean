import Verif.Proofs.CaptureText
import Verif.Spec.Safe

/-!
# The search for a pattern does not panic
-/

namespace Litcheck.Pattern
open Litcheck.Smart Litcheck.Spec Litcheck.RegexSpec Litcheck.PatternSpec
open Litcheck.Regex hiding Items
open Litcheck.Lex (Part Match CPat VarName Expr Op)

theorem Step.bind_panic {α β : Type} {x : Smart.Step α} {f : α → Smart.Step β} {q : Panic} (h : x.bind f = .panic q) :
    x = .panic q ∨ ∃ a, x = .yes a ∧ f a = .panic q := by
  unfold Smart.Step.bind at h
  split at h
  · exact .inr ⟨_, rfl, h⟩
  · cases h
  · cases h
  · cases h; exact .inl rfl

theorem names_format (f : NumFmt) : (seqRe (formatItems f)).names = [] := by
  cases f with
  | unsigned p => rfl
  | signed p => rfl
  | hex p pre c => cases pre <;> rfl

theorem evalExpr_safe {ck : Bool} {line : Nat} {env : Vars} {ty : Option Ty} : ∀ (e : Expr), Safe ck line e → ∀ q,
    evalExpr ck line env ty e ≠ .panic q
  | .num _, _, q, h => by simp [evalExpr] at h
  | .var (.pseudo s), _, q, h => by simp only [evalExpr] at h; split at h <;> simp at h
  | .var (.user s), _, q, h => by simp only [evalExpr, keyOf, Bindings.get] at h; split at h <;> simp_all
  | .var (.global s), _, q, h => by simp only [evalExpr, keyOf, Bindings.get] at h; split at h <;> simp_all
  | .bin op l r, hs, q, h => by
    obtain ⟨h1, h2, h3, h4⟩ := hs
    simp only [evalExpr] at h
    rcases Step.bind_panic h with ha | ⟨lv, hl, ha⟩
    · exact evalExpr_safe l h1 q ha
    clear h
    rcases Step.bind_panic ha with h | ⟨rv, hr, h⟩
    · exact evalExpr_safe r h2 q h
    clear ha
    split at h
    · rename_i lv lf rv rf
      have hex : ck = true → ExactValue line env l lv ∧ ExactValue line env r rv := by
        rintro rfl
        exact ⟨evalExpr_checked hl, evalExpr_checked hr⟩
      split at h
      · cases h
      · rcases Step.bind_panic h with h | ⟨_, _, h⟩
        · have key : ∀ v, (checked : ck = true → Fits v) → arith ck v ≠ .panic q := by
            intro v hv h
            unfold arith at h
            split at h
            · cases h
            · rename_i hn
              split at h
              · rename_i hc
                exact hn (inI128_iff.2 (hv hc))
              · cases h
          cases op with
          | add => exact key _ (fun hc => h4 hc (by decide) (by decide) env _ (.bin (hex hc).1 (hex hc).2 rfl)) h
          | sub => exact key _ (fun hc => h4 hc (by decide) (by decide) env _ (.bin (hex hc).1 (hex hc).2 rfl)) h
          | mul => exact key _ (fun hc => h4 hc (by decide) (by decide) env _ (.bin (hex hc).1 (hex hc).2 rfl)) h
          | div => exact h3 rfl
          | min => simp [applyOp] at h
          | max => simp [applyOp] at h
        · cases h
    · cases h

/-- The groups of the match all took part, and what they captured is text. -/
def FullHit (b : Buf) (caps : List Cap) (h : Hit) : Prop :=
  ∃ cs, capture b h caps = .yes cs ∧ cs.length = caps.length

/-- The operations can be carried out if so many operands are on the stack. -/
inductive Able (cf : Conf engine) : Nat → List (MOp engine) → Prop
  | nil {k} : Able cf k []
  | literal {k lit ops} : Able cf k ops → Able cf k (.literal lit :: ops)
  | regex {k prog caps ops} : (∀ b lo hi anchored h, engine.search prog b lo hi anchored = some h → FullHit b caps h) →
      Able cf (k + caps.length) ops → Able cf k (.regex prog caps :: ops)
  | number {k f ops} : okPrecision (f.getD plainFormat) → Able cf k ops → Able cf k (.numeric f none :: ops)
  | capture {k f c ops} : okPrecision (f.getD plainFormat) → validName (symOf c.name) → Able cf (k + 1) ops → Able cf k (.numeric f (some c) :: ops)
  | subst {k e ty ops} : Safe cf.checked cf.line e → Able cf k ops → Able cf k (.subst e ty :: ops)
  | constraint {k e ops} : Safe cf.checked cf.line e → Able cf (k + 1) ops → Able cf (k + 1) (.constraint e :: ops)
  | bind {k x ty ops} : Able cf k ops → Able cf (k + 1) (.bind x ty :: ops)

theorem format_build {f : NumFmt} (hp : okPrecision f) : engine.build false (group' (formatBody f)) ≠ none ∧
    ∀ n, validName n → engine.build false (group n (formatBody f)) ≠ none := by
  constructor
  · have h1 := Items.group' (items_format f hp).reads
    have := reads_parse h1.reads (by simp [seqRe, names_format])
    intro h
    change (parse (group' (formatBody f))).map _ = none at h
    unfold group' at h
    rw [this] at h
    cases h
  · intro n hn
    have h1 := Items.group hn (items_format f hp).reads
    have := reads_parse h1.reads (by simp [seqRe, Re.names, names_format])
    intro h
    change (parse (group n (formatBody f))).map _ = none at h
    unfold group at h
    rw [this] at h
    cases h

/-- One operation: no panic, and what is on the stack afterwards. -/
theorem matchPart_able {cf : Conf engine} {b : Buf} {hi : Nat} {env : Vars} {st : Smart.St} {op : MOp engine} {ops : List (MOp engine)} {k : Nat}
    (ha : Able cf k (op :: ops)) (hm : IsMatch op) (hpos : ∀ f c, op = .numeric f c → st.pos ≤ hi) (hk : k ≤ st.stack.length) :
    (∀ q, matchPart cf b hi env st op ≠ .panic q) ∧
    ∀ st1 s e, matchPart cf b hi env st op = .yes (st1, s, e) → ∃ k', Able cf k' ops ∧ k' ≤ st1.stack.length := by
  cases ha with
  | literal ha =>
    simp only [matchPart]
    split
    · split
      · exact ⟨by simp, fun st1 s e h => by cases h; exact ⟨k, ha, hk⟩⟩
      · exact ⟨by simp, by simp⟩
    · split
      · exact ⟨by simp, fun st1 s e h => by cases h; exact ⟨k, ha, hk⟩⟩
      · exact ⟨by simp, by simp⟩
  | @regex _ prog caps _ hf ha =>
    simp only [matchPart]
    split
    · exact ⟨by simp, by simp⟩
    · rename_i h hs
      obtain ⟨cs, hc, hlen⟩ := hf _ _ _ _ _ hs
      rw [hc]
      simp only [Smart.Step.bind]
      refine ⟨by simp, fun st1 s e h => ?_⟩
      cases h
      refine ⟨_, ha, ?_⟩
      simp only [List.length_append, List.length_reverse, List.length_map]
      omega
  | @number _ f _ hp ha =>
    simp only [matchPart]
    rw [if_neg (by have := hpos _ _ rfl; omega)]
    split
    · exact ⟨by simp, by simp⟩
    · split
      · rename_i h
        exact absurd h (format_build hp).1
      · split
        · exact ⟨by simp, by simp⟩
        · exact ⟨by simp, fun st1 s e h => by cases h; exact ⟨k, ha, hk⟩⟩
  | @capture _ f c _ hp hn ha =>
    simp only [matchPart]
    rw [if_neg (by have := hpos _ _ rfl; omega)]
    split
    · exact ⟨by simp, by simp⟩
    · split
      · rename_i h
        exact absurd h ((format_build hp).2 _ hn)
      · rename_i prog _
        split
        · exact ⟨by simp, by simp⟩
        · rename_i h hs
          obtain ⟨ic, re⟩ := prog
          have hs' : find ic re b st.pos hi st.anchored = some h := hs
          obtain ⟨t, ht⟩ := (lang_text re _ _ _ (find_some hs').2.2.2.2.1).1.read
          rw [ht]
          dsimp only
          split
          · refine ⟨by simp, fun st1 s e h => ?_⟩
            cases h
            exact ⟨_, ha, by simp only [List.length_cons]; omega⟩
          · exact ⟨by simp, by simp⟩
  | @subst _ e ty _ hs ha =>
    simp only [matchPart]
    constructor
    · intro q h
      rcases Step.bind_panic h with h | ⟨v, hv, h⟩
      · exact evalExpr_safe e hs q h
      · split at h
        · cases h
        · split at h <;> cases h
    · intro st1 s e' h
      obtain ⟨v, hv, h⟩ := Step.bind_yes h
      split at h
      · cases h
      · split at h
        · cases h
        · cases h
          exact ⟨k, ha, hk⟩
  | constraint => cases hm
  | bind => cases hm

/-- The parts after the first. -/
theorem matchParts_able {cf : Conf engine} {b : Buf} {hi : Nat} : ∀ (ops : List (MOp engine)) {k : Nat} {env : Vars} {st : Smart.St},
    Able cf k ops → k ≤ st.stack.length → ∀ q, matchParts cf b hi ops env st ≠ .panic q
  | [], k, env, st, _, _, q, h => by simp [matchParts] at h
  | op :: ops, k, env, st, ha, hk, q, h => by
    have hpart : IsMatch op → (matchPart cf b hi env st op).bind (fun x =>
          matchParts cf b hi ops env { x.1 with mend := x.2.2, pos := min x.2.2 b.length }) = .panic q → ¬ hi ≤ st.pos → False := by
      intro hm h hp
      obtain ⟨h1, h2⟩ := matchPart_able (b := b) (env := env) ha hm (hi := hi) (fun _ _ _ => by omega) hk
      rcases Step.bind_panic h with h | ⟨⟨st1, s, e⟩, hx, h⟩
      · exact h1 q h
      · obtain ⟨k', ha', hk'⟩ := h2 _ _ _ hx
        exact matchParts_able ops ha' (by exact hk') q h
    rw [matchParts.eq_def] at h
    dsimp only at h
    split at h
    · cases h
    · rename_i hp
      split at h
      · cases ha with
        | @constraint k ex _ hs ha =>
          rcases Step.bind_panic h with h | ⟨st1, hx, h⟩
          · unfold constrain at h
            split at h
            · rename_i hst
              rw [hst] at hk
              simp at hk
            · rcases Step.bind_panic h with h | ⟨v, hv, h⟩
              · exact evalExpr_safe _ hs q h
              · split at h
                · split at h <;> cases h
                · cases h
          · refine matchParts_able ops ha ?_ q h
            unfold constrain at hx
            split at hx
            · cases hx
            · rename_i top rest hst
              obtain ⟨v, hv, hx⟩ := Step.bind_yes hx
              split at hx
              · split at hx
                · cases hx
                · cases hx
                  split
                  · exact hk
                  · exact hk
              · cases hx
      · cases ha with
        | @bind k x ty _ ha =>
          rcases Step.bind_panic h with h | ⟨st1, hx, h⟩
          · unfold bindVar at h
            split at h
            · rename_i hst
              rw [hst] at hk
              simp at hk
            · split at h
              · cases h
              · cases h
              · split at h <;> cases h
          · refine matchParts_able ops ha ?_ q h
            unfold bindVar at hx
            split at hx
            · cases hx
            · rename_i top rest hst
              rw [hst, List.length_cons] at hk
              split at hx
              · cases hx; dsimp only; omega
              · cases hx; dsimp only; omega
              · split at hx
                · cases hx
                · cases hx; dsimp only; omega
      · cases ha
      · rename_i n1 n2 n3
        refine hpart ?_ h hp
        cases op with
        | bind x ty => exact absurd rfl (n2 x ty)
        | drop => exact absurd rfl n3
        | constraint e => exact absurd rfl (n1 e)
        | literal | regex | numeric | subst => trivial

/-- The last part which matched ends before the end of the range. -/
theorem stoppedAt_le {cf : Conf engine} {b : Buf} {hi : Nat} : ∀ (ops : List (MOp engine)) {env : Vars} {st : Smart.St},
    st.mend ≤ hi → stoppedAt cf b hi ops env st ≤ hi
  | [], env, st, h => h
  | op :: ops, env, st, h => by
    rw [stoppedAt.eq_def]
    dsimp only
    split
    · exact h
    · split
      · split
        · rename_i st1 hx
          refine stoppedAt_le ops ?_
          unfold constrain at hx
          split at hx
          · cases hx
          · obtain ⟨v, hv, hx⟩ := Step.bind_yes hx
            split at hx
            · split at hx
              · cases hx
              · cases hx; split <;> exact h
            · cases hx
        · exact h
      · split
        · rename_i x hx
          refine stoppedAt_le ops ?_
          unfold bindVar at hx
          split at hx
          · cases hx
          · split at hx
            · cases hx; exact h
            · cases hx; exact h
            · split at hx
              · cases hx
              · cases hx; exact h
        · exact h
      · split
        · exact h
        · exact stoppedAt_le ops h
      · split
        · rename_i x hx
          exact stoppedAt_le ops (matchPart_bounds (st1 := x.1) (s := x.2.1) (e := x.2.2) hx).2.2.1
        · exact h

/-- One attempt does not panic, and a number is not looked for after the end of the range. -/
theorem attempt_able {cf : Conf engine} {b : Buf} {hi p : Nat} {env : Vars} {op : MOp engine} {ops : List (MOp engine)} {anc : Bool}
    (ha : Able cf 0 (op :: ops)) (hpos : ∀ f c, op = .numeric f c → p ≤ hi) :
    (∀ q, attempt cf b hi anc op ops env p ≠ .panic q) ∧
    ∀ p', attempt cf b hi anc op ops env p = .retry p' → ∀ f c, op = .numeric f c → p' ≤ hi := by
  have hm : IsMatch op := by cases ha <;> trivial
  obtain ⟨h1, h2⟩ := matchPart_able (b := b) (hi := hi) (env := env) (st := start b anc p) ha hm
    (fun f c h => by have := hpos f c h; simp only [start]; omega) (Nat.zero_le _)
  unfold attempt
  dsimp only
  cases hx : matchPart cf b hi env (start b anc p) op with
  | err => exact ⟨by simp, by simp⟩
  | panic q => exact absurd hx (h1 q)
  | no _ => exact ⟨by simp, by simp⟩
  | yes x =>
    obtain ⟨st1, s, e⟩ := x
    obtain ⟨k', ha', hk'⟩ := h2 _ _ _ hx
    have h3 := fun q => matchParts_able (b := b) (hi := hi) (env := env) ops ha'
      (st := { st1 with mstart := s, mend := e, pos := min e b.length, anchored := true }) hk' q
    dsimp only
    cases hy : matchParts cf b hi ops env { st1 with mstart := s, mend := e, pos := min e b.length, anchored := true } with
    | err => exact ⟨by simp, by simp⟩
    | panic q => exact absurd hy (h3 q)
    | yes _ => exact ⟨by simp, by simp⟩
    | no _ =>
      dsimp only
      refine ⟨by split <;> simp, ?_⟩
      intro p' h f c ho
      split at h
      · cases h
      · simp only [Attempt.retry.injEq] at h
        subst h
        have hb := matchPart_bounds hx
        have hs := stoppedAt_le (cf := cf) (b := b) (hi := hi) ops (env := env) (st := { st1 with mstart := s, mend := e, pos := min e b.length, anchored := true }) hb.2.2.1
        have hlt : (start b anc p).pos < hi := by
          subst ho
          simp only [matchPart] at hx
          split at hx
          · cases hx
          · split at hx
            · cases hx
            · omega
        exact Nat.max_le.2 ⟨hs, by omega⟩

/-- The search does not panic. -/
theorem search_able {cf : Conf engine} {b : Buf} {hi : Nat} {env : Vars} {op : MOp engine} {ops : List (MOp engine)} {anc : Bool}
    (ha : Able cf 0 (op :: ops)) : ∀ (fuel p : Nat), (∀ f c, op = .numeric f c → p ≤ hi) → ∀ q,
    search cf b hi anc op ops env fuel p ≠ some (.panic q)
  | 0, p, _, q, h => by simp [search] at h
  | fuel + 1, p, hpos, q, h => by
    obtain ⟨h1, h2⟩ := attempt_able (b := b) (hi := hi) (env := env) (anc := anc) ha hpos
    unfold search at h
    split at h
    · cases h
    · cases h
    · cases h
    · rename_i hx; exact h1 _ hx
    · rename_i hx; exact search_able ha fuel _ (h2 _ hx) q h

theorem tryMatch_able {cf : Conf engine} {op : MOp engine} {ops : List (MOp engine)} (ha : Able cf 0 (op :: ops)) {pspan fuel : Nat} {b : Buf} {r : Rng} {env : Vars}
    (hr : r.start ≤ r.stop) (q : Panic) : tryMatch cf (op :: ops) pspan fuel b r env ≠ .panic q := by
  have := search_able (b := b) (hi := r.stop) (env := env) (anc := false) ha fuel r.start (fun _ _ _ => hr) q
  intro h
  unfold tryMatch at h
  dsimp only at h
  split at h
  · cases h
  · rename_i hx
    cases h
    exact this hx
  · cases h
  · cases h
  · split at h
    · split at h <;> cases h
    · cases h

/-- The groups which took part, of a match: there is a text for each. -/
theorem capture_total {ic : Bool} {b : Buf} {re : Re} {h : Hit} (hl : Lang ic b re h.start h.stop h.caps) : ∀ {sp : List (Cap × Nat × Nat)},
    (∀ x ∈ sp, h.group (symOf x.1.name) = some x.2) → ∃ cs, capture b h (sp.map Prod.fst) = .yes cs ∧ cs.length = sp.length
  | [], _ => ⟨[], rfl, rfl⟩
  | x :: sp, hg => by
    obtain ⟨cs, hcs, hlen⟩ := capture_total hl (sp := sp) fun y hy => hg y (List.mem_cons_of_mem _ hy)
    simp only [List.map_cons, capture]
    have h1 := hg x List.mem_cons_self
    rw [h1]
    dsimp only
    have hmem : ∃ y ∈ h.caps, y.2 = x.2 := by
      have h1' : groupOf h.caps (symOf x.1.name) = some x.2 := h1
      unfold groupOf at h1'
      obtain ⟨y, hy, he⟩ := Option.map_eq_some_iff.1 h1'
      exact ⟨y, List.mem_reverse.1 (List.mem_of_find?_eq_some hy), he⟩
    obtain ⟨y, hy, he⟩ := hmem
    have ht := (lang_text re _ _ _ hl).2 y hy
    rw [he] at ht
    obtain ⟨t, ht⟩ := ht.read
    rw [ht]
    dsimp only
    rw [hcs]
    exact ⟨_, rfl, by simp [hlen]⟩

theorem Able.binds {cf : Conf engine} {k : Nat} {rest : List (MOp engine)} (h : Able cf k rest) : ∀ caps : List Cap,
    Able cf (k + caps.length) ((caps.map fun c => (MOp.bind c.name (some c.ty) : MOp engine)) ++ rest)
  | [] => h
  | c :: caps => .bind (Able.binds h caps)

/-- A segment can be carried out. -/
theorem seg_able {cf : Conf engine} {o : Opts} {run : List Part} {cp : CPart} {ops rest : List (MOp engine)} (hs : SegRun run cp)
    (hl : lowerPart engine o cp = .ok (some ops)) (hsafe : ∀ x ∈ run, SafePart cf.checked cf.line x) (hrest : Able cf 0 rest) :
    Able cf 0 (ops ++ rest) := by
  cases hs with
  | @lit t hne =>
    simp only [lowerPart, buildLiteral] at hl
    rw [if_neg (by simpa using hne)] at hl
    cases hl
    exact .literal hrest
  | @rx run l src caps hrun hit =>
    simp only [lowerPart, buildRegex] at hl
    split at hl
    · cases hl
    · rename_i prog hb
      cases hl
      obtain ⟨r, hp, rfl⟩ := build_some hb
      obtain ⟨hr1, hr2⟩ := parse_reads hp
      obtain rfl := reads_unique hr1 hit.reads
      refine .regex ?_ ?_
      · intro b lo hi anchored h hf
        have hf' : find o.ignoreCase (seqRe l) b lo hi anchored = some h := hf
        have hl := (find_some hf').2.2.2.2.1
        obtain ⟨sp, e1, g1, _⟩ := static_sound (cx := ⟨weak, o.ignoreCase, false, 0⟩) hrun hr2 hl
        obtain ⟨cs, hcs, hlen⟩ := capture_total hl (sp := sp) (fun x hx => g1 x hx)
        exact ⟨cs, by rw [← e1]; exact hcs, by rw [hlen, ← e1, List.length_map]⟩
      · have := hrest.binds caps.reverse
        rw [List.length_reverse] at this
        exact this
  | @dyn m hd hok =>
    cases m with
    | substitution x pt =>
      have hd' : pt = none := hd
      subst hd'
      simp only [lowerPart, lowerMatch, Except.ok.injEq, Option.some.injEq] at hl
      subst hl
      exact .subst trivial hrest
    | numeric f cap ex =>
      have hd' : ex ≠ none := hd
      cases ex with
      | none => exact absurd rfl hd'
      | some ex =>
        have hsf : Safe cf.checked cf.line ex := hsafe _ List.mem_cons_self
        cases cap with
        | none =>
          simp only [lowerPart, lowerMatch, Except.ok.injEq, Option.some.injEq] at hl
          subst hl
          exact .subst hsf hrest
        | some x =>
          simp only [lowerPart, lowerMatch, Except.ok.injEq, Option.some.injEq] at hl
          subst hl
          exact .capture hok.2 hok.1 (.constraint hsf (.bind hrest))

theorem segs_able {cf : Conf engine} {o : Opts} {ps : List Part} {cps : List CPart} (hs : SegList ps cps) :
    ∀ {ops : List (MOp engine)}, lowerParts engine o cps = .ok (some ops) → (∀ x ∈ ps, SafePart cf.checked cf.line x) → Able cf 0 ops := by
  induction hs with
  | nil _ => intro ops hl _; cases hl; exact .nil
  | cons h0 h1 h2 ih =>
    intro ops hl hsafe
    obtain ⟨x, y, hx, hy, rfl⟩ := lowerParts_cons hl
    exact seg_able h1 hx (fun z hz => hsafe z (by simp [hz])) (ih hy fun z hz => hsafe z (by simp [hz]))

theorem segs_lower {o : Opts} {ps : List Part} {cps : List CPart} (hs : SegList ps cps) : ∃ x, lowerParts engine o cps = .ok x := by
  induction hs with
  | nil _ => exact ⟨_, rfl⟩
  | @cons _ run cp _ cps _ h1 _ ih =>
    obtain ⟨y, hy⟩ := ih
    have hx : ∃ x, lowerPart engine o cp = .ok x := by
      cases h1 with
      | lit h => exact ⟨_, by simp only [lowerPart, buildLiteral]; rw [if_neg (by simpa using h)]⟩
      | rx => simp only [lowerPart, buildRegex]; split <;> exact ⟨_, rfl⟩
      | @dyn m _ _ =>
        simp only [lowerPart]
        unfold lowerMatch
        split
        · exact ⟨_, rfl⟩
        · split <;> exact ⟨_, rfl⟩
        all_goals exact ⟨_, rfl⟩
    obtain ⟨x, hx⟩ := hx
    unfold lowerParts
    rw [hx]
    simp only [bind, Except.bind]
    cases x with
    | none => exact ⟨_, rfl⟩
    | some x =>
      dsimp only
      rw [hy]
      cases y <;> exact ⟨_, rfl⟩

/-- The compiler does not abort. -/
theorem compile_answers {o : Opts} {p : CPat} (hw : WellFormed p) : ∃ x, Pattern.compile engine o p = .ok x := by
  have hl : ∀ s, ∃ x, compileLit engine o s = .ok x := by
    intro s
    unfold compileLit
    repeat' split
    all_goals exact ⟨_, rfl⟩
  have hx : ∀ x, ∃ y, compileRx engine o x = .ok y := by
    intro x
    unfold compileRx
    split <;> exact ⟨_, rfl⟩
  unfold Pattern.compile
  cases p with
  | empty => exact ⟨_, rfl⟩
  | literal s => exact hl _
  | regex s => exact hx _
  | match_ ps =>
    cases ps with
    | nil => exact ⟨_, rfl⟩
    | cons q qs =>
      have hseg := compact_segs (parts := q :: qs) (by simp) (hw.parts _ rfl)
      cases hcp : compact (.match_ (q :: qs)) with
      | empty => exact ⟨_, rfl⟩
      | lit s => exact hl _
      | rx x => exact hx _
      | parts cps =>
        rw [hcp] at hseg
        obtain ⟨x, hx⟩ := segs_lower (o := o) hseg.list
        dsimp only
        rw [hx]
        cases x <;> exact ⟨_, rfl⟩

end Litcheck.Pattern
