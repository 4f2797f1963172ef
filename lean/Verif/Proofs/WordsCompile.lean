import Verif.Proofs.Words

/-!
# Patterns of words, compiled
-/

namespace Litcheck.Pattern
open Litcheck.Smart Litcheck.Spec Litcheck.RegexSpec Litcheck.PatternSpec
open Litcheck.Regex hiding Items
open Litcheck.Lex (Part Match CPat VarName Expr Op)

theorem text_eval {ck : Bool} {line : Nat} {env : Vars} {ty : Option Ty} {e : Expr} {t : Str} (h : Text line env (explicitFormat ty) e t)
    (hf : ck = true → AllFit line env e) : ∃ v, evalExpr ck line env ty e = .yes v ∧ substText v ty = t := by
  cases h with
  | @str x _ h =>
    refine ⟨.str t, ?_, ?_⟩
    · cases x with
      | pseudo s => exact absurd h (get_pseudo _ _)
      | user s => simp only [evalExpr, h]
      | global s => simp only [evalExpr, h]
    · cases ty with
      | none => rfl
      | some ty => cases ty with
        | string => rfl
        | number f => cases f <;> rfl
  | @num _ v g h =>
    have he : evalExpr ck line env ty e = .yes (.num v g) := by
      cases ck with
      | false => exact evalExpr_complete h
      | true => exact evalExpr_builds (hf rfl) h
    refine ⟨_, he, ?_⟩
    cases ty with
    | none => rfl
    | some ty => cases ty with
      | string => rfl
      | number f => cases f <;> rfl

theorem lowerParts_append {o : Opts} : ∀ {a c : List CPart} {x y : List (MOp engine)}, lowerParts engine o a = .ok (some x) →
    lowerParts engine o c = .ok (some y) → lowerParts engine o (a ++ c) = .ok (some (x ++ y))
  | [], c, x, y, h1, h2 => by
    simp only [lowerParts, Except.ok.injEq, Option.some.injEq] at h1
    subst h1
    exact h2
  | p :: a, c, x, y, h1, h2 => by
    rw [List.cons_append]
    unfold lowerParts at h1 ⊢
    cases hp : lowerPart engine o p with
    | error => rw [hp] at h1; simp [bind, Except.bind] at h1
    | ok z =>
      rw [hp] at h1
      cases z with
      | none => simp [bind, Except.bind] at h1
      | some ops =>
        simp only [bind, Except.bind] at h1 ⊢
        cases ha : lowerParts engine o a with
        | error => rw [ha] at h1; simp at h1
        | ok z =>
          rw [ha] at h1
          cases z with
          | none => simp at h1
          | some rest =>
            simp only [Except.ok.injEq, Option.some.injEq] at h1
            subst h1
            rw [lowerParts_append ha h2]
            simp

theorem lowerParts_one {o : Opts} {p : CPart} {x : List (MOp engine)} (h : lowerPart engine o p = .ok (some x)) :
    lowerParts engine o [p] = .ok (some x) := by
  simp [lowerParts, h, bind, Except.bind]

theorem lowerParts_split {o : Opts} : ∀ {a c : List CPart} {x z : List (MOp engine)}, lowerParts engine o a = .ok (some x) →
    lowerParts engine o (a ++ c) = .ok (some z) → ∃ y, lowerParts engine o c = .ok (some y) ∧ z = x ++ y
  | [], c, x, z, h1, h2 => by
    simp only [lowerParts, Except.ok.injEq, Option.some.injEq] at h1
    subst h1
    exact ⟨z, h2, rfl⟩
  | p :: a, c, x, z, h1, h2 => by
    rw [List.cons_append] at h2
    unfold lowerParts at h1 h2
    cases hp : lowerPart engine o p with
    | error => rw [hp] at h1; simp [bind, Except.bind] at h1
    | ok u =>
      rw [hp] at h1 h2
      cases u with
      | none => simp [bind, Except.bind] at h1
      | some ops =>
        simp only [bind, Except.bind] at h1 h2
        cases ha : lowerParts engine o a with
        | error => rw [ha] at h1; simp at h1
        | ok u =>
          rw [ha] at h1
          cases u with
          | none => simp at h1
          | some rest =>
            simp only [Except.ok.injEq, Option.some.injEq] at h1
            subst h1
            cases hac : lowerParts engine o (a ++ c) with
            | error => rw [hac] at h2; simp at h2
            | ok u =>
              rw [hac] at h2
              cases u with
              | none => simp at h2
              | some r =>
                simp only [Except.ok.injEq, Option.some.injEq] at h2
                subst h2
                obtain ⟨y, h3, rfl⟩ := lowerParts_split ha hac
                exact ⟨y, h3, by simp⟩

section
variable {o : Opts} {cf : Conf engine} {b : Buf} {hi : Nat} {env : Vars}

/-- The parts so far are words, and a text which is not yet a part. -/
def WInv (o : Opts) (cf : Conf engine) (b : Buf) (hi : Nat) (env : Vars) (out : List CPart) (text : Str) (done : List Str) : Prop :=
  ∃ ops vs, lowerParts engine o out = .ok (some ops) ∧ List.Forall₂ (WordOp cf b hi env) ops vs ∧ (∀ v ∈ vs, v ≠ []) ∧
    (o.strictWs = true ∨ ∀ c ∈ text, isNonCanonicalHorizontalWhitespace c = false) ∧
    vs.flatten ++ utf8 text = utf8 done.flatten ∧
    ∀ k, k ≤ vs.length → ∃ m, m ≤ done.length ∧ (0 < k → 0 < m) ∧ (vs.take k).flatten = utf8 (done.take m).flatten

theorem litBytes_canonical {s : Str} (h : o.strictWs = true ∨ ∀ c ∈ s, isNonCanonicalHorizontalWhitespace c = false) : litBytes o s = utf8 s := by
  unfold litBytes
  rw [canonical_spaced]
  congr 1
  unfold spaced
  rcases h with h | h
  · rw [if_pos h]
  · split
    · rfl
    · rw [List.map_congr_left (g := id), List.map_id]
      intro c hc
      simp [h c hc]

theorem WInv.take_more {done : List Str} {w : Str} {m : Nat} (h : m ≤ done.length) : (done ++ [w]).take m = done.take m :=
  List.take_append_of_le_length h

theorem utf8_ne {s : Str} (h : s ≠ []) : utf8 s ≠ [] := fun he => h (utf8_injective (t := []) (by rw [he]; rfl))

theorem WInv.flush {out : List CPart} {text : Str} {done : List Str} (h : WInv o cf b hi env out text done) (hne : text ≠ []) :
    WInv o cf b hi env (out ++ [.lit text]) [] done := by
  obtain ⟨ops, vs, h1, h2, h3, h4, h5, h6⟩ := h
  have hl : lowerPart engine o (.lit text) = .ok (some [.literal (utf8 text)]) := by
    simp only [lowerPart, buildLiteral]
    rw [if_neg (by simpa using hne), litBytes_canonical h4]
  refine ⟨_, vs ++ [utf8 text], lowerParts_append h1 (lowerParts_one hl), List.rel_append h2 (.cons (literal_wordOp _) .nil), ?_, .inr (by simp), ?_, ?_⟩
  · intro v hv
    rcases List.mem_append.1 hv with hv | hv
    · exact h3 v hv
    · rw [List.mem_singleton.1 hv]; exact utf8_ne hne
  · simp only [List.flatten_append, List.flatten_cons, List.flatten_nil, List.append_nil]
    rw [show utf8 ([] : Str) = [] from rfl, List.append_nil]
    exact h5
  · intro k hk
    by_cases hk' : k ≤ vs.length
    · obtain ⟨m, a1, a2, a3⟩ := h6 k hk'
      exact ⟨m, a1, a2, by rw [List.take_append_of_le_length hk']; exact a3⟩
    · refine ⟨done.length, le_refl _, ?_, ?_⟩
      · intro _
        by_contra hz
        have : done = [] := List.length_eq_zero_iff.1 (by omega)
        subst this
        rw [show utf8 ([] : List Str).flatten = [] from rfl] at h5
        exact utf8_ne hne (List.append_eq_nil_iff.1 h5).2
      · rw [List.take_of_length_le (by simp at hk ⊢; omega), List.take_length]
        simpa using h5

theorem WInv.literal {out : List CPart} {text s : Str} {done : List Str} (h : WInv o cf b hi env out text done)
    (hc : o.strictWs = true ∨ ∀ c ∈ s, isNonCanonicalHorizontalWhitespace c = false) : WInv o cf b hi env out (text ++ s) (done ++ [s]) := by
  obtain ⟨ops, vs, h1, h2, h3, h4, h5, h6⟩ := h
  refine ⟨ops, vs, h1, h2, h3, ?_, ?_, ?_⟩
  · rcases hc with hc | hc
    · exact .inl hc
    · rcases h4 with h4 | h4
      · exact .inl h4
      · right
        intro c hm
        rcases List.mem_append.1 hm with hm | hm
        · exact h4 c hm
        · exact hc c hm
  · rw [List.flatten_append, utf8_append, utf8_append, ← List.append_assoc, h5]
    simp
  · intro k hk
    obtain ⟨m, a1, a2, a3⟩ := h6 k hk
    exact ⟨m, by simp; omega, a2, by rw [WInv.take_more a1]; exact a3⟩

theorem WInv.insert {out : List CPart} {done : List Str} {m : Match} {op : MOp engine} {w : Str} (h : WInv o cf b hi env out [] done)
    (hl : lowerMatch engine o m = .ok (some [op])) (hw : WordOp cf b hi env op (utf8 w)) (hne : w ≠ []) :
    WInv o cf b hi env (out ++ [.dyn m]) [] (done ++ [w]) := by
  obtain ⟨ops, vs, h1, h2, h3, h4, h5, h6⟩ := h
  rw [show utf8 ([] : Str) = [] from rfl, List.append_nil] at h5
  refine ⟨_, vs ++ [utf8 w], lowerParts_append h1 (lowerParts_one (p := .dyn m) hl), List.rel_append h2 (.cons hw .nil), ?_, .inr (by simp), ?_, ?_⟩
  · intro v hv
    rcases List.mem_append.1 hv with hv | hv
    · exact h3 v hv
    · rw [List.mem_singleton.1 hv]; exact utf8_ne hne
  · rw [show utf8 ([] : Str) = [] from rfl, List.append_nil, List.flatten_append, List.flatten_append, utf8_append, h5]
    simp
  · intro k hk
    by_cases hk' : k ≤ vs.length
    · obtain ⟨n, a1, a2, a3⟩ := h6 k hk'
      exact ⟨n, by simp; omega, a2, by rw [List.take_append_of_le_length hk', WInv.take_more a1]; exact a3⟩
    · refine ⟨(done ++ [w]).length, le_refl _, fun _ => by simp, ?_⟩
      rw [List.take_of_length_le (by simp at hk ⊢; omega), List.take_length, List.flatten_append, List.flatten_append, utf8_append, h5]
      simp

theorem wordOf_insert {q : Part} {w : Str} (h : WordOf o.strictWs cf.checked cf.line env q w) :
    (∃ s, q = .literal s) ∨ ∃ m op, q = .match_ m ∧ lowerMatch engine o m = .ok (some [op]) ∧ WordOp cf b hi env op (utf8 w) ∧
      ∀ st : CSt, compactStep st q = ⟨st.flush ++ [.dyn m], [], [], true⟩ := by
  cases h with
  | lit => exact .inl ⟨_, rfl⟩
  | @use x t ht hp =>
    obtain ⟨v, h1, rfl⟩ := text_eval (ck := cf.checked) (ty := none) ht (fun _ => trivial)
    exact .inr ⟨_, _, rfl, rfl, subst_wordOp h1 hp, fun _ => rfl⟩
  | @expr f e t ht hp hf =>
    obtain ⟨v, h1, rfl⟩ := text_eval (ck := cf.checked) (ty := some (.number f)) ht hf
    exact .inr ⟨_, _, rfl, rfl, subst_wordOp h1 hp, fun _ => rfl⟩

/-- Compiling words. -/
theorem words_fold : ∀ {ps : List Part} {ws : List Str} {st : CSt} {done : List Str},
    List.Forall₂ (WordOf o.strictWs cf.checked cf.line env) ps ws → (∀ w ∈ ws, w ≠ []) →
    st.litMode = true → st.caps = [] → WInv o cf b hi env st.out st.text done →
    (ps.foldl compactStep st).litMode = true ∧ (ps.foldl compactStep st).caps = [] ∧
      WInv o cf b hi env (ps.foldl compactStep st).out (ps.foldl compactStep st).text (done ++ ws)
  | _, _, st, done, .nil, _, h1, h2, h3 => by simpa using ⟨h1, h2, h3⟩
  | q :: ps, w :: ws, st, done, .cons hq hps, hne, h1, h2, h3 => by
    rw [List.foldl_cons, List.append_cons]
    have key : (compactStep st q).litMode = true ∧ (compactStep st q).caps = [] ∧
        WInv o cf b hi env (compactStep st q).out (compactStep st q).text (done ++ [w]) := by
      rcases wordOf_insert (b := b) (hi := hi) hq with ⟨s, rfl⟩ | ⟨m, op, rfl, hl, hw, hc⟩
      · cases hq with
        | lit hcan =>
          simp only [compactStep, h1, if_true]
          exact ⟨trivial, h2, h3.literal hcan⟩
      · rw [hc st]
        refine ⟨rfl, rfl, ?_⟩
        have hfl : WInv o cf b hi env st.flush [] done := by
          unfold CSt.flush
          by_cases ht : st.text = []
          · rw [if_pos (by simp [ht])]; rw [ht] at h3; exact h3
          · rw [if_neg (by simpa using ht), if_pos h1]; exact h3.flush ht
        exact hfl.insert hl hw (hne w (by simp))
    exact words_fold hps (fun x hx => hne x (by simp [hx])) key.1 key.2.1 key.2.2

theorem winv_nil : WInv o cf b hi env [] [] [] :=
  ⟨[], [], rfl, .nil, by simp, .inr (by simp), rfl, fun k hk => ⟨0, by simp, by simp at hk; omega, by simp at hk; subst hk; rfl⟩⟩

/-- Static parts do not look at the parts before them. -/
theorem static_fold_eq : ∀ {tail : List Part} (out : List CPart) (st : CSt), (∀ p ∈ tail, ¬ Uses p) →
    tail.foldl compactStep { st with out := out } = { tail.foldl compactStep st with out := out }
  | [], out, st, _ => rfl
  | p :: tail, out, st, h => by
    rw [List.foldl_cons, List.foldl_cons]
    have hp : compactStep { st with out := out } p = { compactStep st p with out := out } := by
      have hu := h p (by simp)
      cases p with
      | literal s => rfl
      | regex s => rfl
      | match_ m =>
        cases m with
        | substitution x pt => cases pt with
          | none => exact absurd trivial hu
          | some s => rfl
        | numeric f cap e =>
          cases e with
          | some e => cases cap <;> exact absurd trivial hu
          | none => cases cap <;> rfl
    rw [hp]
    exact static_fold_eq out _ (fun q hq => h q (by simp [hq]))

/-- What words match. -/
theorem words_match {cx : PatternSpec.Ctx} (hrd : ∀ t, plainText t = true → cx.rd.literal t = true) {ck : Bool} :
    ∀ {ps : List Part} {ws : List Str} {i j : Nat} {env' : Vars}, List.Forall₂ (WordOf cx.strict ck cx.line env) ps ws →
    (PartsMatch cx b env ps i j env' ↔ env' = env ∧ Occurs cx.ic (utf8 ws.flatten) b i j)
  | _, _, i, j, env', .nil => by
    rw [show utf8 ([] : List Str).flatten = [] from rfl, occurs_nil]
    constructor
    · intro h; cases h; exact ⟨rfl, rfl⟩
    · rintro ⟨rfl, rfl⟩; exact .nil
  | q :: ps, w :: ws, i, j, env', .cons hq hps => by
    have hone : ∀ {i j env'}, PartMatches cx b env i j env' q ↔ env' = env ∧ Occurs cx.ic (utf8 w) b i j := by
      intro i j env'
      cases hq with
      | lit hcan =>
        constructor
        · rintro ⟨h1, s', h2, h3⟩
          rw [spaced_canonical (fun s hs => by cases hs; exact hcan) h2] at h3
          exact ⟨h1, h3⟩
        · rintro ⟨h1, h2⟩; exact ⟨h1, _, .inl rfl, h2⟩
      | use ht hp =>
        constructor
        · rintro ⟨h1, t', h2, h3⟩
          rw [text_unique h2 ht, Stands, if_pos (hrd _ hp)] at h3
          exact ⟨h1, h3⟩
        · rintro ⟨h1, h2⟩; exact ⟨h1, _, ht, by rw [Stands, if_pos (hrd _ hp)]; exact h2⟩
      | expr ht hp =>
        constructor
        · rintro ⟨h1, t', h2, h3⟩
          rw [text_unique h2 ht, Stands, if_pos (hrd _ hp)] at h3
          exact ⟨h1, h3⟩
        · rintro ⟨h1, h2⟩; exact ⟨h1, _, ht, by rw [Stands, if_pos (hrd _ hp)]; exact h2⟩
    rw [List.flatten_cons, utf8_append, occurs_append]
    constructor
    · intro h
      cases h with
      | cons h1 h2 =>
        obtain ⟨he, h3⟩ := hone.1 h1
        rw [he] at h2
        obtain ⟨he', h4⟩ := (words_match hrd hps).1 h2
        exact ⟨he', _, h3, h4⟩
    · rintro ⟨he, k, h1, h2⟩
      exact .cons (hone.2 ⟨rfl, h1⟩) ((words_match hrd hps).2 ⟨he, h2⟩)

theorem capture_not_no {h : Hit} {f : Failure} : ∀ caps : List Cap, capture b h caps ≠ .no f
  | [], hc => by simp [capture] at hc
  | c :: cs, hc => by
    simp only [capture] at hc
    split at hc
    · exact capture_not_no cs hc
    · split at hc
      · simp at hc
      · cases h1 : capture b h cs with
        | yes x => rw [h1] at hc; simp [Smart.Step.bind] at hc
        | no x => exact capture_not_no cs h1
        | err => rw [h1] at hc; simp [Smart.Step.bind] at hc
        | panic x => rw [h1] at hc; simp [Smart.Step.bind] at hc

theorem capture_types {h : Hit} : ∀ {caps : List Cap} {cs : List (Ty × Str)}, capture b h caps = .yes cs → ∀ c ∈ cs, ∃ cp ∈ caps, c.1 = cp.ty
  | [], cs, hc, c, hm => by
    simp only [capture, Smart.Step.yes.injEq] at hc
    subst hc
    simp at hm
  | cp :: caps, cs, hc, c, hm => by
    simp only [capture] at hc
    split at hc
    · obtain ⟨x, h1, h2⟩ := capture_types hc c hm
      exact ⟨x, by simp [h1], h2⟩
    · split at hc
      · simp at hc
      · cases h1 : capture b h caps with
        | yes x =>
          rw [h1] at hc
          simp only [Smart.Step.bind, Smart.Step.yes.injEq] at hc
          subst hc
          rcases List.mem_cons.1 hm with rfl | hm
          · exact ⟨cp, by simp, rfl⟩
          · obtain ⟨y, h2, h3⟩ := capture_types h1 c hm
            exact ⟨y, by simp [h2], h3⟩
        | no x => rw [h1] at hc; simp [Smart.Step.bind] at hc
        | err => rw [h1] at hc; simp [Smart.Step.bind] at hc
        | panic x => rw [h1] at hc; simp [Smart.Step.bind] at hc

theorem convertible_more {cs ds : List (Ty × Str)} (h : convertible cs = true) (hd : ∀ c ∈ ds, c.1 = .string) : convertible (cs ++ ds) = true := by
  unfold convertible at h ⊢
  rw [List.all_append, h, Bool.true_and, List.all_eq_true]
  intro c hc
  rw [hd c hc]

/-! ## The part without variables at the end -/

theorem tail_nil {Q : Nat → Prop} : TailOp cf b hi env [] (fun _ => True) Q True := by
  intro st _ _ _ _
  simp only [matchParts]
  exact ⟨trivial, trivial, id⟩

theorem tail_lit {Q : Nat → Prop} {w : Buf} (hhi : hi ≤ b.length) (hne : w ≠ []) :
    TailOp cf b hi env [.literal w] (fun q => hitAt cf.ignoreCase b hi q w = true) Q True := by
  intro st ha hm hp _
  have hpos := List.length_pos_iff.2 hne
  have hw : WordOp cf b hi env (.literal w) w := literal_wordOp w
  rcases words_run hhi [] (.cons hw .nil) (by simpa using hne) st ha hm hp with ⟨h1, h2, h3⟩ | ⟨k, h1, h2, h3, ⟨f, h4⟩, h5⟩
  · simp only [List.cons_append, List.nil_append] at h2
    rw [h2]
    simp only [matchParts]
    exact ⟨trivial, trivial, id⟩
  · simp only [List.cons_append, List.nil_append] at h4 h5
    have hk : k = 0 := by simp at h1; exact h1
    subst hk
    rw [h4]
    dsimp only
    refine ⟨by rw [h5]; simp, ?_⟩
    intro hh
    simp only [Nat.zero_add, List.take_succ_cons, List.take_zero, List.flatten_cons, List.flatten_nil, List.append_nil] at h3
    rw [hh] at h3
    cases h3

/-- Binding captured strings does not fail before the end of the range. -/
theorem binds_run : ∀ {caps : List Cap} {env : Vars} {st : Smart.St}, (∀ c ∈ caps, c.ty = .string) → (caps = [] ∨ st.pos < hi) →
    match matchParts cf b hi (caps.map fun c => .bind c.name (some c.ty)) env st with
    | .yes x => x.1.mstart = st.mstart ∧ x.1.pat = true ∧ x.1.caps = st.caps
    | .no _ => False
    | .err => False
    | .panic _ => caps ≠ []
  | [], env, st, _, _ => by simp [matchParts]
  | c :: caps, env, st, hc, hp => by
    have hp' : ¬ hi ≤ st.pos := by rcases hp with hp | hp; cases hp; omega
    rw [List.map_cons]
    simp only [matchParts, if_neg hp']
    unfold bindVar
    cases hs : st.stack with
    | nil => simp [Smart.Step.bind]
    | cons top rest =>
      simp only [hc c (by simp), Smart.Step.bind]
      have := binds_run (caps := caps) (env := env.insert (keyOf c.name) top) (st := { st with stack := rest })
        (fun x hx => hc x (by simp [hx])) (.inr (by show st.pos < hi; omega))
      revert this
      cases matchParts cf b hi (caps.map fun c => .bind c.name (some c.ty)) (env.insert (keyOf c.name) top) { st with stack := rest } with
      | yes x => exact id
      | no f => exact id
      | err => exact id
      | panic p => intro _; simp

/-- The captures of strings exist if their texts do. -/
theorem string_binds {sp : List (Cap × Nat × Nat)} {cs : List (Ty × Str)} (h : List.Forall₂ (fun x c => c.1 = x.1.ty ∧ utf8 c.2 = sliceOf b x.2.1 x.2.2) sp cs)
    (hs : ∀ x ∈ sp, x.1.ty = .string) : ∀ env : Vars, ∃ env', Binds b env sp env' := by
  induction h with
  | nil => intro env; exact ⟨env, .nil⟩
  | @cons x c sp cs hx _ ih =>
    intro env
    obtain ⟨env', h⟩ := ih (fun y hy => hs y (by simp [hy])) (env.insert (keyOf x.1.name) (.str c.2))
    refine ⟨env', ?_⟩
    obtain ⟨cp, s, e⟩ := x
    refine .cons ⟨c.2, hx.2, ?_⟩ h
    rw [show cp.ty = .string from hs (cp, s, e) (by simp)]

theorem tail_rx {cx : PatternSpec.Ctx} (hic : cx.ic = cf.ignoreCase) {tail : List Part} {l : List Re} {caps : List Cap} (hrun : StaticRun tail l caps)
    (hcan : ∀ p ∈ tail, Canonical cx.strict p) (hn : (seqRe l).names.Nodup) (hhi : hi ≤ b.length) {Q : Nat → Prop} (hstr : ∀ c ∈ caps, c.ty = .string)
    (hend : (caps = [] ∧ ∀ env', ¬ PartsMatch cx b env tail hi hi env') ∨ ∀ q env', Q q → ¬ PartsMatch cx b env tail q hi env') :
    TailOp cf b hi env (.regex (cf.ignoreCase, seqRe l) caps :: caps.reverse.map fun c => .bind c.name (some c.ty))
      (fun q => ∃ e env', e ≤ hi ∧ PartsMatch cx b env tail q e env') Q (caps = []) := by
  intro st ha hm hp hQ
  by_cases hpe : hi ≤ st.pos
  · have hpq : st.pos = hi := by omega
    simp only [matchParts, if_pos hpe]
    refine ⟨?_, ?_⟩
    · simp only [stoppedAt, if_pos hpe]; exact hm
    · rintro ⟨e, env', h1, h2⟩
      have hle := partsMatch_le h2
      have : e = hi := by omega
      subst this
      rcases hend with ⟨_, hend⟩ | hend
      · rw [hpq] at h2; exact hend env' h2
      · exact hend _ _ hQ h2
  · simp only [matchParts, if_neg hpe, matchPart]
    have hse : engine.search (cf.ignoreCase, seqRe l) b st.pos hi st.anchored = find cf.ignoreCase (seqRe l) b st.pos hi st.anchored := rfl
    rw [hse]
    cases hf : find cf.ignoreCase (seqRe l) b st.pos hi st.anchored with
    | none =>
      simp only [Smart.Step.bind]
      refine ⟨?_, ?_⟩
      · simp only [stoppedAt, if_neg hpe, matchPart, hse, hf]; exact hm
      · rintro ⟨e, env', h1, h2⟩
        obtain ⟨c, h3⟩ := static_complete hrun hcan (by omega) h2
        rw [hic] at h3
        exact find_none hf _ _ (le_refl _) h1 (fun _ => rfl) ⟨c, h3⟩
    | some h =>
      obtain ⟨h1, h2, h3, h4, h5, _⟩ := find_some hf
      have hs := h4 ha
      dsimp only
      cases hcap : capture b h caps with
      | yes cs =>
        simp only [Smart.Step.bind]
        have hlt : caps.reverse = [] ∨ min h.stop b.length < hi := by
          by_cases hlt : h.stop < hi
          · right; omega
          · left
            rcases hend with ⟨hend, _⟩ | hend
            · simp [hend]
            · exfalso
              have he : h.stop = hi := by omega
              rw [← hic] at h5
              obtain ⟨sp, e1, g1, _, _, b1⟩ := static_sound hrun hn h5
              subst e1
              obtain ⟨env', hb⟩ := string_binds (capture_spans (h := h) (fun x hx => g1 x hx) hcap) (fun x hx => hstr _ (List.mem_map_of_mem hx)) env
              have := b1 _ _ hb
              rw [he, hs] at this
              exact hend _ _ hQ this
        have := binds_run (cf := cf) (b := b) (hi := hi) (caps := caps.reverse) (env := env)
          (st := { st with stack := (cs.map fun c => Val.str c.2).reverse ++ st.stack, caps := st.caps ++ cs, mend := h.stop, pos := min h.stop b.length })
          (fun c hc => hstr c (List.mem_reverse.1 hc)) hlt
        revert this
        generalize matchParts cf b hi (caps.reverse.map fun c => .bind c.name (some c.ty)) env _ = r
        cases r with
        | yes x =>
          intro h
          refine ⟨h.1, h.2.1, fun hcv => ?_⟩
          rw [h.2.2]
          exact convertible_more hcv (fun c hc => by
            obtain ⟨cp, a1, a2⟩ := capture_types hcap c hc
            rw [a2, hstr cp a1])
        | no f => exact False.elim
        | err => exact False.elim
        | panic p => intro h hn; subst hn; exact h rfl
      | no f => exact absurd hcap (capture_not_no _)
      | err =>
        simp only [Smart.Step.bind]
        rintro rfl
        simp [capture] at hcap
      | panic p =>
        simp only [Smart.Step.bind]
        rintro rfl
        simp [capture] at hcap

theorem staticRun_strings {tail : List Part} {l : List Re} {caps : List Cap} (h : StaticRun tail l caps) (hn : ∀ p ∈ tail, NoNumber p) :
    ∀ c ∈ caps, c.ty = .string := by
  induction h with
  | nil => simp
  | cons h1 _ ih =>
    intro c hc
    rcases List.mem_append.1 hc with hc | hc
    · cases h1 with
      | literal | regex | numeric => simp at hc
      | capture => rw [List.mem_singleton.1 hc]
      | number => exact absurd rfl (hn _ List.mem_cons_self _ _ _)
    · exact ih (fun p hp => hn p (by simp [hp])) c hc

theorem staticRun_captures {tail : List Part} {l : List Re} {caps : List Cap} (h : StaticRun tail l caps) (hn : ∀ p ∈ tail, ¬ Captures p) : caps = [] := by
  induction h with
  | nil => rfl
  | cons h1 _ ih =>
    rw [ih (fun p hp => hn p (by simp [hp])), List.append_nil]
    cases h1 with
    | literal | regex | numeric => rfl
    | capture => exact absurd (.inl ⟨_, _, rfl⟩) (hn _ List.mem_cons_self)
    | number => exact absurd (.inr ⟨_, _, _, rfl⟩) (hn _ List.mem_cons_self)

theorem literal_fold : ∀ {tail : List Part} (st : CSt), (∀ p ∈ tail, ∃ s, p = Part.literal s) → (tail.foldl compactStep st).litMode = st.litMode
  | [], _, _ => rfl
  | p :: tail, st, h => by
    obtain ⟨s, rfl⟩ := h p (by simp)
    rw [List.foldl_cons, literal_fold _ (fun q hq => h q (by simp [hq]))]
    rfl

/-- The operations after the words. -/
theorem tail_ops {cx : PatternSpec.Ctx} (hic : cx.ic = o.ignoreCase) (hic' : cf.ignoreCase = o.ignoreCase) (hst : cx.strict = o.strictWs) (hhi : hi ≤ b.length)
    {tail : List Part} (hu : ∀ p ∈ tail, ¬ Uses p) (hok : ∀ p ∈ tail, PartOk p) (hcan : ∀ p ∈ tail, Canonical cx.strict p) (hnum : ∀ p ∈ tail, NoNumber p)
    {Q : Nat → Prop} (hend : (∀ p ∈ tail, ∃ s, p = .literal s) ∨ ((∀ p ∈ tail, ¬ Captures p) ∧ ∀ env', ¬ PartsMatch cx b env tail hi hi env') ∨
      ∀ q env', Q q → ¬ PartsMatch cx b env tail q hi env')
    {out : List CPart} {x z : List (MOp engine)} (hx : lowerParts engine o out = .ok (some x))
    (hz : lowerParts engine o (tail.foldl compactStep ⟨out, [], [], true⟩).flush = .ok (some z)) :
    ∃ y T safe, z = x ++ y ∧ TailOp cf b hi env y T Q safe ∧ (∀ q e env', e ≤ hi → PartsMatch cx b env tail q e env' → T q) ∧
      (tail = [] → y = []) ∧ ((∀ p ∈ tail, ¬ Captures p) → safe) := by
  by_cases htl : tail = []
  · subst htl
    have : (([] : List Part).foldl compactStep ⟨out, [], [], true⟩).flush = out := rfl
    rw [this, hx] at hz
    simp only [Except.ok.injEq, Option.some.injEq] at hz
    exact ⟨[], _, _, by simp [hz], tail_nil, fun _ _ _ _ _ => trivial, fun _ => rfl, fun _ => trivial⟩
  · have e1 := static_fold_eq (tail := tail) out ⟨[], [], [], true⟩ hu
    dsimp only at e1
    rw [e1] at hz
    have hout := static_fold tail ⟨[], [], [], true⟩ hu
    have hseg := compact_segs htl hok
    have ec : compact (.match_ tail) = (let st := tail.foldl compactStep ⟨[], [], [], true⟩
         if st.out.isEmpty then if st.litMode then .lit st.text else .rx ⟨st.text, st.caps⟩ else .parts st.flush) := by
      cases tail with
      | nil => exact absurd rfl htl
      | cons => rfl
    rw [ec] at hseg
    have hlm := literal_fold (tail := tail) ⟨[], [], [], true⟩
    generalize tail.foldl compactStep ⟨[], [], [], true⟩ = u at hz hout hseg hlm
    obtain ⟨uo, ut, uc, ul⟩ := u
    dsimp only at hz hout hseg hlm
    subst hout
    simp only [List.isEmpty_nil, if_true] at hseg
    unfold CSt.flush at hz
    dsimp only at hz
    by_cases ht : ut = []
    · subst ht
      simp only [List.isEmpty_nil, if_true] at hz
      rw [hx] at hz
      simp only [Except.ok.injEq, Option.some.injEq] at hz
      exact ⟨[], _, _, by simp [hz], tail_nil, fun _ _ _ _ _ => trivial, fun _ => rfl, fun _ => trivial⟩
    · rw [if_neg (by simpa using ht)] at hz
      cases ul with
      | true =>
        simp only [if_true] at hz hseg
        obtain ⟨t, h1, h2⟩ := hseg
        obtain ⟨y, h3, rfl⟩ := lowerParts_split hx hz
        have h4 : lowerParts engine o [.lit ut] = .ok (some [.literal (litBytes o ut)]) := by
          refine lowerParts_one ?_
          simp only [lowerPart, buildLiteral]
          rw [if_neg (by simpa using ht)]
        rw [h3] at h4
        simp only [Except.ok.injEq, Option.some.injEq] at h4
        subst h4
        have hlit : litBytes o ut = utf8 (spaced cx.strict t.flatten) := by rw [litBytes, canonical_spaced, h2, hst]
        refine ⟨_, _, _, rfl, tail_lit hhi ?_, ?_, fun h => absurd h htl, fun _ => trivial⟩
        · rw [hlit]
          refine utf8_ne ?_
          rw [← h2]
          unfold spaced
          split
          · exact ht
          · simpa using ht
        · intro q e env' he hm
          rw [h1] at hm hcan
          have := literals_complete t (fun x hx => hcan _ (List.mem_map_of_mem hx)) hm
          rw [← hlit, hic, ← hic'] at this
          obtain ⟨rfl, h5⟩ := this
          exact hitAt_iff.2 ⟨he, h5⟩
      | false =>
        simp only [Bool.false_eq_true, if_false] at hz hseg
        obtain ⟨l, h1, h2⟩ := hseg
        obtain ⟨y, h3, rfl⟩ := lowerParts_split hx hz
        have h4 : ∃ prog, engine.build o.ignoreCase ut = some prog ∧ y = .regex prog uc :: uc.reverse.map fun c => .bind c.name (some c.ty) := by
          simp only [lowerParts, lowerPart, buildRegex] at h3
          cases hb : engine.build o.ignoreCase ut with
          | none => rw [hb] at h3; simp [bind, Except.bind] at h3
          | some prog =>
            rw [hb] at h3
            simp only [bind, Except.bind, Except.ok.injEq, Option.some.injEq, List.append_nil] at h3
            exact ⟨prog, rfl, h3.symm⟩
        obtain ⟨prog, h5, rfl⟩ := h4
        obtain ⟨re, hp, rfl⟩ := build_some h5
        obtain ⟨hr1, hr2⟩ := parse_reads hp
        obtain rfl := reads_unique hr1 h2.reads
        rw [← hic']
        refine ⟨_, _, _, rfl, tail_rx (cx := cx) (by rw [hic, hic']) h1 hcan hr2 hhi (staticRun_strings h1 hnum) ?_, ?_, fun h => absurd h htl, staticRun_captures h1⟩
        · rcases hend with hend | ⟨h6, h7⟩ | hend
          · exact absurd (hlm hend) (by simp)
          · exact .inl ⟨staticRun_captures h1 h6, h7⟩
          · exact .inr hend
        · intro q e env' he hm
          exact ⟨e, env', he, hm⟩

end
end Litcheck.Pattern
