import Verif.Model.Sets
import Verif.Proofs.StaticComplete
import Verif.Proofs.BindsNothing

/-!
# Sets of patterns without uses of variables
-/

namespace Litcheck.Sets
open Litcheck.Smart Litcheck.Spec Litcheck.RegexSpec Litcheck.PatternSpec Litcheck.Pattern
open Litcheck.Regex hiding Items
open Litcheck.Lex (Part Match CPat VarName Expr Op)

/-- The part captures a number. -/
def CapturesNumber : Part → Prop
  | .match_ (.numeric _ (some _) _) => True
  | _ => False

/-- A pattern of a set: it uses no variable, and captures no number. -/
structure StaticPat (strict : Bool) (p : CPat) : Prop where
  parts : ∀ ps, p = .match_ ps → ∀ x ∈ ps, PartOk x
  unused : ∀ x ∈ partsOf p, ¬ Uses x
  noNumber : ∀ x ∈ partsOf p, ¬ CapturesNumber x
  canonical : ∀ x ∈ partsOf p, Canonical strict x

/-- How a pattern without uses of variables is compiled. -/
theorem static_view {p : CPat} (hp : ∀ ps, p = .match_ ps → ∀ x ∈ ps, PartOk x) (hu : ∀ x ∈ partsOf p, ¬ Uses x) (hne : partsOf p ≠ []) :
    (∃ t : List Str, partsOf p = t.map Part.literal ∧ compact p = .lit t.flatten) ∨
    (∃ r l, compact p = .rx r ∧ StaticRun (partsOf p) l r.caps ∧ Regex.Items r.src l) ∨
    (∃ s, p = .regex s ∧ compact p = .rx ⟨s, []⟩) := by
  cases p with
  | empty => exact absurd rfl hne
  | literal s => exact .inl ⟨[s], rfl, by simp [compact]⟩
  | regex s => exact .inr (.inr ⟨s, rfl, rfl⟩)
  | match_ ps =>
    have hseg := compact_segs (parts := ps) hne (hp _ rfl)
    cases hcp : compact (.match_ ps) with
    | empty => rw [hcp] at hseg; exact hseg.elim
    | lit s =>
      rw [hcp] at hseg
      obtain ⟨t, h3, rfl⟩ := hseg
      exact .inl ⟨t, h3, rfl⟩
    | rx r =>
      rw [hcp] at hseg
      obtain ⟨l, h3, h4⟩ := hseg
      exact .inr (.inl ⟨r, l, rfl, h3, h4⟩)
    | parts cps => exact absurd hcp (compact_static hu cps)

theorem part_complete' {cx : PatternSpec.Ctx} {b : Buf} {p : Part} {l : List Re} {caps : List Cap} (h : StaticPart p l caps)
    (hv : Canonical cx.strict p) (hn : ¬ CapturesNumber p) {env env' : Vars}
    {i j : Nat} (hm : PartMatches cx b env i j env' p) : ∃ c, Lang cx.ic b (seqRe l) i j c := by
  cases h with
  | literal s =>
    obtain ⟨_, s', h1, h2⟩ := hm
    rw [spaced_canonical hv h1] at h2
    exact ⟨[], (lang_chars s).2 ⟨h2, rfl⟩⟩
  | regex hi =>
    obtain ⟨_, r, h1, c, h2⟩ := hm
    obtain rfl := reads_unique (parse_reads h1).1 hi.reads
    exact ⟨c, h2⟩
  | capture hx hr =>
    obtain ⟨⟨r, h1, c, h2⟩, _⟩ := hm
    obtain rfl := reads_unique (parse_reads h1).1 hr
    exact ⟨_, c, h2, rfl⟩
  | numeric hp =>
    obtain ⟨_, t, h1, h2⟩ := hm
    exact ⟨[], (lang_format _ hp).2 ⟨rfl, t, h1, h2⟩⟩
  | number hx hp => exact absurd trivial hn

theorem static_complete' {cx : PatternSpec.Ctx} {b : Buf} {run : List Part} {l : List Re} {caps : List Cap} (h : StaticRun run l caps)
    (hv : ∀ p ∈ run, Canonical cx.strict p) (hn : ∀ p ∈ run, ¬ CapturesNumber p) :
    ∀ {env env' : Vars} {i j : Nat}, PartsMatch cx b env run i j env' → ∃ c, Lang cx.ic b (seqRe l) i j c := by
  induction h with
  | nil =>
    intro env env' i j hm
    cases hm
    exact ⟨[], rfl, rfl⟩
  | cons hp _ ih =>
    intro env env' i j hm
    cases hm with
    | cons h1 h2 =>
      obtain ⟨c1, h3⟩ := part_complete' hp (hv _ (by simp)) (hn _ (by simp)) h1
      obtain ⟨c2, h4⟩ := ih (fun p hp => hv p (by simp [hp])) (fun p hp => hn p (by simp [hp])) h2
      exact ⟨c1 ++ c2, (lang_seq_append _ _).2 ⟨_, c1, c2, h3, h4, rfl⟩⟩

theorem static_caps {run : List Part} {l : List Re} {caps : List Cap} (h : StaticRun run l caps)
    (hn : ∀ p ∈ run, ¬ CapturesNumber p) : ∀ c ∈ caps, c.ty = .string := by
  induction h with
  | nil => simp
  | cons hp _ ih =>
    intro c hc
    rcases List.mem_append.1 hc with hc | hc
    · have := hn _ List.mem_cons_self
      cases hp with
      | literal | regex | numeric => simp at hc
      | capture => simp only [List.mem_singleton] at hc; subst hc; rfl
      | number => exact absurd trivial this
    · exact ih (fun p hp => hn p (by simp [hp])) c hc

theorem flatten_canonical {strict : Bool} {t : List Str} (h : ∀ x ∈ t, Canonical strict (.literal x)) :
    Canonical strict (.literal t.flatten) := by
  rintro s ⟨⟩
  by_cases hs : strict = true
  · exact .inl hs
  · right
    intro c hc
    obtain ⟨x, hx, hcx⟩ := List.mem_flatten.1 hc
    exact ((h x hx x rfl).resolve_left hs) c hcx

theorem litBytes_canonical {o : Opts} {s : Str} (h : Canonical o.strictWs (.literal s)) : litBytes o s = utf8 s := by
  unfold litBytes
  rw [canonical_spaced, spaced_canonical h (spaced_spec _ _)]

/-- The compiled form of a pattern of a set, and what it covers. -/
inductive View (o : Opts) (p : CPat) : Prefix → Prop
  | lit {s} : compact p = .lit s → litBytes o s = utf8 s →
      (∀ cx : PatternSpec.Ctx, cx.ic = o.ignoreCase → cx.strict = o.strictWs → ∀ env b i j env', meaning cx p env b i j env' →
        Occurs o.ignoreCase (utf8 s) b i j) →
      (∀ cx : PatternSpec.Ctx, cx.ic = o.ignoreCase → cx.strict = o.strictWs → ∀ env b i j, Occurs o.ignoreCase (utf8 s) b i j →
        meaning cx p env b i j env) → View o p (.lit s)
  | rx {r} : compact p = .rx r → (∀ c ∈ r.caps, c.ty = .string) →
      (∀ cx : PatternSpec.Ctx, cx.ic = o.ignoreCase → cx.strict = o.strictWs → ∀ re, parse r.src = some re →
        ∀ env b i j env', meaning cx p env b i j env' → RegexSpec.Matches o.ignoreCase b re i j) →
      (∀ cx : PatternSpec.Ctx, cx.ic = o.ignoreCase → cx.strict = o.strictWs → ∀ re, parse r.src = some re →
        ∀ b i j c env env' (h : Hit), Lang cx.ic b re i j c → h.caps = c → ∀ cs, captured b h r.caps = some cs →
          bindAll env cs = some env' → meaning cx p env b i j env') → View o p (.rx r)

theorem StaticPat.view {o : Opts} {p : CPat} (h : StaticPat o.strictWs p) (hne : partsOf p ≠ []) :
    ∃ pre, View o p pre ∧ popPrefix (compact p) = (pre, []) := by
  rcases static_view h.parts h.unused hne with ⟨t, h1, h2⟩ | ⟨r, l, h1, h2, h3⟩ | ⟨s, rfl, h2⟩
  · have hcan : ∀ x ∈ t, Canonical o.strictWs (.literal x) := by
      intro x hx
      apply h.canonical
      rw [h1]
      exact List.mem_map_of_mem hx
    have hb := litBytes_canonical (flatten_canonical hcan)
    have hsp : spaced o.strictWs t.flatten = t.flatten := spaced_canonical (flatten_canonical hcan) (spaced_spec _ _)
    refine ⟨.lit t.flatten, .lit h2 hb ?_ ?_, by rw [h2]; rfl⟩
    · intro cx e1 e2 env b i j env' hm
      unfold meaning at hm
      rw [h1] at hm
      have := literals_complete t (by rw [e2]; exact hcan) hm
      rwa [e1, e2, hsp] at this
    · intro cx e1 e2 env b i j ho
      unfold meaning
      rw [h1]
      apply literals_sound
      rwa [e1, e2, hsp]
  · refine ⟨.rx r, .rx h1 (static_caps h2 h.noNumber) ?_ ?_, by rw [h1]; rfl⟩
    · intro cx e1 e2 re hp env b i j env' hm
      obtain rfl := reads_unique (parse_reads hp).1 h3.reads
      have := static_complete' h2 (by rw [e2]; exact h.canonical) h.noNumber hm
      rwa [e1] at this
    · intro cx e1 e2 re hp b i j c env env' hit hl hcap cs h4 h5
      obtain ⟨hr1, hr2⟩ := parse_reads hp
      obtain rfl := reads_unique hr1 h3.reads
      obtain ⟨sp, e3, g1, _, _, b1⟩ := static_sound h2 hr2 hl
      rw [← e3] at h4
      subst hcap
      exact b1 _ _ (captured_binds (fun x hx => g1 x hx) h4 h5)
  · refine ⟨.rx ⟨s, []⟩, .rx h2 (by simp) ?_ ?_, by rw [h2]; rfl⟩
    · intro cx e1 e2 re hp env b i j env' hm
      cases hm with
      | cons hm1 hm2 =>
        cases hm2
        obtain ⟨_, re', h3, h4⟩ := hm1
        rw [hp, Option.some.injEq] at h3
        subst h3
        rwa [e1] at h4
    · intro cx e1 e2 re hp b i j c env env' hit hl hcap cs h4 h5
      simp only [captured, Option.some.injEq] at h4
      subst h4
      simp only [bindAll, Option.some.injEq] at h5
      subst h5
      exact .cons ⟨rfl, re, hp, c, hl⟩ .nil

/-- Every suffix matches at once. -/
def Single (sfx : List (List Sfx)) : Prop := (sfx.all fun ss => ss.all fun s => isAlways s.1) = true

theorem pushAt_single : ∀ {sfx : List (List Sfx)} {i : Nat} {s : Sfx} {sfx' : List (List Sfx)}, Single sfx → isAlways s.1 = true →
    pushAt sfx i s = some sfx' → Single sfx'
  | [], _, _, _, _, _, h => by simp [pushAt] at h
  | xs :: xss, 0, s, sfx', h1, h2, h => by
    simp only [pushAt, Option.some.injEq] at h
    subst h
    unfold Single at h1 ⊢
    simp only [List.all_cons, Bool.and_eq_true, List.all_append, List.all_nil, Bool.and_true] at h1 ⊢
    exact ⟨⟨h1.1, h2⟩, h1.2⟩
  | xs :: xss, i + 1, s, sfx', h1, h2, h => by
    simp only [pushAt, Option.map_eq_some_iff] at h
    obtain ⟨y, h3, rfl⟩ := h
    unfold Single at h1 ⊢
    simp only [List.all_cons, Bool.and_eq_true] at h1 ⊢
    exact ⟨h1.1, pushAt_single (sfx := xss) h1.2 h2 h3⟩

/-- The prefixes collected from patterns of a set. -/
theorem collect_static {o : Opts} : ∀ (ls : List (CPat × Nat)) (id : Nat) (un : List (Prefix × Nat × Nat)) (sfx : List (List Sfx))
    {u : List (Prefix × Nat × Nat)} {sfx' : List (List Sfx)}, (∀ x ∈ ls, (popPrefix (compact x.1)).2 = []) → Single sfx →
    collect o ls id un sfx = .ok (some (u, sfx')) →
    Single sfx' ∧ (∀ x ∈ un, x ∈ u) ∧ (∀ x ∈ u, x ∈ un ∨ ∃ y ∈ ls, x.1 = (popPrefix (compact y.1)).1 ∧ x.2.2 = y.2) ∧
      ∀ y ∈ ls, ∃ x ∈ u, x.1 = (popPrefix (compact y.1)).1 ∨ x.1.same (popPrefix (compact y.1)).1 = true
  | [], id, un, sfx, u, sfx', _, hs, h => by
    simp only [collect, Except.ok.injEq, Option.some.injEq, Prod.mk.injEq] at h
    obtain ⟨rfl, rfl⟩ := h
    exact ⟨hs, fun x hx => hx, fun x hx => .inl hx, by simp⟩
  | (p, ln) :: ls, id, un, sfx, u, sfx', hr, hs, h => by
    unfold collect at h
    dsimp only at h
    have hr0 : (popPrefix (compact p)).2 = [] := hr (p, ln) (by simp)
    rw [hr0] at h
    split at h
    · rename_i x hx
      simp only [compileSuffix, bind, Except.bind] at h
      split at h
      · simp at h
      · rename_i sfx1 hp
        obtain ⟨a1, a2, a3, a4⟩ := collect_static ls _ _ _ (fun y hy => hr y (by simp [hy])) (pushAt_single hs rfl hp) h
        refine ⟨a1, a2, ?_, ?_⟩
        · intro y hy
          rcases a3 y hy with h1 | ⟨z, hz, h2⟩
          · exact .inl h1
          · exact .inr ⟨z, by simp [hz], h2⟩
        · intro y hy
          rcases List.mem_cons.1 hy with rfl | hy
          · have hm := List.mem_of_find?_eq_some hx
            have he := List.find?_some hx
            exact ⟨x, a2 x hm, .inr he⟩
          · exact a4 y hy
    · split at h
      · simp at h
      · simp only [compileSuffix, bind, Except.bind] at h
        have hs1 : Single (sfx ++ [[((Compiled.always : Compiled engine), ln)]]) := by
          unfold Single at hs ⊢
          rw [List.all_append, hs]
          rfl
        obtain ⟨a1, a2, a3, a4⟩ := collect_static ls _ _ _ (fun y hy => hr y (by simp [hy])) hs1 h
        refine ⟨a1, fun x hx => a2 x (by simp [hx]), ?_, ?_⟩
        · intro y hy
          rcases a3 y hy with h1 | ⟨z, hz, h2⟩
          · rcases List.mem_append.1 h1 with h1 | h1
            · exact .inl h1
            · simp only [List.mem_singleton] at h1
              subst h1
              exact .inr ⟨(p, ln), by simp, rfl, rfl⟩
          · exact .inr ⟨z, by simp [hz], h2⟩
        · intro y hy
          rcases List.mem_cons.1 hy with rfl | hy
          · exact ⟨_, a2 ((popPrefix (compact p)).1, id, ln) (by simp), .inl rfl⟩
          · exact a4 y hy

/-- The pattern never matches the empty string. -/
def NeverEmpty (o : Opts) (p : CPat) : Prop :=
  ∀ cx : PatternSpec.Ctx, cx.ic = o.ignoreCase → cx.strict = o.strictWs → ∀ env b i env', ¬ meaning cx p env b i i env'

theorem NeverEmpty.parts {o : Opts} {p : CPat} (h : NeverEmpty o p) : partsOf p ≠ [] := by
  intro he
  refine h ⟨weak, o.ignoreCase, o.strictWs, 0⟩ rfl rfl Bindings.empty [] 0 Bindings.empty ?_
  unfold meaning
  rw [he]
  exact .nil

/-- What is required of a group of patterns: they use no variables, capture no numbers, are not empty, and no literal of the group is
spelled as one of its regular expressions. -/
structure StaticGroup (o : Opts) (ps : List CPat) : Prop where
  static : ∀ p ∈ ps, StaticPat o.strictWs p
  solid : ∀ p ∈ ps, NeverEmpty o p
  distinct : ∀ p ∈ ps, ∀ q ∈ ps, ∀ s r, compact p = .lit s → compact q = .rx r → s ≠ r.src

theorem StaticGroup.view {o : Opts} {ps : List CPat} (h : StaticGroup o ps) {p : CPat} (hp : p ∈ ps) :
    ∃ pre, View o p pre ∧ popPrefix (compact p) = (pre, []) := (h.static p hp).view (h.solid p hp).parts

theorem View.pop {o : Opts} {p : CPat} {pre : Prefix} (h : View o p pre) : (popPrefix (compact p)) = (pre, []) := by
  cases h with
  | lit h => rw [h]; rfl
  | rx h => rw [h]; rfl

theorem mapM_forall₂ {α β : Type} {f : α → Option β} : ∀ {l : List α} {l' : List β}, l.mapM f = some l' →
    List.Forall₂ (fun a b => f a = some b) l l'
  | [], l', h => by
    simp only [List.mapM_nil, pure, Option.some.injEq] at h
    subst h
    exact .nil
  | a :: l, l', h => by
    rw [List.mapM_cons] at h
    simp only [bind, Option.bind_eq_some_iff, pure, Option.some.injEq] at h
    obtain ⟨b, h1, bs, h2, rfl⟩ := h
    exact .cons h1 (mapM_forall₂ h2)

/-- The prefixes of a group: each one is that of a line, and each line has one. -/
structure Prefixes (o : Opts) (ls : List (CPat × Nat)) (u : List (Prefix × Nat × Nat)) : Prop where
  from_line : ∀ x ∈ u, ∃ y ∈ ls, View o y.1 x.1 ∧ x.2.2 = y.2
  of_line : ∀ y ∈ ls, ∃ x ∈ u, ∃ pre, View o y.1 pre ∧ (x.1 = pre ∨ ∃ r r', x.1 = .rx r ∧ pre = .rx r' ∧ r.src = r'.src)

/-- The matcher made of a group. -/
theorem compileSet_static {o : Opts} {ls : List (CPat × Nat)} {set : MatchSet} (hg : StaticGroup o (ls.map Prod.fst))
    (h : compileSet o ls = .ok (some set)) :
    ∃ u, Prefixes o ls u ∧ (((∀ x ∈ u, ∃ s, x.1 = .lit s) ∧ set = .literal (setLits o u)) ∨
      ∃ rxs, List.Forall₂ (fun x r => buildSetRx x = some r) u rxs ∧ set = .regex rxs) := by
  have hv : ∀ y ∈ ls, ∃ pre, View o y.1 pre ∧ popPrefix (compact y.1) = (pre, []) := fun y hy => hg.view (List.mem_map_of_mem hy)
  unfold compileSet at h
  obtain ⟨c, h1, h2⟩ := bind_ok.1 h
  cases c with
  | none => simp at h2
  | some x =>
    obtain ⟨u, sfx⟩ := x
    dsimp only at h2
    obtain ⟨a1, _, a3, a4⟩ := collect_static ls 0 [] [] (fun y hy => by obtain ⟨_, _, e⟩ := hv y hy; rw [e]) rfl h1
    have hu : Prefixes o ls u := by
      refine ⟨?_, ?_⟩
      · intro x hx
        rcases a3 x hx with h | ⟨y, hy, h3, h4⟩
        · simp at h
        · obtain ⟨pre, h5, h6⟩ := hv y hy
          rw [h6] at h3
          exact ⟨y, hy, h3 ▸ h5, h4⟩
      · intro y hy
        obtain ⟨pre, h5, h6⟩ := hv y hy
        obtain ⟨x, hx, h7⟩ := a4 y hy
        rw [h6] at h7
        refine ⟨x, hx, pre, h5, ?_⟩
        rcases h7 with h7 | h7
        · exact .inl h7
        · rcases a3 x hx with h | ⟨z, hz, h3, _⟩
          · simp at h
          · obtain ⟨pre', h8, h9⟩ := hv z hz
            rw [h9] at h3
            rw [h3] at h7 ⊢
            have hy' : y.1 ∈ ls.map Prod.fst := List.mem_map_of_mem hy
            have hz' : z.1 ∈ ls.map Prod.fst := List.mem_map_of_mem hz
            cases h5 with
            | lit c1 =>
              cases h8 with
              | lit c2 =>
                left
                simp [Prefix.same, Prefix.text, Prefix.caps] at h7
                rw [h7]
              | rx c2 =>
                simp [Prefix.same, Prefix.text] at h7
                exact absurd h7.1.1.symm (hg.distinct _ hy' _ hz' _ _ c1 c2)
            | rx c1 =>
              cases h8 with
              | lit c2 =>
                simp [Prefix.same, Prefix.text] at h7
                exact absurd h7.1.1 (hg.distinct _ hz' _ hy' _ _ c2 c1)
              | rx c2 =>
                simp [Prefix.same, Prefix.text] at h7
                exact .inr ⟨_, _, rfl, rfl, h7.1.1⟩
    refine ⟨u, hu, ?_⟩
    have hsh : ∀ x ∈ u, (∃ s, x.1 = .lit s) ∨ ∃ r, x.1 = .rx r := by
      intro x hx
      obtain ⟨y, hy, h3, _⟩ := hu.from_line x hx
      generalize x.1 = pre at h3
      cases h3 with
      | lit => exact .inl ⟨_, rfl⟩
      | rx => exact .inr ⟨_, rfl⟩
    unfold classify at h2
    have a1' : (sfx.all fun ss => ss.all fun s => isAlways s.1) = true := a1
    dsimp only at h2
    rw [a1'] at h2
    simp only [if_true] at h2
    split at h2
    · rename_i hl
      left
      simp only [Except.ok.injEq, Option.some.injEq] at h2
      refine ⟨?_, h2.symm⟩
      intro x hx
      rcases hsh x hx with h | ⟨r, h⟩
      · exact h
      · have := List.all_eq_true.1 hl x hx
        rw [h] at this
        simp [Prefix.isLit] at this
    · right
      split at h2
      · simp at h2
      · split at h2
        · split at h2
          · simp at h2
          · rename_i rxs hm
            simp only [Except.ok.injEq, Option.some.injEq] at h2
            exact ⟨rxs, mapM_forall₂ hm, h2.symm⟩
        · rename_i hn
          exfalso
          apply hn
          rw [List.all_eq_true]
          intro x hx
          rcases hsh x hx with ⟨_, h⟩ | ⟨_, h⟩ <;> rw [h] <;> rfl

theorem mem_setHits {ic : Bool} {rxs : List SetRx} {b : Buf} {lo hi pid s e : Nat} :
    (pid, s, e) ∈ setHits ic rxs b lo hi ↔
      lo ≤ s ∧ s ≤ e ∧ e ≤ hi ∧ ∃ rx, rxs[pid]? = some rx ∧ hits ic rx.re b hi s e = true := by
  unfold setHits
  simp only [List.mem_flatMap, List.mem_map, List.mem_filter, List.mem_reverse, List.mem_range'_1, Prod.mk.injEq]
  constructor
  · rintro ⟨e', h1, ⟨rx, pid'⟩, h2, s', ⟨h3, h4⟩, rfl, rfl, rfl⟩
    rw [List.mem_zipIdx_iff_getElem?] at h2
    exact ⟨by omega, by omega, by omega, rx, h2, h4⟩
  · rintro ⟨h1, h2, h3, rx, h4, h5⟩
    exact ⟨e, by omega, (rx, pid), by rw [List.mem_zipIdx_iff_getElem?]; exact h4, s, ⟨by omega, h5⟩, rfl, rfl, rfl⟩

theorem hits_matches {ic : Bool} {re : Re} {b : Buf} {hi s e : Nat} (hs : s ≤ hi) (h : hits ic re b hi s e = true) :
    RegexSpec.Matches ic b re s e := by
  unfold hits at h
  simp only [Bool.and_eq_true, List.any_eq_true, beq_iff_eq] at h
  obtain ⟨⟨x, h1, rfl⟩, _⟩ := h
  exact ⟨_, (ends_sound re s hs x h1).1⟩

theorem matches_hits {ic : Bool} {re : Re} {b : Buf} {hi s e : Nat} (hse : s < e) (he : e ≤ hi) (h : RegexSpec.Matches ic b re s e) :
    hits ic re b hi s e = true := by
  obtain ⟨c, h⟩ := h
  obtain ⟨d, h1⟩ := ends_complete re s e c h he
  unfold hits
  simp only [Bool.and_eq_true, List.any_eq_true, beq_iff_eq]
  exact ⟨⟨_, h1, rfl⟩, by simp; omega⟩

theorem captured_caps {b : Buf} {h : Hit} : ∀ {caps : List Cap} {cs : List (Cap × Str)}, captured b h caps = some cs →
    ∀ c ∈ cs, c.1 ∈ caps
  | [], cs, hc => by
    simp only [captured, Option.some.injEq] at hc
    subst hc
    simp
  | x :: sp, cs, hc => by
    simp only [captured] at hc
    split at hc
    · intro c h1
      exact List.mem_cons_of_mem _ (captured_caps hc c h1)
    · split at hc
      · rename_i hrest
        simp only [Option.some.injEq] at hc
        subst hc
        intro c h1
        rcases List.mem_cons.1 h1 with rfl | h1
        · simp
        · exact List.mem_cons_of_mem _ (captured_caps hrest c h1)
      · simp at hc

theorem bindAll_strings : ∀ {cs : List (Cap × Str)} {env : Vars}, (∀ c ∈ cs, c.1.ty = .string) → ∃ env', bindAll env cs = some env'
  | [], env, _ => ⟨env, rfl⟩
  | (c, t) :: cs, env, h => by
    have hc : c.ty = .string := h (c, t) (by simp)
    unfold bindAll
    rw [hc]
    exact bindAll_strings (fun x hx => h x (by simp [hx]))

theorem buildSetRx_lit {s : Str} {n m : Nat} {r : SetRx} (h : buildSetRx (.lit s, n, m) = some r) :
    parse (escape s) = some r.re ∧ r.caps = [] ∧ r.line = m := by
  simp only [buildSetRx, Option.map_eq_some_iff] at h
  obtain ⟨re, h1, rfl⟩ := h
  exact ⟨h1, rfl, rfl⟩

theorem buildSetRx_rx {x : Pattern.Rx} {n m : Nat} {r : SetRx} (h : buildSetRx (.rx x, n, m) = some r) :
    parse x.src = some r.re ∧ r.caps = x.caps ∧ r.line = m := by
  simp only [buildSetRx, Option.map_eq_some_iff] at h
  obtain ⟨re, h1, rfl⟩ := h
  exact ⟨h1, rfl, rfl⟩

theorem escape_lang {s : Str} {re : Re} {ic : Bool} {b : Buf} {i j : Nat} (h : parse (escape s) = some re) {c : Caps} :
    Lang ic b re i j c ↔ Occurs ic (utf8 s) b i j ∧ c = [] := by
  obtain rfl := reads_unique (parse_reads h).1 (Regex.Items.escape s).reads
  exact lang_chars s

theorem forall₂_mem_left {α β : Type} {R : α → β → Prop} : ∀ {l : List α} {l' : List β}, List.Forall₂ R l l' → ∀ a ∈ l, ∃ b ∈ l', R a b
  | _, _, .nil, a, h => by simp at h
  | _, _, .cons h1 h2, a, h => by
    rcases List.mem_cons.1 h with rfl | h
    · exact ⟨_, by simp, h1⟩
    · obtain ⟨b, hb, hr⟩ := forall₂_mem_left h2 a h
      exact ⟨b, by simp [hb], hr⟩

theorem forall₂_mem_right {α β : Type} {R : α → β → Prop} : ∀ {l : List α} {l' : List β}, List.Forall₂ R l l' → ∀ b ∈ l', ∃ a ∈ l, R a b
  | _, _, .nil, a, h => by simp at h
  | _, _, .cons h1 h2, a, h => by
    rcases List.mem_cons.1 h with rfl | h
    · exact ⟨_, by simp, h1⟩
    · obtain ⟨b, hb, hr⟩ := forall₂_mem_right h2 a h
      exact ⟨b, by simp [hb], hr⟩

/-- The settings of the specification for the lines. -/
def CtxOf (o : Opts) (cx : Nat → PatternSpec.Ctx) : Prop := ∀ n, (cx n).ic = o.ignoreCase ∧ (cx n).strict = o.strictWs

/-- What one regular expression of a set is. -/
theorem setRx_line {o : Opts} {ls : List (CPat × Nat)} {u : List (Prefix × Nat × Nat)} {rxs : List SetRx} (hu : Prefixes o ls u)
    (hf : List.Forall₂ (fun x r => buildSetRx x = some r) u rxs) {cx : Nat → PatternSpec.Ctx} (hcx : CtxOf o cx) {rx : SetRx} (hrx : rx ∈ rxs) :
    (∀ c ∈ rx.caps, c.ty = .string) ∧ ∃ y ∈ ls, rx.line = y.2 ∧
      ∀ b i j c env env' (h : Hit), Lang o.ignoreCase b rx.re i j c → h.caps = c → ∀ cs, captured b h rx.caps = some cs →
        bindAll env cs = some env' → meaning (cx y.2) y.1 env b i j env' := by
  obtain ⟨x, hx, hb⟩ := forall₂_mem_right hf rx hrx
  obtain ⟨y, hy, hv, hl⟩ := hu.from_line x hx
  obtain ⟨pre, n, m⟩ := x
  dsimp only at hv hl
  cases hv with
  | lit h1 h2 h3 h4 =>
    obtain ⟨e1, e2, e3⟩ := buildSetRx_lit hb
    refine ⟨by rw [e2]; simp, y, hy, e3.trans hl, ?_⟩
    intro b i j c env env' h g1 g2 cs g3 g4
    rw [e2] at g3
    simp only [captured, Option.some.injEq] at g3
    subst g3
    simp only [bindAll, Option.some.injEq] at g4
    subst g4
    exact h4 _ (hcx _).1 (hcx _).2 _ _ _ _ ((escape_lang e1).1 g1).1
  | rx h1 h2 h3 h4 =>
    obtain ⟨e1, e2, e3⟩ := buildSetRx_rx hb
    refine ⟨by rw [e2]; exact h2, y, hy, e3.trans hl, ?_⟩
    intro b i j c env env' h g1 g2 cs g3 g4
    rw [e2] at g3
    refine h4 _ (hcx _).1 (hcx _).2 _ e1 b i j c env env' h ?_ g2 cs g3 g4
    rw [(hcx _).1]
    exact g1

/-- Every line of a set has a regular expression which finds what it matches. -/
theorem setRx_complete {o : Opts} {ls : List (CPat × Nat)} {u : List (Prefix × Nat × Nat)} {rxs : List SetRx} (hu : Prefixes o ls u)
    (hf : List.Forall₂ (fun x r => buildSetRx x = some r) u rxs) {cx : Nat → PatternSpec.Ctx} (hcx : CtxOf o cx) {y : CPat × Nat} (hy : y ∈ ls) :
    ∃ rx ∈ rxs, ∀ env b i j env', meaning (cx y.2) y.1 env b i j env' → RegexSpec.Matches o.ignoreCase b rx.re i j := by
  obtain ⟨x, hx, pre, hv, hs⟩ := hu.of_line y hy
  obtain ⟨rx, hrx, hb⟩ := forall₂_mem_left hf x hx
  refine ⟨rx, hrx, ?_⟩
  obtain ⟨pre', n, m⟩ := x
  intro env b i j env' hm
  cases hv with
  | lit h1 h2 h3 h4 =>
    rcases hs with hs | ⟨_, _, _, hs, _⟩
    · dsimp only at hs
      subst hs
      obtain ⟨e1, _⟩ := buildSetRx_lit hb
      exact ⟨[], (escape_lang e1).2 ⟨h3 _ (hcx _).1 (hcx _).2 _ _ _ _ _ hm, rfl⟩⟩
    · simp at hs
  | @rx r0 h1 h2 h3 h4 =>
    have : ∃ r', pre' = .rx r' ∧ r'.src = r0.src := by
      rcases hs with hs | ⟨r1, r2, hs, hs', hs''⟩
      · exact ⟨_, hs, rfl⟩
      · dsimp only at hs
        simp only [Prefix.rx.injEq] at hs'
        subst hs'
        exact ⟨r1, hs, hs''⟩
    obtain ⟨r', rfl, hsrc⟩ := this
    obtain ⟨e1, _⟩ := buildSetRx_rx hb
    rw [hsrc] at e1
    exact h3 _ (hcx _).1 (hcx _).2 _ e1 _ _ _ _ _ hm

/-- What a match of a set of regular expressions is. -/
theorem setMatch_spec {o : Opts} {ls : List (CPat × Nat)} {u : List (Prefix × Nat × Nat)} {rxs : List SetRx} (hu : Prefixes o ls u)
    (hf : List.Forall₂ (fun x r => buildSetRx x = some r) u rxs) {cx : Nat → PatternSpec.Ctx} (hcx : CtxOf o cx) {b : Buf} {lo hi : Nat}
    {rest : List (Nat × Nat × Nat)} {x : Nat × Nat × Nat} (hx : x ∈ setHits o.ignoreCase rxs b lo hi) :
    setMatch o.ignoreCase rxs b rest x = .err ∨ (∃ p, setMatch o.ignoreCase rxs b rest x = .panic p) ∨
    ∃ i vals, setMatch o.ignoreCase rxs b rest x = .found (.rxs rest) x.2.2 i vals ∧ i.pid = x.1 ∧ x.1 < rxs.length ∧
      lo ≤ i.start ∧ i.start ≤ i.stop ∧ i.stop ≤ x.2.2 ∧ x.2.2 ≤ hi ∧
      ∃ y ∈ ls, i.pspan = y.2 ∧ ∀ env, ∃ env', bindAll env vals = some env' ∧ meaning (cx y.2) y.1 env b i.start i.stop env' := by
  obtain ⟨pid, s, e⟩ := x
  obtain ⟨h1, h2, h3, rx, h4, h5⟩ := mem_setHits.1 hx
  have hrx : rx ∈ rxs := List.mem_of_getElem? h4
  have hlen : pid < rxs.length := (List.getElem?_eq_some_iff.1 h4).1
  obtain ⟨hty, y, hy, hl, hm⟩ := setRx_line hu hf hcx hrx
  unfold setMatch
  dsimp only
  rw [h4]
  dsimp only
  split
  · rename_i hall
    right; right
    refine ⟨_, _, rfl, rfl, hlen, h1, h2, Nat.le_refl _, h3, y, hy, hl, ?_⟩
    intro env
    have hcaps : rx.caps = [] := by simpa using List.all_eq_true.1 hall rx hrx
    obtain ⟨c, hc⟩ := hits_matches (by omega) h5
    refine ⟨env, rfl, hm b s e c env env ⟨s, e, c⟩ hc rfl [] (by rw [hcaps]; rfl) rfl⟩
  · cases hfi : find o.ignoreCase rx.re b s e true with
    | none => exact .inl rfl
    | some h =>
      dsimp only
      cases hcap : captured b h rx.caps with
      | none => exact .inr (.inl ⟨_, rfl⟩)
      | some cs =>
        dsimp only
        have hst : ∀ c ∈ cs, c.1.ty = .string := by
          intro c hc
          exact hty _ (captured_caps hcap c hc)
        obtain ⟨e0, he0⟩ := bindAll_strings (env := Bindings.empty) hst
        rw [he0]
        obtain ⟨a1, a2, a3, a4, a5, _⟩ := find_some hfi
        right; right
        refine ⟨_, _, rfl, rfl, hlen, by dsimp only; omega, a2, a3, h3, y, hy, hl, ?_⟩
        intro env
        obtain ⟨env', he'⟩ := bindAll_strings (env := env) hst
        exact ⟨env', he', hm b _ _ _ env env' h a5 rfl cs hcap he'⟩

/-- A group of `CHECK-NOT` patterns without variables: if no match is reported, none of them matches. -/
theorem nots_complete {o : Opts} {ls : List (CPat × Nat)} {set : MatchSet} (hg : StaticGroup o (ls.map Prod.fst))
    (h : compileSet o ls = .ok (some set)) {cx : Nat → PatternSpec.Ctx} (hcx : CtxOf o cx) (cfs : Nat → Conf engine) :
    (anyPat o.ignoreCase cfs set).Complete (ls.map fun y => meaning (cx y.2) y.1) := by
  obtain ⟨u, hu, ⟨hl, rfl⟩ | ⟨rxs, hf, rfl⟩⟩ := compileSet_static hg h
  · intro b r env m env' hrun hok
    have hrun' : (litAny o.ignoreCase (setLits o u)).run b r env = (some m, env') := by
      simp only [anyPat, anyOut] at hrun
      cases hx : (litAny o.ignoreCase (setLits o u)).run b r env with
      | mk a1 a2 =>
        rw [hx] at hrun
        cases a1 <;> simpa using hrun
    obtain ⟨h1, h2⟩ := litAny_complete _ _ b r env m env' hrun' hok
    refine ⟨h1, ?_⟩
    intro μ hμ
    obtain ⟨y, hy, rfl⟩ := List.mem_map.1 hμ
    intro s e g1 g2 g3 env1 env2 hm
    obtain ⟨x, hx, pre, hv, hs⟩ := hu.of_line y hy
    obtain ⟨s', hs'⟩ := hl x hx
    have hpre : pre = .lit s' := by
      rcases hs with hs | ⟨_, _, hs, _⟩
      · rw [← hs, hs']
      · rw [hs'] at hs; simp at hs
    subst hpre
    cases hv with
    | lit c1 c2 c3 c4 =>
      have hmem : (litBytes o s', x.2.2) ∈ setLits o u := by
        refine List.mem_map.2 ⟨x, hx, ?_⟩
        simp [hs', Prefix.text]
      refine h2 (litMeaning o.ignoreCase (litBytes o s')) (List.mem_map.2 ⟨_, hmem, rfl⟩) s e g1 g2 g3 env env ⟨rfl, ?_⟩
      rw [c2]
      exact c3 _ (hcx _).1 (hcx _).2 _ _ _ _ _ hm
  · intro b r env m env' hrun hok
    simp only [anyPat, anyOut, startSearch] at hrun
    cases hh : setHits o.ignoreCase rxs b r.start r.stop with
    | nil =>
      rw [hh] at hrun
      simp only [nextMatch, Prod.mk.injEq, Option.some.injEq] at hrun
      refine ⟨hrun.2.symm, ?_⟩
      intro μ hμ
      obtain ⟨y, hy, rfl⟩ := List.mem_map.1 hμ
      intro s e g1 g2 g3 env1 env2 hm
      obtain ⟨rx, hrx, hall⟩ := setRx_complete hu hf hcx hy
      have hlt : s < e := by
        rcases Nat.lt_or_ge s e with h | h
        · exact h
        · obtain rfl : s = e := by omega
          exact absurd hm (hg.solid _ (List.mem_map_of_mem hy) _ (hcx _).1 (hcx _).2 _ _ _ _)
      obtain ⟨pid, hpid⟩ := List.mem_iff_getElem?.1 hrx
      have : (pid, s, e) ∈ setHits o.ignoreCase rxs b r.start r.stop :=
        mem_setHits.2 ⟨g1, g2, g3, rx, hpid, matches_hits hlt g3 (hall _ _ _ _ _ hm)⟩
      rw [hh] at this
      simp at this
    | cons x rest =>
      rw [hh] at hrun
      simp only [nextMatch] at hrun
      rcases setMatch_spec hu hf hcx (rest := rest) (x := x) (by rw [hh]; simp) with h1 | ⟨p, h1⟩ | ⟨i, vals, h1, _⟩
      · rw [h1] at hrun; simp at hrun
      · rw [h1] at hrun; simp at hrun
      · rw [h1] at hrun
        simp only [Prod.mk.injEq, Option.some.injEq] at hrun
        rw [← hrun.1] at hok
        simp [MatchResult.ok, MatchResult.isOk, MatchType.isOk] at hok

/-- If a match is reported, it is one of a pattern of the group. -/
theorem nots_sound {o : Opts} {ls : List (CPat × Nat)} {set : MatchSet} (hg : StaticGroup o (ls.map Prod.fst))
    (h : compileSet o ls = .ok (some set)) {cx : Nat → PatternSpec.Ctx} (hcx : CtxOf o cx) (cfs : Nat → Conf engine)
    {b : Buf} {r : Rng} {env env' : Vars} {m : MatchResult} (hr : r.start ≤ r.stop)
    (hrun : (anyPat o.ignoreCase cfs set).run b r env = (some m, env')) (hok : m.isOk = true) :
    ∃ i, m.info = some i ∧ r.start ≤ i.start ∧ i.start ≤ i.stop ∧ i.stop ≤ r.stop ∧
      ∃ y ∈ ls, i.pspan = y.2 ∧ meaning (cx y.2) y.1 env b i.start i.stop env' := by
  obtain ⟨u, hu, ⟨hl, rfl⟩ | ⟨rxs, hf, rfl⟩⟩ := compileSet_static hg h
  · simp only [anyPat, anyOut, litAny] at hrun
    split at hrun
    · rename_i m1 e1 heq
      simp only [Prod.mk.injEq, Option.some.injEq] at hrun
      obtain ⟨rfl, rfl⟩ := hrun
      split at heq
      · rename_i m2 e2 heq2
        simp only [Outcome.result.injEq] at heq
        obtain ⟨rfl, rfl⟩ := heq
        split at heq2
        · rename_i pid s e hfs
          simp only [Prod.mk.injEq, Option.some.injEq] at heq2
          obtain ⟨rfl, rfl⟩ := heq2
          obtain ⟨a1, a2, ⟨lit, a3, a4, a5⟩, _⟩ := findSet_some hfs
          simp only [List.getElem?_map, Option.map_eq_some_iff] at a3
          obtain ⟨⟨lit', n⟩, a6, rfl⟩ := a3
          have hmem := List.mem_of_getElem? a6
          obtain ⟨x, hx, hxe⟩ := List.mem_map.1 hmem
          obtain ⟨y, hy, hv, hln⟩ := hu.from_line x hx
          obtain ⟨s', hs'⟩ := hl x hx
          rw [hs'] at hv
          simp only [Prod.mk.injEq] at hxe
          cases hv with
          | lit c1 c2 c3 c4 =>
            rw [hs'] at hxe
            simp only [Prefix.text, Option.getD_some] at hxe
            have ho := (hitAt_iff ..).1 a5
            refine ⟨_, rfl, a1, ?_, ?_, y, hy, ?_, ?_⟩
            · dsimp only; omega
            · dsimp only; have := ho.1; omega
            · dsimp only; rw [a6]; dsimp; rw [← hxe.2]; exact hln
            · apply c4 _ (hcx _).1 (hcx _).2
              rw [← c2, hxe.1]
              dsimp only at a4 ⊢
              exact ⟨a4, ho.2⟩
        · simp only [Prod.mk.injEq, Option.some.injEq] at heq2
          rw [← heq2.1] at hok
          simp [matchNone, MatchResult.isOk, MatchType.isOk, MatchResult.failed] at hok
      · simp at heq
    all_goals simp at hrun
  · simp only [anyPat, anyOut, startSearch] at hrun
    cases hh : setHits o.ignoreCase rxs b r.start r.stop with
    | nil =>
      rw [hh] at hrun
      simp only [nextMatch, Prod.mk.injEq, Option.some.injEq] at hrun
      rw [← hrun.1] at hok
      simp [matchNone, MatchResult.isOk, MatchType.isOk, MatchResult.failed] at hok
    | cons x rest =>
      rw [hh] at hrun
      simp only [nextMatch] at hrun
      rcases setMatch_spec hu hf hcx (rest := rest) (x := x) (by rw [hh]; simp) with h1 | ⟨p, h1⟩ | ⟨i, vals, h1, h2, h3, h4, h5, h6, h7, y, hy, h8, h9⟩
      · rw [h1] at hrun; simp at hrun
      · rw [h1] at hrun; simp at hrun
      · rw [h1] at hrun
        simp only [Prod.mk.injEq, Option.some.injEq] at hrun
        obtain ⟨rfl, rfl⟩ := hrun
        obtain ⟨env2, g1, g2⟩ := h9 env
        rw [g1]
        exact ⟨i, rfl, h4, h5, by omega, y, hy, h8, g2⟩

/-! ## `CHECK-DAG` of literals -/

theorem DagMatch.mono {E : Type} {b : Buf} {hi pos s e : Nat} {ms ns : List (Meaning E)}
    (h : List.Forall₂ (fun m n => ∀ env i j env', m env b i j env' → ∃ env1 env2, n env1 b i j env2) ms ns) (hd : DagMatch ms b hi pos s e) :
    DagMatch ns b hi pos s e := by
  obtain ⟨spans, h1, h2⟩ := hd
  refine ⟨spans, ?_, h2⟩
  clear h2
  induction h generalizing spans with
  | nil => cases h1; exact .nil
  | cons h0 _ ih =>
    cases h1 with
    | cons h3 h4 =>
      obtain ⟨a1, a2, a3, env, env', a4⟩ := h3
      exact .cons ⟨a1, a2, a3, h0 _ _ _ _ a4⟩ (ih _ h4)

/-- A group of distinct literals. -/
def LitGroup (ps : List CPat) : Prop := ∃ ss : List Str, ps = ss.map CPat.literal ∧ ss.Nodup ∧ ∀ s ∈ ss, s ≠ []

theorem collect_lits {o : Opts} : ∀ (ls : List (Str × Nat)) (id : Nat) (un : List (Str × Nat × Nat)) (sfx : List (List Sfx))
    {u : List (Prefix × Nat × Nat)} {sfx' : List (List Sfx)}, (un.map Prod.fst ++ ls.map Prod.fst).Nodup → Single sfx →
    collect o (ls.map fun x => (.literal x.1, x.2)) id (un.map fun x => (.lit x.1, x.2)) sfx = .ok (some (u, sfx')) →
    Single sfx' ∧ ∃ un' : List (Str × Nat × Nat), u = un'.map (fun x => (.lit x.1, x.2)) ∧
      un'.map (fun x => (x.1, x.2.2)) = un.map (fun x => (x.1, x.2.2)) ++ ls
  | [], id, un, sfx, u, sfx', _, hs, h => by
    simp only [List.map_nil, collect, Except.ok.injEq, Option.some.injEq, Prod.mk.injEq] at h
    obtain ⟨rfl, rfl⟩ := h
    exact ⟨hs, un, rfl, by simp⟩
  | (p, ln) :: ls, id, un, sfx, u, sfx', hn, hs, h => by
    rw [List.map_cons] at h
    unfold collect at h
    have hp : popPrefix (compact (.literal p)) = (.lit p, []) := rfl
    dsimp only at h
    rw [hp] at h
    dsimp only at h
    have hnot : (un.map fun x => ((Prefix.lit x.1, x.2) : Prefix × Nat × Nat)).find? (fun x => x.1.same (.lit p)) = none := by
      rw [List.find?_eq_none]
      intro x hx hxe
      obtain ⟨y, hy, rfl⟩ := List.mem_map.1 hx
      simp [Prefix.same, Prefix.text, Prefix.caps] at hxe
      rw [List.nodup_append] at hn
      exact hn.2.2 y.1 (List.mem_map.2 ⟨y, hy, rfl⟩) p (by simp) hxe
    rw [hnot] at h
    dsimp only at h
    rw [if_neg (by simp)] at h
    simp only [compileSuffix, bind, Except.bind] at h
    have hs1 : Single (sfx ++ [[((Compiled.always : Compiled engine), ln)]]) := by
      unfold Single at hs ⊢
      rw [List.all_append, hs]
      rfl
    have e1 : (un.map fun x => ((Prefix.lit x.1, x.2) : Prefix × Nat × Nat)) ++ [(.lit p, id, ln)] =
        (un ++ [(p, id, ln)]).map fun x => (Prefix.lit x.1, x.2) := by simp
    rw [e1] at h
    obtain ⟨a1, un', a2, a3⟩ := collect_lits ls _ _ _ (by simpa using hn) hs1 h
    exact ⟨a1, un', a2, by simpa using a3⟩

theorem LitGroup.unmentioned {ps : List CPat} (hg : LitGroup ps) : ∀ p ∈ ps, ∀ x ∈ partsOf p, ¬ Lex.MentionsVar x := by
  obtain ⟨ss, h1, _⟩ := hg
  intro p hp x hx
  rw [h1] at hp
  obtain ⟨s, _, rfl⟩ := List.mem_map.1 hp
  simp only [partsOf, List.mem_singleton] at hx
  subst hx
  exact fun h => h

/-- A group of `CHECK-DAG` lines which are distinct literals. -/
theorem dags_sound {o : Opts} {ls : List (CPat × Nat)} {set : MatchSet} (hg : LitGroup (ls.map Prod.fst)) (hne : ls ≠ [])
    (h : compileSet o ls = .ok (some set)) {cx : Nat → PatternSpec.Ctx} (hcx : CtxOf o cx) (ic : Bool) (cfs : Nat → Conf engine) (vs : Bool)
    (hic : ic = o.ignoreCase) :
    (setDag ic cfs vs set).Sound (ls.map fun y => meaning (cx y.2) y.1) := by
  have hg' := hg
  obtain ⟨ss, h1, h2, h3⟩ := hg
  obtain ⟨lt, rfl, rfl⟩ : ∃ lt : List (Str × Nat), ls = lt.map (fun x => (CPat.literal x.1, x.2)) ∧ ss = lt.map Prod.fst := by
    refine ⟨ss.zip (ls.map Prod.snd), ?_, ?_⟩
    · have hl : ss.length = ls.length := by simpa using (congrArg List.length h1).symm
      apply List.ext_getElem
      · simp [hl]
      · intro n g1 g2
        have := congrArg (fun l => l[n]?) h1
        have hns : n < ss.length := by omega
        simp [List.getElem?_eq_getElem g1, List.getElem?_eq_getElem hns] at this
        simp
        rw [← this]
    · rw [List.map_fst_zip]
      simp [congrArg List.length h1 |>.symm, show ss.length = ls.length by simpa using (congrArg List.length h1).symm]
  unfold compileSet at h
  obtain ⟨c, g1, g2⟩ := bind_ok.1 h
  cases c with
  | none => simp at g2
  | some x =>
    obtain ⟨u, sfx⟩ := x
    dsimp only at g2
    obtain ⟨a1, un, rfl, a3⟩ := collect_lits lt 0 [] [] (by simpa using h2) rfl g1
    have a1' : (sfx.all fun ss => ss.all fun s => isAlways s.1) = true := a1
    unfold classify at g2
    dsimp only at g2
    rw [a1', if_pos (by simp [Prefix.isLit])] at g2
    simp only [if_true, Except.ok.injEq, Option.some.injEq] at g2
    subst g2
    have hlits : setLits o (un.map fun x => (Prefix.lit x.1, x.2)) = lt.map fun x => (litBytes o x.1, x.2) := by
      rw [List.map_nil, List.nil_append] at a3
      rw [← a3]
      simp [setLits, Prefix.text, Function.comp_def]
    rw [hlits]
    have hs := litDag_sound (E := Vars) ic (lits := lt.map fun x => (litBytes o x.1, x.2)) ?_ ?_
    · intro b r env ms pos env' hrun hok
      simp only [setDag, dagOut] at hrun
      cases hx : (litDag (lt.map fun x => (litBytes o x.1, x.2))).run b r env with
      | none => rw [hx] at hrun; simp at hrun
      | some x =>
        obtain ⟨y1, y2, y3⟩ := x
        rw [hx] at hrun
        simp only [Option.some.injEq, Prod.mk.injEq] at hrun
        obtain ⟨rfl, rfl, rfl⟩ := hrun
        obtain ⟨s, e, c1, c2, c3, c4, c5, c6⟩ := hs b r env _ _ _ hx hok
        rw [litDag_env hx]
        refine ⟨s, e, c1, c2, c3, c4, c5, (DagMatch.mono ?_ c6.match_).threaded (fun m hm env0 i j env1 hm1 env2 => ?_) env⟩
        swap
        · obtain ⟨y, hy, rfl⟩ := List.mem_map.1 hm
          exact parts_any (hg'.unmentioned y.1 (List.mem_map_of_mem hy)) hm1 env2
        rw [List.map_map, List.map_map, List.forall₂_map_left_iff, List.forall₂_map_right_iff, List.forall₂_same]
        intro x hx env i j env' hm
        obtain ⟨_, ho⟩ := hm
        refine ⟨env, env, ?_⟩
        have := literals_sound (cx := cx x.2) (b := b) (env := env) [x.1] (i := i) (j := j)
        simp only [List.flatten_cons, List.flatten_nil, List.append_nil, List.map_cons, List.map_nil] at this
        apply this
        rw [(hcx _).1, (hcx _).2, ← canonical_spaced, ← hic]
        exact ho
    · intro x hx
      obtain ⟨y, hy, rfl⟩ := List.mem_map.1 hx
      have hy0 := h3 y.1 (List.mem_map_of_mem hy)
      dsimp only
      unfold litBytes
      intro h0
      have hsp : canonicalizeHorizontalWhitespace y.1 o.strictWs = [] := utf8_injective (t := []) (by rw [h0]; rfl)
      rw [canonical_spaced] at hsp
      unfold spaced at hsp
      split at hsp
      · exact hy0 hsp
      · exact hy0 (List.map_eq_nil_iff.1 hsp)
    · intro h0
      apply hne
      rw [List.map_eq_nil_iff] at h0
      rw [h0]; rfl

end Litcheck.Sets
