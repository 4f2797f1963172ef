import Verif.Proofs.SmartRun

/-!
# What the compiled operations of a pattern match
-/

namespace Litcheck.Pattern
open Litcheck.Smart Litcheck.Spec Litcheck.RegexSpec Litcheck.PatternSpec
open Litcheck.Regex hiding Items
open Litcheck.Lex (Part Match CPat VarName Expr Op)

/-! ## Literals -/

/-- Whitespace of a literal. -/
def spaced (strict : Bool) (s : Str) : Str :=
  if strict then s else s.map fun c => if isNonCanonicalHorizontalWhitespace c then ' ' else c

theorem canonical_spaced (s : Str) (strict : Bool) : canonicalizeHorizontalWhitespace s strict = spaced strict s := by
  unfold canonicalizeHorizontalWhitespace spaced
  cases strict with
  | true => rfl
  | false =>
    simp only [Bool.false_eq_true, if_false]
    by_cases h : s.any isNonCanonicalHorizontalWhitespace = true
    · rw [if_pos h]
    · rw [if_neg h]
      symm
      rw [List.map_congr_left (g := id), List.map_id]
      intro c hc
      have : isNonCanonicalHorizontalWhitespace c = false := by
        cases he : isNonCanonicalHorizontalWhitespace c with
        | false => rfl
        | true => exact absurd (List.any_eq_true.2 ⟨c, hc, he⟩) h
      simp [this]

theorem spaced_append (strict : Bool) (s t : Str) : spaced strict (s ++ t) = spaced strict s ++ spaced strict t := by
  cases strict <;> simp [spaced]

theorem spaced_spec (strict : Bool) (s : Str) : Spaced strict s (spaced strict s) := by
  cases strict
  · exact .inr ⟨rfl, rfl⟩
  · exact .inl rfl

theorem literals_sound {cx : PatternSpec.Ctx} {b : Buf} {env : Vars} : ∀ (s : List Str) {i j : Nat},
    Occurs cx.ic (utf8 (spaced cx.strict s.flatten)) b i j → PartsMatch cx b env (s.map Part.literal) i j env
  | [], i, j, h => by
    have e : utf8 (spaced cx.strict ([] : List Str).flatten) = [] := by cases cx.strict <;> rfl
    rw [e, occurs_nil] at h
    subst h
    exact .nil
  | t :: s, i, j, h => by
    rw [List.flatten_cons, spaced_append, utf8_append, occurs_append] at h
    obtain ⟨k, h1, h2⟩ := h
    exact .cons ⟨rfl, _, spaced_spec _ _, h1⟩ (literals_sound s h2)

/-! ## Bindings -/

theorem foldl_insert_last : ∀ (l : List (VName × Val)) (env : Vars) (a : VName × Val), (∀ p ∈ l, p.1 ≠ a.1) →
    (l.foldl (fun e p => e.insert p.1 p.2) env).insert a.1 a.2 = l.foldl (fun e p => e.insert p.1 p.2) (env.insert a.1 a.2)
  | [], _, _, _ => rfl
  | p :: l, env, a, h => by
    simp only [List.foldl_cons]
    rw [foldl_insert_last l _ a (fun q hq => h q (by simp [hq])), insert_comm (h p (by simp))]

/-- The order of bindings does not matter. -/
theorem foldl_insert_reverse : ∀ (l : List (VName × Val)) (env : Vars), (l.map Prod.fst).Nodup →
    l.reverse.foldl (fun e p => e.insert p.1 p.2) env = l.foldl (fun e p => e.insert p.1 p.2) env
  | [], _, _ => rfl
  | a :: l, env, h => by
    rw [List.map_cons, List.nodup_cons] at h
    rw [List.reverse_cons, List.foldl_append, foldl_insert_reverse l env h.2]
    simp only [List.foldl_cons, List.foldl_nil]
    exact foldl_insert_last l env a (fun p hp he => h.1 (he ▸ List.mem_map_of_mem hp))

theorem binds_values {b : Buf} : ∀ (sp : List (Cap × Nat × Nat)) (vs : List Val) (env : Vars),
    List.Forall₂ (fun x v => CapVal b x.1 x.2.1 x.2.2 v) sp vs →
    Binds b env sp ((sp.zip vs).foldl (fun e p => e.insert (keyOf p.1.1.name) p.2) env)
  | [], _, env, h => by cases h; exact .nil
  | x :: sp, vs, env, h => by
    obtain ⟨v, vs', h1, h2, rfl⟩ := List.forall₂_cons_left_iff.1 h
    exact .cons h1 (binds_values sp vs' _ h2)

theorem foldl_keys (l : List ((Cap × Nat × Nat) × Val)) (env : Vars) :
    l.foldl (fun e p => e.insert (keyOf p.1.1.name) p.2) env =
      (l.map fun p => (keyOf p.1.1.name, p.2)).foldl (fun e p => e.insert p.1 p.2) env := by
  rw [List.foldl_map]

/-- The same when the captures are bound in reverse. -/
theorem binds_reverse {b : Buf} {sp : List (Cap × Nat × Nat)} {vs : List Val} {env : Vars}
    (hn : (sp.map fun x => symOf x.1.name).Nodup) (h : List.Forall₂ (fun x v => CapVal b x.1 x.2.1 x.2.2 v) sp.reverse vs) :
    Binds b env sp ((sp.reverse.zip vs).foldl (fun e p => e.insert (keyOf p.1.1.name) p.2) env) := by
  have h' : List.Forall₂ (fun x v => CapVal b x.1 x.2.1 x.2.2 v) sp vs.reverse := by
    have := List.rel_reverse h
    rwa [List.reverse_reverse] at this
  have hlen : sp.length = vs.reverse.length := h'.length_eq
  have hlen' : sp.length = vs.length := by simpa using hlen
  have e1 : sp.reverse.zip vs = (sp.zip vs.reverse).reverse := by
    unfold List.zip
    rw [List.reverse_zipWith hlen, List.reverse_reverse]
  rw [e1, foldl_keys, List.map_reverse, foldl_insert_reverse, ← foldl_keys]
  · exact binds_values sp _ env h'
  · have e2 : ((sp.zip vs.reverse).map fun p => (keyOf p.1.1.name, p.2)).map Prod.fst = sp.map fun x => keyOf x.1.name := by
      rw [List.map_map]
      have : (Prod.fst ∘ fun p : (Cap × Nat × Nat) × Val => (keyOf p.1.1.name, p.2)) = (fun x : Cap × Nat × Nat => keyOf x.1.name) ∘ Prod.fst := rfl
      rw [this, ← List.map_map, List.map_fst_zip (by omega)]
    rw [e2]
    rw [List.nodup_iff_pairwise_ne, List.pairwise_map] at hn ⊢
    exact hn.imp fun h => keyOf_ne h

/-! ## Segments -/

/-- The parts of one segment. -/
inductive SegRun : List Part → CPart → Prop
  | lit {s : List Str} : s.flatten ≠ [] → SegRun (s.map Part.literal) (.lit s.flatten)
  | rx {run l src caps} : StaticRun run l caps → Regex.Items src l → run ≠ [] → SegRun run (.rx ⟨src, caps⟩)
  | dyn {m} : IsDyn m → PartOk (.match_ m) → SegRun [.match_ m] (.dyn m)

/-- Parts which match the empty text wherever they are. -/
def Silent (run : List Part) : Prop := ∀ cx b env i, PartsMatch cx b env run i i env

/-- Segments, from the front. -/
inductive SegList : List Part → List CPart → Prop
  | nil {run} : Silent run → SegList run []
  | cons {run₀ run cp ps cps} : Silent run₀ → SegRun run cp → SegList ps cps → SegList (run₀ ++ (run ++ ps)) (cp :: cps)

theorem Silent.append {x y : List Part} (hx : Silent x) (hy : Silent y) : Silent (x ++ y) :=
  fun cx b env i => PartsMatch.append (hx cx b env i) (hy cx b env i)

theorem SegList.silent {ps cps run} (h : SegList ps cps) (hs : Silent run) : SegList (ps ++ run) cps := by
  induction h with
  | nil h => exact .nil (h.append hs)
  | cons h1 h2 _ ih => rw [List.append_assoc, List.append_assoc]; exact .cons h1 h2 ih

theorem SegList.snoc {ps cps run cp} (h : SegList ps cps) (hs : SegRun run cp) : SegList (ps ++ run) (cps ++ [cp]) := by
  induction h with
  | nil h =>
    have := SegList.cons h hs (.nil (run := []) (fun cx b env i => .nil))
    simpa using this
  | cons h1 h2 _ ih => rw [List.append_assoc, List.append_assoc]; exact .cons h1 h2 ih

theorem static_silent {run : List Part} {caps : List Cap} (h : StaticRun run [] caps) : Silent run := by
  intro cx b env i
  obtain ⟨sp, _, h2, _, _, h3⟩ := static_sound (cx := cx) (b := b) h (by simp [seqRe, Re.names]) (i := i) (j := i) (c := []) ⟨rfl, rfl⟩
  cases sp with
  | nil => exact h3 env env .nil
  | cons x sp => have := h2 x (by simp); simp [groupOf] at this

theorem Segs.list {ps cps} (h : Segs ps cps) : SegList ps cps := by
  induction h with
  | nil => exact .nil (fun cx b env i => .nil)
  | drop _ h ih => exact ih.silent (static_silent h)
  | lit _ h ih => exact ih.snoc (.lit h)
  | rx _ h1 h2 h3 ih => exact ih.snoc (.rx h1 h2 h3)
  | dyn _ h1 h2 ih => exact ih.snoc (.dyn h1 h2)

/-- An operation which matches some bytes. -/
def IsMatch {eng : Engine} : MOp eng → Prop
  | .bind _ _ | .drop | .constraint _ => False
  | _ => True

theorem Runs.inv {eng : Engine} {cf : Conf eng} {b : Buf} {hi : Nat} {op : MOp eng} {ops env st st2 env2} (hm : IsMatch op)
    (h : Runs cf b hi (op :: ops) env st st2 env2) :
    ∃ st1 s e, matchPart cf b hi env st op = .yes (st1, s, e) ∧
      Runs cf b hi ops env { st1 with mend := e, pos := min e b.length } st2 env2 := by
  cases h with
  | constraint => cases hm
  | bind => cases hm
  | drop => cases hm
  | part h1 h2 => exact ⟨_, _, _, h1, h2⟩

/-- How the settings of the matcher and of the specification fit. -/
structure Fit (cx : PatternSpec.Ctx) (o : Opts) (cf : Conf engine) : Prop where
  rd : cx.rd = weak
  ic : cx.ic = o.ignoreCase
  ic' : cf.ignoreCase = o.ignoreCase
  strict : cx.strict = o.strictWs
  line : cx.line = cf.line

theorem build_some {ic : Bool} {s : Str} {prog : engine.Prog} (h : engine.build ic s = some prog) :
    ∃ r, parse s = some r ∧ prog = (ic, r) := by
  obtain ⟨r, h1, h2⟩ := Option.map_eq_some_iff.1 (show (parse s).map (ic, ·) = some prog from h)
  exact ⟨r, h1, h2.symm⟩

theorem plain_items : ∀ t : Str, plainText t = true → Regex.Items t (t.map Re.char).reverse
  | [], _ => Items.nil
  | c :: cs, h => by
    simp only [plainText, List.all_cons, Bool.and_eq_true, Bool.not_eq_true'] at h
    have h1 : Regex.Items [c] [Re.char c] := by
      by_cases hc : "\\.+*?()|[]{}^$#&-~".toList.contains c = true
      · have h4 : c ∈ ['#', '&', '-', '~'] := by
          have h2 := List.contains_iff_mem.1 hc
          have h3 : c ∉ "\\.+*?()|[]{}^$".toList := fun hm => by rw [List.contains_iff_mem.2 hm] at h; simp at h
          have e : "\\.+*?()|[]{}^$#&-~".toList = "\\.+*?()|[]{}^$".toList ++ ['#', '&', '-', '~'] := by decide
          rw [e, List.mem_append] at h2
          exact h2.resolve_left h3
        have h5 : ∀ c ∈ ['#', '&', '-', '~'], Regex.Items [c] [Re.char c] := by
          intro c hc
          simp only [List.mem_cons, List.not_mem_nil, or_false] at hc
          rcases hc with rfl | rfl | rfl | rfl <;> exact ⟨_, rfl⟩
        exact h5 c h4
      · have := Items.escape [c]
        unfold Regex.escape at this
        simp only [List.flatMap_cons, List.flatMap_nil, List.append_nil, if_neg hc] at this
        simpa using this
    have h2 := h1.append (plain_items cs h.2)
    simp only [List.map_cons, List.reverse_cons]
    exact h2

/-- A plain text matches what it stands for. -/
theorem stands_weak {ic : Bool} {b : Buf} {t : Str} {i j : Nat} (h : AsRegex ic b t i j) : Stands weak ic b t i j := by
  unfold Stands
  split
  · rename_i hp
    obtain ⟨r, h1, c, h2⟩ := h
    obtain rfl := reads_unique (parse_reads h1).1 (plain_items t hp).reads
    exact ((lang_chars t).1 h2).1
  · exact h

/-- What one segment matches. -/
theorem seg_sound {cx : PatternSpec.Ctx} {o : Opts} {cf : Conf engine} (ft : Fit cx o cf) {run : List Part} {cp : CPart}
    {ops : List (MOp engine)} (hs : SegRun run cp) (hl : lowerPart engine o cp = .ok (some ops)) :
    ∃ op bs, ops = op :: bs ∧ IsMatch op ∧ ∀ {b : Buf} {hi : Nat} {rest env} {st st1 sti st2 : Smart.St} {s e env2}, hi ≤ b.length →
      matchPart cf b hi env st op = .yes (st1, s, e) → sti.stack = st1.stack → sti.caps = st1.caps → sti.mend = e → sti.pos = e →
      Runs cf b hi (bs ++ rest) env sti st2 env2 → (∀ c ∈ st2.caps, Converts c) →
      ∃ env' sti', PartsMatch cx b env run s e env' ∧ Runs cf b hi rest env' sti' st2 env2 ∧ sti'.pos = e ∧ sti'.mend = e ∧
        sti'.anchored = sti.anchored ∧ sti'.mstart = sti.mstart := by
  cases hs with
  | @lit t hne =>
    simp only [lowerPart, buildLiteral] at hl
    rw [if_neg (by simpa using hne)] at hl
    simp only [Except.ok.injEq, Option.some.injEq] at hl
    subst hl
    refine ⟨_, _, rfl, trivial, ?_⟩
    intro b hi rest env st st1 sti st2 s e env2 hhi hm _ _ h3 h4 hr _
    refine ⟨env, sti, ?_, hr, h4, h3, rfl, rfl⟩
    apply literals_sound
    rw [ft.ic, ft.strict, ← canonical_spaced]
    have key : e = s + (litBytes o t.flatten).length ∧ hitAt cf.ignoreCase b hi s (litBytes o t.flatten) = true := by
      simp only [matchPart] at hm
      split at hm
      · split at hm
        · rename_i ha hh
          simp only [Smart.Step.yes.injEq, Prod.mk.injEq] at hm
          obtain ⟨rfl, rfl, rfl⟩ := hm
          exact ⟨rfl, hh⟩
        · simp at hm
      · split at hm
        · rename_i pid _ _ hf
          simp only [Smart.Step.yes.injEq, Prod.mk.injEq] at hm
          obtain ⟨rfl, rfl, rfl⟩ := hm
          obtain ⟨h1, h2, ⟨l, h3, h4, h5⟩, _⟩ := findSet_some hf
          have hl : l = litBytes o t.flatten := by
            rcases Nat.eq_zero_or_pos pid with rfl | hpos
            · simpa using h3.symm
            · rw [List.getElem?_eq_none (by simp; omega)] at h3; simp at h3
          subst hl
          exact ⟨h4, h5⟩
        · simp at hm
    obtain ⟨rfl, hh⟩ := key
    have := (hitAt_iff.1 hh).2
    rw [ft.ic'] at this
    exact ⟨rfl, this⟩
  | @rx run l src caps hrun hit =>
    simp only [lowerPart, buildRegex] at hl
    split at hl
    · simp at hl
    · rename_i prog hb
      simp only [Except.ok.injEq, Option.some.injEq] at hl
      subst hl
      obtain ⟨r, hp, rfl⟩ := build_some hb
      obtain ⟨hr1, hr2⟩ := parse_reads hp
      obtain rfl := reads_unique hr1 hit.reads
      refine ⟨_, _, rfl, trivial, ?_⟩
      intro b hi rest env st st1 sti st2 s e env2 hhi hm hst hcp h3 h4 hr hconv
      simp only [matchPart] at hm
      split at hm
      · simp at hm
      · rename_i h hf
        obtain ⟨cs, hc, hm⟩ := Step.bind_yes hm
        simp only [Smart.Step.yes.injEq, Prod.mk.injEq] at hm
        obtain ⟨rfl, rfl, rfl⟩ := hm
        have hf' : find o.ignoreCase (seqRe l) b st.pos hi st.anchored = some h := hf
        obtain ⟨_, _, _, _, hl, _⟩ := find_some hf'
        rw [← ft.ic] at hl
        obtain ⟨sp, e1, g1, m1, q1, b1⟩ := static_sound hrun hr2 hl
        have hcs := capture_spans (b := b) (h := h) (sp := sp) (cs := cs) (fun x hx => g1 x hx) (by rw [e1]; exact hc)
        dsimp only at hst hcp
        obtain ⟨more, hmore⟩ := hr.caps
        have hcv : ∀ c ∈ cs, Converts c := fun c hc => hconv c (by rw [hmore, hcp]; simp [hc])
        have hmap : (caps.reverse.map fun c => (MOp.bind c.name (some c.ty) : MOp engine)) = sp.reverse.map fun x => .bind x.1.name (some x.1.ty) := by
          rw [← e1, ← List.map_reverse, List.map_map]
          rfl
        rw [hmap] at hr
        have hst' : sti.stack = cs.reverse.map (fun c => Val.str c.2) ++ st.stack := by rw [hst, List.map_reverse]
        obtain ⟨vs, hv, hr'⟩ := binds_reversed (ic := cx.ic) sp.reverse (List.rel_reverse hcs) (fun x hx => q1 x (by simpa using hx))
          (fun c hc => hcv c (by simpa using hc)) hst' hr
        have hnd : (sp.map fun x => symOf x.1.name).Nodup := by
          have := static_names hrun
          rw [← e1, List.map_map] at this
          exact this.nodup hr2
        exact ⟨_, _, b1 _ _ (binds_reverse hnd hv), hr', h4, h3, rfl, rfl⟩
  | @dyn m hd hok =>
    cases m with
    | substitution x pt =>
      have hd' : pt = none := hd
      subst hd'
      simp only [lowerPart, lowerMatch, Except.ok.injEq, Option.some.injEq] at hl
      subst hl
      refine ⟨_, _, rfl, trivial, ?_⟩
      intro b hi rest env st st1 sti st2 s e env2 hhi hm _ _ h3 h4 hr _
      refine ⟨env, sti, ?_, hr, h4, h3, rfl, rfl⟩
      simp only [matchPart] at hm
      obtain ⟨v, hev, hm⟩ := Step.bind_yes hm
      split at hm
      · simp at hm
      · rename_i prog hb
        split at hm
        · simp at hm
        · rename_i h hf
          simp only [Smart.Step.yes.injEq, Prod.mk.injEq] at hm
          obtain ⟨rfl, rfl, rfl⟩ := hm
          obtain ⟨r, hp, rfl⟩ := build_some hb
          have hf' : find cf.ignoreCase r b st.pos hi st.anchored = some h := hf
          obtain ⟨_, _, _, _, hl, _⟩ := find_some hf'
          have ht := substSrc_sound hev
          refine .cons ⟨rfl, _, by rw [ft.line]; exact ht, ?_⟩ .nil
          rw [ft.rd, ft.ic, ← ft.ic']
          exact stands_weak ⟨r, hp, _, hl⟩
    | numeric f cap ex =>
      have hd' : ex ≠ none := hd
      cases ex with
      | none => exact absurd rfl hd'
      | some ex =>
        cases cap with
        | none =>
          simp only [lowerPart, lowerMatch, Except.ok.injEq, Option.some.injEq] at hl
          subst hl
          refine ⟨_, _, rfl, trivial, ?_⟩
          intro b hi rest env st st1 sti st2 s e env2 hhi hm _ _ h3 h4 hr _
          refine ⟨env, sti, ?_, hr, h4, h3, rfl, rfl⟩
          simp only [matchPart] at hm
          obtain ⟨v, hev, hm⟩ := Step.bind_yes hm
          split at hm
          · simp at hm
          · rename_i prog hb
            split at hm
            · simp at hm
            · rename_i h hf
              simp only [Smart.Step.yes.injEq, Prod.mk.injEq] at hm
              obtain ⟨rfl, rfl, rfl⟩ := hm
              obtain ⟨r, hp, rfl⟩ := build_some hb
              have hf' : find cf.ignoreCase r b st.pos hi st.anchored = some h := hf
              obtain ⟨_, _, _, _, hl, _⟩ := find_some hf'
              have ht := substSrc_sound hev
              refine .cons ⟨rfl, _, by rw [ft.line]; exact ht, ?_⟩ .nil
              rw [ft.rd, ft.ic, ← ft.ic']
              exact stands_weak ⟨r, hp, _, hl⟩
        | some x =>
          simp only [lowerPart, lowerMatch, Except.ok.injEq, Option.some.injEq] at hl
          subst hl
          obtain ⟨hv, hpr⟩ := hok
          refine ⟨_, _, rfl, trivial, ?_⟩
          intro b hi rest env st st1 sti st2 s e env2 hhi hm hst _ h3 h4 hr _
          simp only [matchPart] at hm
          split at hm
          · simp at hm
          · split at hm
            · simp at hm
            · split at hm
              · simp at hm
              · rename_i prog hb
                split at hm
                · simp at hm
                · rename_i h hf
                  split at hm
                  · simp at hm
                  · rename_i t ht
                    split at hm
                    · rename_i v hpv
                      simp only [Smart.Step.yes.injEq, Prod.mk.injEq] at hm
                      obtain ⟨rfl, rfl, rfl⟩ := hm
                      obtain ⟨r, hp, rfl⟩ := build_some hb
                      have hit := Items.group hv (items_format _ hpr).reads
                      obtain rfl := reads_unique (parse_reads hp).1 hit.reads
                      have hf' : find false _ b st.pos hi st.anchored = some h := hf
                      obtain ⟨_, _, _, _, hl, _⟩ := find_some hf'
                      simp only [seqRe] at hl
                      obtain ⟨d, hd, _⟩ := hl
                      obtain ⟨_, t', ht', ho⟩ := (lang_format _ hpr).1 hd
                      have hu := fromUtf8_sound _ _ _ ht
                      obtain ⟨hm1, hm2⟩ := format_text ht' ho hu hpv
                      simp only [List.cons_append, List.nil_append] at hr
                      cases hr with
                      | part hb' => simp [matchPart] at hb'
                      | constraint hc hr =>
                        obtain ⟨⟨pt, rfl⟩, w, g, hw⟩ := constrain_eq hc
                        cases hr with
                        | part hb' => simp [matchPart] at hb'
                        | bind hbv hr =>
                          unfold bindVar at hbv
                          dsimp only at hbv hst
                          rw [hst] at hbv
                          simp only [asNumeric, Smart.Step.yes.injEq, Prod.mk.injEq] at hbv
                          obtain ⟨rfl, rfl⟩ := hbv
                          refine ⟨_, _, .cons ⟨t, v, some (f.getD plainFormat), hu, hm1, hm2, rfl, rfl, ?_⟩ .nil, hr, h4, h3, rfl, rfl⟩
                          intro e' he'
                          cases he'
                          refine ⟨w, g, by rw [ft.line]; exact hw, ?_⟩
                          rw [ft.rd]
                          intro h; cases h
                    · simp at hm

end Litcheck.Pattern
