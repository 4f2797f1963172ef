import Verif.Proofs.FormatText

/-!
# A match of a run of parts which do not depend on variables is a match of its parts
-/

namespace Litcheck.Pattern
open Litcheck.Smart Litcheck.Spec Litcheck.RegexSpec Litcheck.PatternSpec
open Litcheck.Regex hiding Items
open Litcheck.Lex (Part Match CPat VarName)
variable {cx : PatternSpec.Ctx} {b : Buf}

theorem parse_items {s : Str} {l : List Re} (h : Regex.Items s l) (hn : (seqRe l).names.Nodup) : parse s = some (seqRe l) :=
  reads_parse h.reads hn

theorem groupOf_last (d : Caps) (n : Str) (i j : Nat) : groupOf (d ++ [(n, i, j)]) n = some (i, j) := by
  simp [groupOf]

/-- What a numeric capture matched is a text of its format. -/
def NumSpan (ic : Bool) (b : Buf) (x : Cap × Nat × Nat) : Prop :=
  ∀ f, x.1.ty = .number f → ∃ t, MatchesFormat t (f.getD plainFormat) ∧ Occurs ic (utf8 t) b x.2.1 x.2.2

theorem part_sound {p : Part} {l : List Re} {caps : List Cap} (h : StaticPart p l caps) (hn : (seqRe l).names.Nodup) {i j : Nat} {c : Caps}
    (hl : Lang cx.ic b (seqRe l) i j c) :
    ∃ sp : List (Cap × Nat × Nat), sp.map Prod.fst = caps ∧ (∀ x ∈ sp, groupOf c (symOf x.1.name) = some x.2) ∧
      (∀ x ∈ sp, symOf x.1.name ∈ (seqRe l).names) ∧ (∀ x ∈ sp, NumSpan cx.ic b x) ∧
      ∀ env env', Binds b env sp env' → PartMatches cx b env i j env' p := by
  cases h with
  | literal s =>
    refine ⟨[], rfl, by simp, by simp, by simp, ?_⟩
    intro env env' hb
    cases hb
    exact ⟨rfl, s, .inl rfl, ((lang_chars s).1 hl).1⟩
  | regex hi =>
    refine ⟨[], rfl, by simp, by simp, by simp, ?_⟩
    intro env env' hb
    cases hb
    exact ⟨rfl, _, parse_items hi hn, c, hl⟩
  | @capture x s r hv hr =>
    simp only [seqRe] at hl hn ⊢
    obtain ⟨d, hd, rfl⟩ := hl
    have hn' : r.names.Nodup := by
      rw [Re.names, List.nodup_append] at hn
      exact hn.1
    refine ⟨[(⟨x, .string⟩, i, j)], rfl, ?_, ?_, ?_, ?_⟩
    · intro y hy
      simp only [List.mem_singleton] at hy
      subst hy
      exact groupOf_last _ _ _ _
    · intro y hy
      simp only [List.mem_singleton] at hy
      subst hy
      simp [Re.names]
    · intro y hy
      simp only [List.mem_singleton] at hy
      subst hy
      intro f hf
      simp at hf
    · intro env env' hb
      cases hb with
      | cons h1 h2 =>
        cases h2
        obtain ⟨t, ht, rfl⟩ := h1
        exact ⟨⟨r, reads_parse hr hn', d, hd⟩, t, ht, rfl⟩
  | numeric hp =>
    refine ⟨[], rfl, by simp, by simp, by simp, ?_⟩
    intro env env' hb
    cases hb
    exact ⟨rfl, ((lang_format _ hp).1 hl).2⟩
  | @number f x hv hp =>
    simp only [seqRe] at hl hn ⊢
    obtain ⟨d, hd, rfl⟩ := hl
    obtain ⟨rfl, t', ht', ho⟩ := (lang_format _ hp).1 hd
    refine ⟨[(⟨x, .number f⟩, i, j)], rfl, ?_, ?_, ?_, ?_⟩
    · intro y hy
      simp only [List.mem_singleton] at hy
      subst hy
      exact groupOf_last _ _ _ _
    · intro y hy
      simp only [List.mem_singleton] at hy
      subst hy
      simp [Re.names]
    · intro y hy
      simp only [List.mem_singleton] at hy
      subst hy
      intro f' hf
      simp only [Ty.number.injEq] at hf
      subst hf
      exact ⟨t', ht', ho⟩
    · intro env env' hb
      cases hb with
      | cons h1 h2 =>
        cases h2
        obtain ⟨t, ht, n, f', h3, rfl, h4⟩ := h1
        obtain ⟨h5, h6⟩ := format_text ht' ho ht h3
        exact ⟨t, n, f', ht, h5, h6, h4, rfl, fun e he => by simp at he⟩

theorem static_sound {run : List Part} {l : List Re} {caps : List Cap} (h : StaticRun run l caps) (hn : (seqRe l).names.Nodup) :
    ∀ {i j : Nat} {c : Caps}, Lang cx.ic b (seqRe l) i j c →
    ∃ sp : List (Cap × Nat × Nat), sp.map Prod.fst = caps ∧ (∀ x ∈ sp, groupOf c (symOf x.1.name) = some x.2) ∧
      (∀ x ∈ sp, symOf x.1.name ∈ (seqRe l).names) ∧ (∀ x ∈ sp, NumSpan cx.ic b x) ∧
      ∀ env env', Binds b env sp env' → PartsMatch cx b env run i j env' := by
  induction h with
  | nil =>
    intro i j c hl
    obtain ⟨rfl, rfl⟩ := hl
    refine ⟨[], rfl, by simp, by simp, by simp, ?_⟩
    intro env env' hb
    cases hb
    exact .nil
  | @cons p l c0 ps m d hp hps ih =>
    intro i j c hl
    rw [names_seq_append, List.nodup_append] at hn
    obtain ⟨hn1, hn2, hn3⟩ := hn
    obtain ⟨k, c1, c2, h1, h2, rfl⟩ := (lang_seq_append m l).1 hl
    obtain ⟨sp1, e1, g1, m1, q1, b1⟩ := part_sound (cx := cx) hp hn1 h1
    obtain ⟨sp2, e2, g2, m2, q2, b2⟩ := ih hn2 h2
    refine ⟨sp1 ++ sp2, by simp [e1, e2], ?_, ?_, ?_, ?_⟩
    · intro x hx
      rcases List.mem_append.1 hx with hx | hx
      · rw [groupOf_append_left, g1 x hx]
        intro y hy he
        exact hn3 _ (m1 x hx) _ (lang_names _ h2 y hy) he.symm
      · rw [groupOf_append_right, g2 x hx]
        intro y hy he
        exact hn3 _ (lang_names _ h1 y hy) _ (m2 x hx) he
    · intro x hx
      rw [names_seq_append, List.mem_append]
      rcases List.mem_append.1 hx with hx | hx
      · exact .inl (m1 x hx)
      · exact .inr (m2 x hx)
    · intro x hx
      rcases List.mem_append.1 hx with hx | hx
      · exact q1 x hx
      · exact q2 x hx
    · intro env env' hb
      obtain ⟨e, hb1, hb2⟩ := hb.append_inv
      exact .cons (b1 _ _ hb1) (b2 _ _ hb2)

/-- The names of the captures are among the names of the groups, in order. -/
theorem static_names {run : List Part} {l : List Re} {caps : List Cap} (h : StaticRun run l caps) :
    (caps.map fun c => symOf c.name).Sublist (seqRe l).names := by
  induction h with
  | nil => simp
  | cons hp _ ih =>
    rw [names_seq_append, List.map_append]
    refine List.Sublist.append ?_ ih
    cases hp with
    | literal | regex | numeric => simp
    | capture | number => simp [seqRe, Re.names]

/-! ## Segments -/

/-- The part depends on a variable. -/
def IsDyn : Match → Prop
  | .substitution _ p => p = none
  | .numeric _ _ e => e ≠ none

/-- How parts are grouped: a run of literals, a run which becomes a regular expression, a part with a variable. Runs without
any text are dropped. -/
inductive Segs : List Part → List CPart → Prop
  | nil : Segs [] []
  | drop {pre out run caps} : Segs pre out → StaticRun run [] caps → Segs (pre ++ run) out
  | lit {pre out} {s : List Str} : Segs pre out → s.flatten ≠ [] → Segs (pre ++ s.map Part.literal) (out ++ [.lit s.flatten])
  | rx {pre out run l src caps} : Segs pre out → StaticRun run l caps → Regex.Items src l → run ≠ [] →
      Segs (pre ++ run) (out ++ [.rx ⟨src, caps⟩])
  | dyn {pre out m} : Segs pre out → IsDyn m → PartOk (.match_ m) → Segs (pre ++ [.match_ m]) (out ++ [.dyn m])

/-- What the loop of `compact` keeps: the parts so far are the closed segments and an open run. -/
structure Inv (ps : List Part) (st : CSt) (pre run : List Part) : Prop where
  eq : ps = pre ++ run
  segs : Segs pre st.out
  out : st.out = [] → pre = []
  lit : st.litMode = true → ∃ s : List Str, run = s.map Part.literal ∧ st.text = s.flatten ∧ st.caps = []
  rx : st.litMode = false → ∃ l, StaticRun run l st.caps ∧ Regex.Items st.text l
  ne : st.litMode = false → run ≠ []

theorem literals_static (s : List Str) : StaticRun (s.map Part.literal) (s.flatten.map Re.char).reverse [] := by
  induction s with
  | nil => exact .nil
  | cons t s ih =>
    have := StaticRun.cons (.literal t) ih
    simpa using this

/-- The open run as a regular expression. -/
theorem Inv.asRx {ps pre run : List Part} {st : CSt} (h : Inv ps st pre run) :
    ∃ l, StaticRun run l st.caps ∧ Regex.Items (if st.litMode then Regex.escape st.text else st.text) l := by
  cases hm : st.litMode with
  | true =>
    obtain ⟨s, rfl, h2, h3⟩ := h.lit hm
    refine ⟨(s.flatten.map Re.char).reverse, ?_, ?_⟩
    · rw [h3]; exact literals_static s
    · simp only [if_true, h2]; exact Items.escape _
  | false => simpa using h.rx hm

theorem Inv.addRx {ps pre run : List Part} {st : CSt} (h : Inv ps st pre run) {p : Part} {l : List Re} {caps : List Cap} {src : Str}
    (hp : StaticPart p l caps) (hi : Regex.Items src l) : Inv (ps ++ [p]) (st.addRx src caps) pre (run ++ [p]) := by
  obtain ⟨m, h1, h2⟩ := h.asRx
  refine ⟨by simp [h.eq], h.segs, h.out, by simp [CSt.addRx], fun _ => ⟨l ++ m, h1.append hp.single, ?_⟩, by simp⟩
  exact h2.append hi

theorem Inv.flush {ps pre run : List Part} {st : CSt} (h : Inv ps st pre run) : Segs ps st.flush := by
  rw [h.eq]
  unfold CSt.flush
  by_cases he : st.text.isEmpty
  · rw [if_pos he]
    have he' : st.text = [] := by simpa using he
    cases hm : st.litMode with
    | true =>
      obtain ⟨s, rfl, h2, h3⟩ := h.lit hm
      rw [he'] at h2
      have := literals_static s
      rw [← h2] at this
      exact .drop h.segs this
    | false =>
      obtain ⟨l, h1, h2⟩ := h.rx hm
      rw [he'] at h2
      obtain ⟨lz, h2⟩ := h2
      simp only [steps, init, Option.some.injEq, PSt.mk.injEq, Frame.mk.injEq] at h2
      obtain ⟨_, _, ⟨_, _, rfl⟩, _⟩ := h2
      exact .drop h.segs h1
  · rw [if_neg he]
    cases hm : st.litMode with
    | true =>
      obtain ⟨s, rfl, h2, h3⟩ := h.lit hm
      simp only [if_true]
      rw [h2]
      exact .lit h.segs (by rw [← h2]; simpa using he)
    | false =>
      obtain ⟨l, h1, h2⟩ := h.rx hm
      simp only [Bool.false_eq_true, if_false]
      exact .rx h.segs h1 h2 (h.ne hm)

theorem compactStep_inv {ps pre run : List Part} {st : CSt} (h : Inv ps st pre run) {p : Part} (hp : PartOk p) :
    ∃ pre' run', Inv (ps ++ [p]) (compactStep st p) pre' run' := by
  have hdyn : ∀ m, IsDyn m → PartOk (.match_ m) → ∃ pre' run', Inv (ps ++ [.match_ m]) ⟨st.flush ++ [.dyn m], [], [], true⟩ pre' run' := by
    intro m hd ho
    exact ⟨ps ++ [.match_ m], [], by simp, .dyn h.flush hd ho, by simp, fun _ => ⟨[], rfl, rfl, rfl⟩, by simp, by simp⟩
  cases p with
  | literal s =>
    refine ⟨pre, run ++ [.literal s], by simp [h.eq], h.segs, h.out, ?_, ?_, by simp⟩
    · intro hm
      have hm' : st.litMode = true := hm
      obtain ⟨t, rfl, h2, h3⟩ := h.lit hm'
      exact ⟨t ++ [s], by simp, by simp [compactStep, h2, hm'], h3⟩
    · intro hm
      have hm' : st.litMode = false := hm
      obtain ⟨l, h1, h2⟩ := h.rx hm'
      have h3 : Regex.Items (st.text ++ Regex.escape s) ((s.map Re.char).reverse ++ l) := h2.append (Items.escape s)
      refine ⟨_, ?_, by simpa [compactStep, hm'] using h3⟩
      have h4 := h1.append (StaticPart.literal s).single
      rw [List.append_nil] at h4
      exact h4
  | regex s =>
    obtain ⟨l, hl⟩ := hp
    exact ⟨_, _, h.addRx (.regex hl) hl⟩
  | match_ m =>
    cases m with
    | substitution x pt =>
      cases pt with
      | none => exact hdyn _ rfl hp
      | some s =>
        obtain ⟨hv, r, hr⟩ := hp
        exact ⟨_, _, h.addRx (.capture hv hr) (Items.group hv hr)⟩
    | numeric f cap e =>
      cases e with
      | some e =>
        cases cap with
        | none => exact hdyn _ (by simp [IsDyn]) hp
        | some x => exact hdyn _ (by simp [IsDyn]) hp
      | none =>
        cases cap with
        | none => exact ⟨_, _, h.addRx (.numeric hp) (Items.group' (items_format _ hp).reads)⟩
        | some x => exact ⟨_, _, h.addRx (.number hp.1 hp.2) (Items.group hp.1 (items_format _ hp.2).reads)⟩

theorem compact_loop : ∀ (qs ps pre run : List Part) (st : CSt), Inv ps st pre run → (∀ p ∈ qs, PartOk p) →
    ∃ pre' run', Inv (ps ++ qs) (qs.foldl compactStep st) pre' run'
  | [], ps, pre, run, st, h, _ => ⟨pre, run, by simpa using h⟩
  | q :: qs, ps, pre, run, st, h, hq => by
    obtain ⟨pre', run', h'⟩ := compactStep_inv h (hq q (by simp))
    obtain ⟨pre'', run'', h''⟩ := compact_loop qs _ _ _ _ h' (fun p hp => hq p (by simp [hp]))
    exact ⟨pre'', run'', by simpa using h''⟩

/-- The result of `compact` groups the parts. -/
theorem compact_segs {parts : List Part} (hne : parts ≠ []) (hp : ∀ p ∈ parts, PartOk p) :
    match compact (.match_ parts) with
    | .empty => False
    | .lit s => ∃ t : List Str, parts = t.map Part.literal ∧ s = t.flatten
    | .rx r => ∃ l, StaticRun parts l r.caps ∧ Regex.Items r.src l
    | .parts cps => Segs parts cps := by
  obtain ⟨pre, run, h⟩ := compact_loop parts [] [] [] ⟨[], [], [], true⟩ ⟨rfl, .nil, fun _ => rfl, fun _ => ⟨[], rfl, rfl, rfl⟩, by simp, by simp⟩ hp
  simp only [List.nil_append] at h
  have e : compact (.match_ parts) =
      (let st := parts.foldl compactStep ⟨[], [], [], true⟩
       if st.out.isEmpty then if st.litMode then .lit st.text else .rx ⟨st.text, st.caps⟩ else .parts st.flush) := by
    cases parts with
    | nil => exact absurd rfl hne
    | cons => rfl
  rw [e]
  generalize parts.foldl compactStep ⟨[], [], [], true⟩ = st at h
  dsimp only
  by_cases ho : st.out.isEmpty
  · rw [if_pos ho]
    have hpre := h.out (by simpa using ho)
    have hrun : parts = run := by rw [h.eq, hpre]; rfl
    cases hm : st.litMode with
    | true =>
      obtain ⟨s, h1, h2, _⟩ := h.lit hm
      exact ⟨s, by rw [hrun, h1], h2⟩
    | false =>
      obtain ⟨l, h1, h2⟩ := h.rx hm
      exact ⟨l, by rw [hrun]; exact h1, h2⟩
  · rw [if_neg ho]
    exact h.flush

end Litcheck.Pattern
