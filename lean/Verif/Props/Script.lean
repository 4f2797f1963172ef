import Verif.Proofs.Script
import Verif.Props.BoolExpr

/-!
# C44: test scripts
-/

namespace Litcheck

open Script ScriptSpec

/-- Whether a directive is a RUN directive. -/
def isRunDir (d : Dir) : Bool := d.kind == .run

theorem tryParse_eq (rx : Rx) (nd : Char → Bool) (text : Str) (ls : List (Str × Nat)) (ds : List Dir)
    (hl : IsLines 0 text ls) (hd : Directives ls ds) : tryParse rx nd text =
      ⟨meaning rx nd ds, problems rx nd [] ds ++ if ds.any isRunDir then [] else [.missingRun]⟩ := by
  unfold tryParse
  rw [(lines_iff text ls).1 hl]
  have hm : meaning rx nd [] = St.init.script := rfl
  have := loop_eq rx nd hd ls.length [] [] (Nat.le_refl _)
  rw [hm] at this
  have h2 : loop rx nd ls.length .init ls = ⟨meaning rx nd ds, problems rx nd [] ds⟩ := by
    simp only [List.nil_append] at this
    exact this
  rw [h2]
  have h3 : (meaning rx nd ds).commands.any isRun = ds.any isRunDir := by
    unfold meaning
    clear h2 this hd
    induction ds with
    | nil => rfl
    | cons d ds ih =>
      simp only [List.filterMap_cons, List.any_cons]
      rw [← ih]
      cases hk : d.kind with
      | run => simp [commandOf, hk, isRun, isRunDir]
      | define =>
        simp only [commandOf, hk, isRunDir]
        cases keyValue (definition nd d) with
        | none => simp
        | some kv => by_cases hn : Name kv.1 <;> simp [hn, isRun]
      | redefine =>
        simp only [commandOf, hk, isRunDir]
        cases keyValue (definition nd d) with
        | none => simp
        | some kv => by_cases hn : Name kv.1 <;> simp [hn, isRun]
      | _ => simp [commandOf, hk, isRunDir]
  simp only [h3]
  cases ds.any isRunDir <;> simp [Script.St.fail]

/-- C44, the whole of it: every text has lines and directives, the problems found are the problems of the directives
in order, and if there is none and at least one RUN directive, the script is what the directives say. -/
theorem C44_parse (rx : Rx) (nd : Char → Bool) (text : Str) : ∃ ls ds, IsLines 0 text ls ∧ Directives ls ds ∧
    parse rx nd text =
      let es := problems rx nd [] ds ++ if ∃ d ∈ ds, d.kind = .run then [] else [.missingRun]
      if es = [] then .ok (meaning rx nd ds) else .error es := by
  obtain ⟨ds, hd⟩ := directives_exist (lines text)
  have hl := (lines_iff text _).2 rfl
  refine ⟨_, ds, hl, hd, ?_⟩
  unfold parse
  rw [tryParse_eq rx nd text _ ds hl hd]
  have h : (ds.any isRunDir = true) ↔ ∃ d ∈ ds, d.kind = .run := by simp [isRunDir]
  simp only [h, List.isEmpty_iff]

theorem isLines_unique {n : Nat} {s : Str} {ls ls' : List (Str × Nat)} (h : IsLines n s ls) (h' : IsLines n s ls') :
    ls = ls' := (isLines_eq h).symm.trans (isLines_eq h')

theorem seg_unique {l : Str} {n : Nat} {s s' : Seg} (h : SegOf l n s) (h' : SegOf l n s') : s = s' := by
  cases h with
  | keyed k c hk =>
    cases h' with
    | keyed k' c' hk' => obtain ⟨rfl, rfl⟩ := keyword_unique hk hk'; rfl
    | bare hn => exact absurd hk (hn _ _)
  | bare hn =>
    cases h' with
    | keyed k' c' hk' => exact absurd hk' (hn _ _)
    | bare _ => rfl

theorem cont_unique {ls rest : List (Str × Nat)} {segs : List Seg} (h : Cont ls segs rest) :
    ∀ {rest' : List (Str × Nat)} {segs' : List Seg}, Cont ls segs' rest' → segs = segs' ∧ rest = rest' := by
  induction h with
  | eof => intro _ _ h'; cases h'; exact ⟨rfl, rfl⟩
  | last l n s rest hs hc =>
    intro _ _ h'
    cases h' with
    | last _ _ s' _ hs' hc' => rw [seg_unique hs hs']; exact ⟨rfl, rfl⟩
    | more _ _ s' _ _ _ hs' hc' _ => rw [seg_unique hs hs'] at hc; exact absurd hc' hc
  | more l n s ls rest segs hs hc _ ih =>
    intro _ _ h'
    cases h' with
    | last _ _ s' _ hs' hc' => rw [seg_unique hs hs'] at hc; exact absurd hc hc'
    | more _ _ s' _ _ _ hs' hc' h' =>
      obtain ⟨h1, h2⟩ := ih h'
      rw [seg_unique hs hs', h1, h2]
      exact ⟨rfl, rfl⟩

theorem multi_end : ¬Multi .end_ := id

/-- The directives of a list of lines are determined. -/
theorem C44_directives_unique {ls : List (Str × Nat)} {ds : List Dir} (h : Directives ls ds) :
    ∀ {ds' : List Dir}, Directives ls ds' → ds = ds' := by
  induction h with
  | nil => intro _ h'; cases h'; rfl
  | stop l c n ls hk hb =>
    intro _ h'
    cases h' with
    | stop => rfl
    | notEnd _ c' _ _ _ hk' hb' _ => rw [(keyword_unique hk hk').2] at hb; exact absurd hb hb'
    | plain _ _ _ _ hn _ => exact absurd hk (hn _ _)
    | one _ c' k' _ _ _ hk' he _ _ => exact absurd (keyword_unique hk hk').1.symm he
    | many _ c' k' _ _ _ _ _ hk' hm _ _ _ => rw [← (keyword_unique hk hk').1] at hm; exact absurd hm multi_end
  | notEnd l c n ls ds hk hb _ ih =>
    intro _ h'
    cases h' with
    | stop _ c' _ _ hk' hb' => rw [(keyword_unique hk hk').2] at hb; exact absurd hb' hb
    | notEnd _ c' _ _ _ hk' hb' h' => exact ih h'
    | plain _ _ _ _ hn _ => exact absurd hk (hn _ _)
    | one _ c' k' _ _ _ hk' he _ _ => exact absurd (keyword_unique hk hk').1.symm he
    | many _ c' k' _ _ _ _ _ hk' hm _ _ _ => rw [← (keyword_unique hk hk').1] at hm; exact absurd hm multi_end
  | plain l n ls ds hn _ ih =>
    intro _ h'
    cases h' with
    | stop _ c' _ _ hk' _ => exact absurd hk' (hn _ _)
    | notEnd _ c' _ _ _ hk' _ _ => exact absurd hk' (hn _ _)
    | plain _ _ _ _ _ h' => exact ih h'
    | one _ c' k' _ _ _ hk' _ _ _ => exact absurd hk' (hn _ _)
    | many _ c' k' _ _ _ _ _ hk' _ _ _ _ => exact absurd hk' (hn _ _)
  | one l c k n ls ds hk he hm _ ih =>
    intro _ h'
    cases h' with
    | stop _ c' _ _ hk' _ => exact absurd (keyword_unique hk hk').1 he
    | notEnd _ c' _ _ _ hk' _ _ => exact absurd (keyword_unique hk hk').1 he
    | plain _ _ _ _ hn _ => exact absurd hk (hn _ _)
    | one _ c' k' _ _ _ hk' _ _ h' => obtain ⟨rfl, rfl⟩ := keyword_unique hk hk'; rw [ih h']
    | many _ c' k' _ _ _ _ _ hk' hm' hc' _ _ => obtain ⟨rfl, rfl⟩ := keyword_unique hk hk'; exact absurd hc' (hm hm')
  | many l c k n ls rest segs ds hk hm hc hcont _ ih =>
    intro _ h'
    cases h' with
    | stop _ c' _ _ hk' _ => rw [(keyword_unique hk hk').1] at hm; exact absurd hm multi_end
    | notEnd _ c' _ _ _ hk' _ _ => rw [(keyword_unique hk hk').1] at hm; exact absurd hm multi_end
    | plain _ _ _ _ hn _ => exact absurd hk (hn _ _)
    | one _ c' k' _ _ _ hk' _ hm' _ => obtain ⟨rfl, rfl⟩ := keyword_unique hk hk'; exact absurd hc (hm' hm)
    | many _ c' k' _ _ _ _ _ hk' _ _ hcont' h' =>
      obtain ⟨rfl, rfl⟩ := keyword_unique hk hk'
      obtain ⟨rfl, rfl⟩ := cont_unique hcont hcont'
      rw [ih h']

/-! ## Success -/

theorem keyProblem_nil (k : DirKind) (s : Seg) : keyProblem k s = [] ↔ s.key = some k := by
  unfold keyProblem
  cases s.key with
  | none => simp
  | some k' => by_cases h : k' = k <;> simp [h]

theorem badExprs_nil (rx : Rx) (d : Dir) : badExprs rx d = [] ↔ ∀ r ∈ exprs rx d, ∃ e, r = .ok e := by
  unfold badExprs
  rw [List.filterMap_eq_nil_iff]
  refine forall_congr' fun r => forall_congr' fun _ => ?_
  cases r <;> simp

/-- A directive has a problem iff it is not well formed, or sets the retries again. -/
theorem problemsOf_nil (rx : Rx) (nd : Char → Bool) (r : Bool) (d : Dir) :
    problemsOf rx nd r d = [] ↔ WellFormed rx nd d ∧ (d.kind = .allowedRetries → r = false) := by
  unfold problemsOf WellFormed
  cases hk : d.kind with
  | run =>
    simp only [lineProblems, hk, List.append_eq_nil_iff, List.flatMap_eq_nil_iff, keyProblem_nil, if_true]
    simp only [reduceCtorEq, false_imp_iff, and_true]
    constructor
    · rintro ⟨h1, h2⟩; exact ⟨fun s hs => (h2 s hs).1, h1, fun s hs => (h2 s hs).2⟩
    · rintro ⟨h1, h2, h3⟩; exact ⟨h2, fun s hs => ⟨h1 s hs, h3 s hs⟩⟩
  | define =>
    simp only [lineProblems, hk, List.append_eq_nil_iff, List.flatMap_eq_nil_iff, keyProblem_nil]
    simp only [reduceCtorEq, false_imp_iff, and_true, if_false]
    constructor
    · rintro ⟨⟨h1, h2⟩, h3⟩
      refine ⟨fun s hs => (h2 s hs).1, h1, fun s hs => (h2 s hs).2, fun kv hkv => ?_⟩
      have := h3 kv (by simp [hkv])
      by_contra hn
      simp [hn] at this
    · rintro ⟨h1, h2, h3, h4⟩
      refine ⟨⟨h2, fun s hs => ⟨h1 s hs, h3 s hs⟩⟩, fun kv hkv => ?_⟩
      rw [if_pos (h4 kv (by simpa using hkv))]
  | redefine =>
    simp only [lineProblems, hk, List.append_eq_nil_iff, List.flatMap_eq_nil_iff, keyProblem_nil]
    simp only [reduceCtorEq, false_imp_iff, and_true, if_false]
    constructor
    · rintro ⟨⟨h1, h2⟩, h3⟩
      refine ⟨fun s hs => (h2 s hs).1, h1, fun s hs => (h2 s hs).2, fun kv hkv => ?_⟩
      have := h3 kv (by simp [hkv])
      by_contra hn
      simp [hn] at this
    · rintro ⟨h1, h2, h3, h4⟩
      refine ⟨⟨h2, fun s hs => ⟨h1 s hs, h3 s hs⟩⟩, fun kv hkv => ?_⟩
      rw [if_pos (h4 kv (by simpa using hkv))]
  | requires => simp [badExprs_nil]
  | unsupported => simp [badExprs_nil]
  | xfail => simp [badExprs_nil]
  | end_ => simp
  | allowedRetries =>
    cases r
    · cases hr : retriesOf d <;> simp
    · simp

/-- The directives that set the number of retries. -/
def retryDirs (ds : List Dir) : List Dir := ds.filter fun d => d.kind == .allowedRetries

theorem retries_none_iff (rx : Rx) (nd : Char → Bool) (es : List Dir) (h : ∀ d ∈ es, WellFormed rx nd d) :
    retries es = none ↔ retryDirs es = [] := by
  unfold retries retryDirs
  constructor
  · intro hn
    rw [List.findSome?_eq_none_iff] at hn
    rw [List.filter_eq_nil_iff]
    intro d hd hk
    have hw := h d hd
    have := hn d (List.mem_filter.2 ⟨hd, hk⟩)
    rw [beq_iff_eq] at hk
    unfold WellFormed at hw
    rw [hk] at hw
    exact hw this
  · intro hn; rw [hn]; rfl

theorem problems_nil (rx : Rx) (nd : Char → Bool) (ds : List Dir) : ∀ (es : List Dir),
    (∀ d ∈ es, WellFormed rx nd d) → (retryDirs es).length ≤ 1 →
    (problems rx nd es ds = [] ↔ (∀ d ∈ ds, WellFormed rx nd d) ∧ (retryDirs (es ++ ds)).length ≤ 1) := by
  induction ds with
  | nil => intro es h hr; simp [problems, hr]
  | cons d ds ih =>
    intro es h hr
    rw [problems, List.append_eq_nil_iff, problemsOf_nil]
    constructor
    · rintro ⟨⟨hw, hk⟩, hp⟩
      have h2 : ∀ d' ∈ es ++ [d], WellFormed rx nd d' := by
        intro d' hd'
        rcases List.mem_append.1 hd' with h' | h'
        · exact h d' h'
        · rw [List.mem_singleton.1 h']; exact hw
      have h3 : (retryDirs (es ++ [d])).length ≤ 1 := by
        by_cases hd : d.kind = .allowedRetries
        · have := hk hd
          rw [Option.isSome_eq_false_iff, Option.isNone_iff_eq_none, retries_none_iff rx nd es h] at this
          unfold retryDirs at this ⊢
          rw [List.filter_append, this]
          simp [hd]
        · unfold retryDirs at hr ⊢
          rw [List.filter_append]
          simp [hd, hr]
      have := (ih (es ++ [d]) h2 h3).1 hp
      refine ⟨?_, by simpa using this.2⟩
      intro d' hd'
      rcases List.mem_cons.1 hd' with rfl | h'
      · exact hw
      · exact this.1 d' h'
    · rintro ⟨hw, hl⟩
      have h2 : ∀ d' ∈ es ++ [d], WellFormed rx nd d' := by
        intro d' hd'
        rcases List.mem_append.1 hd' with h' | h'
        · exact h d' h'
        · rw [List.mem_singleton.1 h']; exact hw d (by simp)
      have hl2 : (retryDirs (es ++ [d] ++ ds)).length ≤ 1 := by simpa using hl
      have h3 : (retryDirs (es ++ [d])).length ≤ 1 := by
        unfold retryDirs at hl2 ⊢
        rw [List.filter_append, List.length_append] at hl2
        omega
      refine ⟨⟨hw d (by simp), fun hd => ?_⟩, (ih _ h2 h3).2 ⟨fun d' h' => hw d' (by simp [h']), hl2⟩⟩
      rw [Option.isSome_eq_false_iff, Option.isNone_iff_eq_none, retries_none_iff rx nd es h]
      unfold retryDirs at h3 ⊢
      rw [List.filter_append, List.length_append] at h3
      simp only [hd, beq_self_eq_true, List.filter_cons_of_pos, List.filter_nil, List.length_singleton] at h3
      exact List.eq_nil_of_length_eq_zero (by omega)

/-- C44: parsing succeeds iff every directive is well formed, the number of retries is set at most once, and there is a
RUN directive. Partial: a definition without `=` and a continuation that the text ends in count as well formed here,
see the refutations below. -/
theorem C44_ok_iff_partial (rx : Rx) (nd : Char → Bool) (text : Str) (ls : List (Str × Nat)) (ds : List Dir)
    (hl : IsLines 0 text ls) (hd : Directives ls ds) : (∃ s, parse rx nd text = .ok s) ↔
      (∀ d ∈ ds, WellFormed rx nd d) ∧ (ds.filter fun d => d.kind == .allowedRetries).length ≤ 1 ∧
        ∃ d ∈ ds, d.kind = .run := by
  obtain ⟨ls', ds', hl', hd', h⟩ := C44_parse rx nd text
  obtain rfl := isLines_unique hl hl'
  obtain rfl := C44_directives_unique hd hd'
  rw [h]
  have hp := problems_nil rx nd ds [] (by simp) (by simp [retryDirs])
  rw [List.nil_append] at hp
  by_cases hr : ∃ d ∈ ds, d.kind = .run
  · simp only [hr, if_true, List.append_nil, and_true]
    rw [show (ds.filter fun d => d.kind == .allowedRetries) = retryDirs ds from rfl, ← hp]
    by_cases he : problems rx nd [] ds = []
    · simp [he]
    · simp [he]
  · simp [hr]

/-- C44: when parsing succeeds, the commands that will be run are those of the RUN directives, in their order, each
with its continuation lines joined to it; the definitions stay between them in their order. -/
theorem C44_runs (rx : Rx) (nd : Char → Bool) (text : Str) (ls : List (Str × Nat)) (ds : List Dir)
    (hl : IsLines 0 text ls) (hd : Directives ls ds) (s : TestScript) (h : parse rx nd text = .ok s) :
    s.commands.filterMap (fun | .run r => some r | .subst _ => none) =
      (ds.filter fun d => d.kind == .run).map (fun d => ⟨d.head.line, command nd d⟩) ∧
    s.commands = ds.filterMap (commandOf nd) := by
  obtain ⟨ls', ds', hl', hd', h2⟩ := C44_parse rx nd text
  obtain rfl := isLines_unique hl hl'
  obtain rfl := C44_directives_unique hd hd'
  rw [h2] at h
  generalize problems rx nd [] ds ++ (if ∃ d ∈ ds, d.kind = .run then [] else [.missingRun]) = es at h
  dsimp only at h
  by_cases he : es = []
  · rw [if_pos he] at h
    injection h with h
    subst h
    refine ⟨?_, rfl⟩
    unfold meaning
    clear hd hd' h2
    induction ds with
    | nil => rfl
    | cons d ds ih =>
      simp only [List.filterMap_cons] at ih ⊢
      rw [List.filter_cons]
      cases hk : d.kind with
      | run => simp only [commandOf, hk, List.filterMap_cons]; simp [ih]
      | define =>
        simp only [commandOf, hk]
        cases keyValue (definition nd d) with
        | none => simpa using ih
        | some kv => by_cases hn : Name kv.1 <;> simp [hn, ih]
      | redefine =>
        simp only [commandOf, hk]
        cases keyValue (definition nd d) with
        | none => simpa using ih
        | some kv => by_cases hn : Name kv.1 <;> simp [hn, ih]
      | _ => simpa [commandOf, hk] using ih
  · rw [if_neg he] at h
    cases h

/-! ## The end of a script -/

theorem seg_continues {l : Str} {n : Nat} {s : Seg} (h : SegOf l n s) (hc : Continues s.text) : Continues l := by
  cases h with
  | bare _ => exact hc
  | keyed k c hk =>
    obtain ⟨b, e, _⟩ := hk
    unfold Continues at *
    rw [e, List.getLast?_append, hc]
    rfl

theorem keyword_continues {l c : Str} {k : DirKind} (h : Keyword l k c) (hc : Continues c) : Continues l :=
  seg_continues (n := 0) (.keyed k c h) hc

/-- The last line does not end in a backslash. -/
def Closed (ls : List (Str × Nat)) : Prop := ∀ l, ls.getLast? = some l → ¬Continues l.1

theorem closed_tail {l : Str × Nat} {ls : List (Str × Nat)} (h : Closed (l :: ls)) : Closed ls := by
  intro l' hl'
  apply h l'
  rw [List.getLast?_cons, hl']
  rfl

theorem cont_closed {ls rest t : List (Str × Nat)} {segs : List Seg} (h : Cont (ls ++ t) segs rest) (hne : ls ≠ [])
    (hc : Closed ls) : ∃ ls', rest = ls' ++ t ∧ Closed ls' ∧ ls'.length < ls.length ∧ ∀ t', Cont (ls ++ t') segs (ls' ++ t') := by
  induction ls generalizing segs with
  | nil => exact absurd rfl hne
  | cons l ls ih =>
    rw [List.cons_append] at h
    cases h with
    | last l n s rest hs hcs =>
      exact ⟨ls, rfl, closed_tail hc, by simp, fun t' => .last l n s _ hs hcs⟩
    | more l n s ls0 rest segs hs hcs h =>
      have hne' : ls ≠ [] := by
        rintro rfl
        exact hc (l, n) rfl (seg_continues hs hcs)
      obtain ⟨ls', h1, h2, h3, h4⟩ := ih h hne' (closed_tail hc)
      exact ⟨ls', h1, h2, by simp only [List.length_cons]; omega, fun t' => .more l n s _ _ segs hs hcs (h4 t')⟩

theorem directives_end (e c : Str) (n : Nat) (he : Keyword e .end_ c) (hb : Blank c) (t : List (Str × Nat)) (m : Nat) :
    ∀ (ls : List (Str × Nat)) (ds : List Dir), ls.length = m → Closed ls → Directives (ls ++ (e, n) :: t) ds →
      Directives (ls ++ [(e, n)]) ds := by
  induction m using Nat.strong_induction_on with
  | _ m ih =>
    intro ls ds hm hc h
    cases ls with
    | nil =>
      have h1 : Directives ((e, n) :: t) [] := .stop e c n t he hb
      rw [C44_directives_unique h h1]
      exact .stop e c n [] he hb
    | cons l ls =>
      simp only [List.length_cons] at hm
      rw [List.cons_append] at h ⊢
      cases h with
      | stop l c' n' _ hk hb' => exact .stop l c' n' _ hk hb'
      | notEnd l c' n' _ _ hk hb' h => exact .notEnd l c' n' _ _ hk hb' (ih ls.length (by omega) ls _ rfl (closed_tail hc) h)
      | plain l n' _ _ hn h => exact .plain l n' _ _ hn (ih ls.length (by omega) ls _ rfl (closed_tail hc) h)
      | one l c' k n' _ _ hk hke hm' h => exact .one l c' k n' _ _ hk hke hm' (ih ls.length (by omega) ls _ rfl (closed_tail hc) h)
      | many l c' k n' _ rest segs ds hk hm' hc' hcont h =>
        have hne : ls ≠ [] := by
          rintro rfl
          exact hc (l, n') rfl (keyword_continues hk hc')
        obtain ⟨ls', h1, h2, h3, h4⟩ := cont_closed hcont hne (closed_tail hc)
        subst h1
        exact .many l c' k n' _ _ segs ds hk hm' hc' (h4 _) (ih ls'.length (by omega) ls' _ rfl h2 h)

theorem isLines_append {n : Nat} {a : Str} {la : List (Str × Nat)} (h : IsLines n a la)
    (ha : a = [] ∨ a.getLast? = some '\n') : ∃ m, ∀ b lb, IsLines m b lb → IsLines n (a ++ b) (la ++ lb) := by
  induction h with
  | nil n => exact ⟨n, fun b lb h => h⟩
  | last n l h1 h2 h3 =>
    rcases ha with ha | ha
    · exact absurd ha h1
    · obtain ⟨u, rfl⟩ := List.getLast?_eq_some_iff.1 ha
      simp at h2
  | lastCr n l h1 =>
    rcases ha with ha | ha
    · simp at ha
    · simp at ha
  | line n l s ls h1 h2 _ ih =>
    have hs : s = [] ∨ s.getLast? = some '\n' := by
      rcases s.eq_nil_or_concat with rfl | ⟨u, x, rfl⟩
      · exact Or.inl rfl
      · right
        rcases ha with ha | ha
        · simp at ha
        · rw [List.getLast?_append, List.concat_eq_append, List.getLast?_concat] at ha
          simpa using ha
    obtain ⟨m, hm⟩ := ih hs
    refine ⟨m, fun b lb hb => ?_⟩
    have := IsLines.line n l (s ++ b) (ls ++ lb) h1 h2 (hm b lb hb)
    simpa using this
  | lineCr n l s ls h1 _ ih =>
    have hs : s = [] ∨ s.getLast? = some '\n' := by
      rcases s.eq_nil_or_concat with rfl | ⟨u, x, rfl⟩
      · exact Or.inl rfl
      · right
        rcases ha with ha | ha
        · simp at ha
        · rw [List.getLast?_append, List.concat_eq_append, List.getLast?_concat] at ha
          simpa using ha
    obtain ⟨m, hm⟩ := ih hs
    refine ⟨m, fun b lb hb => ?_⟩
    have := IsLines.lineCr n l (s ++ b) (ls ++ lb) h1 (hm b lb hb)
    simpa using this

/-- C44: nothing after an `END.` line is interpreted. The text before that line is empty or ends in a line feed, and
its last line does not end in a backslash, which would make the `END.` line a continuation. -/
theorem C44_end (rx : Rx) (nd : Char → Bool) (a e c b : Str) (ha : a = [] ∨ a.getLast? = some '\n')
    (la : List (Str × Nat)) (hla : IsLines 0 a la) (hc : ∀ l, la.getLast? = some l → ¬Continues l.1)
    (he : '\n' ∉ e) (hk : Keyword e .end_ c) (hb : Blank c) :
    parse rx nd (a ++ e ++ ['\n'] ++ b) = parse rx nd (a ++ e ++ ['\n']) := by
  -- a carriage return at the end is white space
  obtain ⟨e', c', hk', hb', hIs⟩ : ∃ e' c', Keyword e' .end_ c' ∧ Blank c' ∧
      ∀ m s ls, IsLines (m + 1) s ls → IsLines m (e ++ ['\n'] ++ s) ((e', m + 1) :: ls) := by
    by_cases hr : e.getLast? = some '\r'
    · obtain ⟨u, rfl⟩ := List.getLast?_eq_some_iff.1 hr
      obtain ⟨bf, hbf, hmin⟩ := hk
      have hcne : c ≠ [] := by
        rintro rfl
        have := congrArg List.getLast? hbf
        rw [List.append_nil, List.getLast?_append, List.getLast?_append] at this
        have ht : DirKind.text .end_ = ['E', 'N', 'D', '.'] := by decide +kernel
        rw [ht] at this
        simp at this
      have hcl : c.getLast? = some '\r' := by
        have := congrArg List.getLast? hbf
        rw [List.getLast?_concat, List.getLast?_append] at this
        cases hg : c.getLast? with
        | none => exact absurd (List.getLast?_eq_none_iff.1 hg) hcne
        | some x => rw [hg] at this; simpa using this.symm
      obtain ⟨v, rfl⟩ := List.getLast?_eq_some_iff.1 hcl
      have hu : u = bf ++ DirKind.text .end_ ++ v := by
        rw [← List.append_assoc] at hbf
        exact (List.append_inj' hbf rfl).1
      refine ⟨u, v, ⟨bf, hu, fun b' k' c'' h => hmin b' k' (c'' ++ ['\r']) (by rw [h]; simp)⟩,
        fun x hx => hb x (by simp [hx]), fun m s ls h => ?_⟩
      have := IsLines.lineCr m u s ls (fun h => he (by simp [h])) h
      simpa using this
    · exact ⟨e, c, hk, hb, fun m s ls h => .line m e s ls he hr h⟩
  obtain ⟨m, hm⟩ := isLines_append hla ha
  obtain ⟨lb, hlb⟩ := isLines_exist (m + 1) b
  have h1 : IsLines 0 (a ++ e ++ ['\n'] ++ b) (la ++ (e', m + 1) :: lb) := by
    have := hm _ _ (hIs m b lb hlb)
    simpa using this
  have h2 : IsLines 0 (a ++ e ++ ['\n']) (la ++ [(e', m + 1)]) := by
    have := hm _ _ (hIs m [] [] (.nil _))
    simpa using this
  obtain ⟨ds, hds⟩ := directives_exist (la ++ (e', m + 1) :: lb)
  have hds2 := directives_end e' c' (m + 1) hk' hb' lb la.length la ds rfl hc hds
  unfold parse
  rw [tryParse_eq rx nd _ _ ds h1 hds, tryParse_eq rx nd _ _ ds h2 hds2]

/-! ## Numbers and line references -/

theorem digit_iff (c : Char) : ('0' ≤ c ∧ c ≤ '9') ↔ c ∈ "0123456789".toList := by
  have := char_iff (fun c => decide ('0' ≤ c ∧ c ≤ '9')) "0123456789".toList (by decide +kernel) ?_ (by decide +kernel) c
  · simpa using this
  · intro c h
    simp only [decide_eq_true_eq] at h
    exact Nat.lt_of_le_of_lt (show c.toNat ≤ '9'.toNat from h.2) (by decide)

theorem digitsVal_iff (s : Str) : ∀ (acc v : Nat), digitsVal acc s = some v ↔
    (∀ c ∈ s, c ∈ "0123456789".toList) ∧ v = s.foldl (fun n c => n * 10 + (c.toNat - 48)) acc := by
  induction s with
  | nil => intro acc v; rw [digitsVal]; simp [eq_comm]
  | cons c s ih =>
    intro acc v
    rw [digitsVal]
    by_cases h : '0' ≤ c ∧ c ≤ '9'
    · rw [if_pos h, ih, List.foldl_cons, List.forall_mem_cons]
      rw [digit_iff] at h
      exact ⟨fun h' => ⟨⟨h, h'.1⟩, h'.2⟩, fun h' => ⟨h'.1.2, h'.2⟩⟩
    · rw [if_neg h]
      rw [digit_iff] at h
      exact iff_of_false (by simp) fun h' => h (h'.1 c (by simp))

/-- What counts as a number in a script. -/
theorem C44_usize (s : Str) (n : Nat) : parseUsize s = some n ↔ Usize s n := by
  have plus : '+' ∉ "0123456789".toList := by decide +kernel
  have key : ∀ d : Str, (if d.isEmpty then none else (digitsVal 0 d).filter (· < 2 ^ 64)) = some n ↔
      n < 2 ^ 64 ∧ d ≠ [] ∧ (∀ c ∈ d, c ∈ "0123456789".toList) ∧ n = decimal d := by
    intro d
    by_cases hd : d = []
    · simp [hd]
    · have : d.isEmpty = false := by simpa using hd
      rw [this]
      simp only [Bool.false_eq_true, if_false, Option.filter_eq_some_iff, digitsVal_iff, decide_eq_true_eq]
      unfold decimal
      constructor
      · rintro ⟨⟨h1, h2⟩, h3⟩; exact ⟨h3, hd, h1, h2⟩
      · rintro ⟨h3, _, h1, h2⟩; exact ⟨⟨h1, h2⟩, h3⟩
  unfold parseUsize Usize
  by_cases hp : s.head? = some '+'
  · simp only [hp, if_true]
    rw [key]
    cases s with
    | nil => simp at hp
    | cons c s =>
      simp only [List.head?_cons, Option.some.injEq] at hp
      subst hp
      simp only [List.tail_cons]
      constructor
      · rintro ⟨h1, h2, h3, h4⟩; exact ⟨h1, s, Or.inr rfl, h2, h3, h4⟩
      · rintro ⟨h1, ds, h | h, h2, h3, h4⟩
        · subst h
          exact absurd (h3 '+' (by simp)) plus
        · injection h with _ h; subst h; exact ⟨h1, h2, h3, h4⟩
  · simp only [hp, if_false]
    rw [key]
    constructor
    · rintro ⟨h1, h2, h3, h4⟩; exact ⟨h1, s, Or.inl rfl, h2, h3, h4⟩
    · rintro ⟨h1, ds, h | h, h2, h3, h4⟩
      · subst h; exact ⟨h1, h2, h3, h4⟩
      · subst h; exact absurd rfl hp

/-- The sign as the model keeps it. -/
def signOf (o : Option (Bool × Str)) : Option (Char × Str) := o.map fun x => (if x.1 then '-' else '+', x.2)

theorem spaces_split (s : Str) : ∃ k, s = List.replicate k ' ' ++ s.dropWhile (· == ' ') := by
  induction s with
  | nil => exact ⟨0, rfl⟩
  | cons c s ih =>
    rw [List.dropWhile_cons]
    by_cases h : c = ' '
    · obtain ⟨k, hk⟩ := ih
      refine ⟨k + 1, ?_⟩
      simp only [h, beq_self_eq_true, if_true, List.replicate_succ, List.cons_append]
      rw [← hk]
    · exact ⟨0, by simp [h]⟩

theorem dropWhile_spaces (k : Nat) (s : Str) (h : s.head? ≠ some ' ') :
    (List.replicate k ' ' ++ s).dropWhile (· == ' ') = s := by
  induction k with
  | zero =>
    cases s with
    | nil => rfl
    | cons c s =>
      simp only [List.head?_cons, ne_eq, Option.some.injEq] at h
      simp [h]
  | succ k ih => simp [List.replicate_succ, ih]

theorem lineRef_sound (nd : Char → Bool) (s t : Str) (o : Option (Bool × Str)) (h : lineRef nd s = some (o, t)) :
    ∃ r, LineRef nd r (signOf o) ∧ s = r ++ t := by
  unfold lineRef at h
  split at h
  · rename_i hp
    obtain ⟨s1, rfl⟩ := List.isPrefixOf_iff_prefix.1 hp
    have hd : ("%(line".toList ++ s1).drop 6 = s1 := rfl
    simp only [hd] at h
    split at h
    · rename_i h1
      obtain ⟨rfl, rfl⟩ := by simpa using h
      refine ⟨_, .here, ?_⟩
      cases s1 with
      | nil => simp at h1
      | cons c s1 =>
        simp only [List.head?_cons, Option.some.injEq] at h1
        subst h1
        rfl
    · split at h
      · rename_i h1 h2
        split at h
        · rename_i h3
          obtain ⟨rfl, rfl⟩ := by simpa using h
          obtain ⟨k, hk⟩ := spaces_split s1
          generalize s1.dropWhile (· == ' ') = s2 at *
          cases s2 with
          | nil => simp at h2
          | cons g s3 =>
            simp only [List.head?_cons, Option.some.injEq, List.tail_cons] at *
            obtain ⟨m, hm⟩ := spaces_split s3
            generalize s3.dropWhile (· == ' ') = s4 at *
            have hs4 : s4 = s4.takeWhile nd ++ s4.dropWhile nd := (List.takeWhile_append_dropWhile).symm
            generalize hs5 : s4.dropWhile nd = s5 at *
            cases s5 with
            | nil => simp at h3
            | cons x s5 =>
              simp only [List.head?_cons, Option.some.injEq] at h3
              obtain ⟨h3, rfl⟩ := h3
              refine ⟨"%(line".toList ++ List.replicate k ' ' ++ [g] ++ List.replicate m ' ' ++ s4.takeWhile nd ++ [')'], ?_, ?_⟩
              · have : signOf (some (some g == some '-', s4.takeWhile nd)) = some (g, s4.takeWhile nd) := by
                  unfold signOf
                  rcases h2 with rfl | rfl <;> rfl
                rw [this]
                exact .offset k m g _ h2 h3 fun c hc => BParse.mem_takeWhile' hc
              · rw [hk, hm]
                simp only [List.append_assoc, List.cons_append, List.nil_append, List.tail_cons]
                congr 4
        · cases h
      · cases h
  · cases h

theorem lineRef_complete (nd : Char → Bool) (hnd : ∀ c ∈ [' ', ')'], nd c = false) (r t : Str)
    (o : Option (Char × Str)) (h : LineRef nd r o) : ∃ o', lineRef nd (r ++ t) = some (o', t) ∧ signOf o' = o := by
  cases h with
  | here => exact ⟨none, rfl, rfl⟩
  | offset k m sign ds hs hne hds =>
    refine ⟨some (sign == '-', ds), ?_, ?_⟩
    · unfold lineRef
      have e : "%(line".toList ++ List.replicate k ' ' ++ [sign] ++ List.replicate m ' ' ++ ds ++ [')'] ++ t =
          "%(line".toList ++ (List.replicate k ' ' ++ (sign :: (List.replicate m ' ' ++ (ds ++ ')' :: t)))) := by simp
      have hp : "%(line".toList.isPrefixOf ("%(line".toList ++
          (List.replicate k ' ' ++ (sign :: (List.replicate m ' ' ++ (ds ++ ')' :: t))))) = true :=
        List.isPrefixOf_iff_prefix.2 ⟨_, rfl⟩
      have hd : ∀ s : Str, ("%(line".toList ++ s).drop 6 = s := fun _ => rfl
      rw [e, if_pos hp]
      simp only [hd]
      have hsp : sign ≠ ' ' := by rcases hs with rfl | rfl <;> decide
      have hpa : sign ≠ ')' := by rcases hs with rfl | rfl <;> decide
      have h1 : (List.replicate k ' ' ++ (sign :: (List.replicate m ' ' ++ (ds ++ ')' :: t)))).head? ≠ some ')' := by
        cases k with
        | zero => simpa using hpa
        | succ k => simp [List.replicate_succ]
      rw [if_neg h1, dropWhile_spaces _ _ (by simpa using hsp)]
      simp only [List.head?_cons, Option.some.injEq, hs, if_true, List.tail_cons]
      have h2 : (ds ++ ')' :: t).head? ≠ some ' ' := by
        cases ds with
        | nil => exact absurd rfl hne
        | cons d ds =>
          simp only [List.cons_append, List.head?_cons, ne_eq, Option.some.injEq]
          rintro rfl
          have := hds ' ' (by simp)
          rw [hnd ' ' (by simp)] at this
          cases this
      simp only [dropWhile_spaces _ _ h2]
      obtain ⟨h3, h4⟩ := BParse.takeWhile_append_stop (p := nd) (w := ds) (r := ')' :: t) hds (by
        intro c r' h; injection h with h _; subst h; exact hnd _ (by simp))
      simp only [h3, h4]
      simp [hne]
    · unfold signOf
      rcases hs with rfl | rfl <;> rfl

theorem pushGo_skip (nd : Char → Bool) (line : Nat) (n : Nat) (s : Str) :
    pushLineNumbersGo nd line n s = pushLineNumbersGo nd line 0 (s.drop n) := by
  induction s generalizing n with
  | nil => cases n <;> simp [pushLineNumbersGo]
  | cons c s ih =>
    cases n with
    | zero => rfl
    | succ n => rw [pushLineNumbersGo, ih]; rfl

theorem lineVal_spec (line : Nat) (o : Option (Bool × Str)) :
    ((lineVal line o).2 = [] ∧ RefersTo line (signOf o) (some (lineVal line o).1)) ∨
    ((lineVal line o).2 = [.invalidLineSubstitution] ∧ RefersTo line (signOf o) none) := by
  cases o with
  | none => exact Or.inl ⟨rfl, .here⟩
  | some x =>
    obtain ⟨neg, ds⟩ := x
    cases hp : parseUsize ds with
    | none =>
      right
      refine ⟨by simp [lineVal, hp], .bad _ _ fun n hn => ?_⟩
      rw [← C44_usize, hp] at hn
      cases hn
    | some n =>
      left
      have hu := (C44_usize ds n).1 hp
      refine ⟨by simp [lineVal, hp], ?_⟩
      cases neg
      · simpa [lineVal, hp, signOf] using RefersTo.plus (line := line) ds n hu
      · simpa [lineVal, hp, signOf] using RefersTo.minus (line := line) ds n hu

theorem lineRef_pos {nd : Char → Bool} {r : Str} {o : Option (Char × Str)} (h : LineRef nd r o) : 0 < r.length := by
  cases h with
  | here => decide
  | offset => simp

/-- C44: the references to line numbers in a directive are replaced by the lines they are about, and each one that
cannot be read is reported. Spaces and parentheses are no digits. -/
theorem C44_line_references (nd : Char → Bool) (hnd : ∀ c ∈ [' ', ')'], nd c = false) (line : Nat) (s : Str) :
    Expanded nd line s (expand nd s line).1 (expand nd s line).2.length ∧
      ∀ e ∈ (expand nd s line).2, e = .invalidLineSubstitution := by
  unfold expand pushLineNumbers
  induction hn : s.length using Nat.strong_induction_on generalizing s with
  | _ m ih =>
    cases s with
    | nil => rw [pushLineNumbersGo]; exact ⟨.nil, by simp⟩
    | cons c s =>
      rw [pushLineNumbersGo]
      cases hr : lineRef nd (c :: s) with
      | none =>
        obtain ⟨h1, h2⟩ := ih s.length (by rw [← hn]; simp) s rfl
        refine ⟨.char c s _ _ (fun r o t h e => ?_) h1, h2⟩
        obtain ⟨o', ho, _⟩ := lineRef_complete nd hnd r t o h
        rw [← e, hr] at ho
        cases ho
      | some x =>
        obtain ⟨o, t⟩ := x
        obtain ⟨r, hr1, hr2⟩ := lineRef_sound nd _ t o hr
        have hrl := lineRef_pos hr1
        have hlen := congrArg List.length hr2
        rw [List.length_cons, List.length_append] at hlen
        have hskip : s.drop (s.length - t.length) = t := by
          cases r with
          | nil => simp at hrl
          | cons x r =>
            injection hr2 with _ hs
            rw [hs]
            simp
        obtain ⟨h1, h2⟩ := ih t.length (by rw [← hn, List.length_cons]; omega) t rfl
        simp only [Option.elim_some, pushGo_skip nd line (s.length - t.length) s, hskip]
        rw [hr2]
        rcases lineVal_spec line o with ⟨e1, e2⟩ | ⟨e1, e2⟩
        · rw [e1, List.nil_append]
          exact ⟨.ref r t _ _ _ _ hr1 e2 h1, h2⟩
        · rw [e1]
          refine ⟨?_, fun e he => ?_⟩
          · have := Expanded.bad r t _ _ _ hr1 e2 h1 (lineVal line o).1
            rw [List.length_append, Nat.add_comm]
            exact this
          · rcases List.mem_append.1 he with he | he
            · simpa using he
            · exact h2 e he

/-! ## Examples and refutations -/

/-- The ASCII digits. -/
def asciiDigit (c : Char) : Bool := '0' ≤ c && c ≤ '9'

/-- A script with most kinds of directives parses to what it says; what follows `END.` is left out. -/
example : parse BSpec.anyRx asciiDigit
    "// DEFINE: %{cmd} = tool \\\n// DEFINE:   --flag\n// REQUIRES: a, b && c\n// RUN: %{cmd} %(line+1) | \\\r\n// RUN:   check %s \n// ALLOWED_RETRIES: 3\n// END.\n// RUN: never\n".toList =
    .ok ⟨[.subst ⟨1, "%{cmd}".toList, "tool  --flag".toList, false⟩,
      .run ⟨4, "%{cmd} 5 | \\\n   check %s".toList⟩], [],
      [.var "a".toList, .and (.var "b".toList) (.var "c".toList)], [], some 3⟩ := by
  decide +kernel

/-- Several problems are all reported. -/
example : parse BSpec.anyRx asciiDigit "DEFINE: x = y\nALLOWED_RETRIES: two\n".toList =
    .error [.invalidSubstitution (.invalidKey "x".toList), .invalidInteger .allowedRetries, .missingRun] := by
  decide +kernel

/-- C44 refuted: a definition without a value is dropped without a word. -/
theorem C44_define_refuted : parse BSpec.anyRx asciiDigit "DEFINE: %{cmd} tool\nRUN: %{cmd}\n".toList =
    .ok ⟨[.run ⟨2, "%{cmd}".toList⟩], [], [], [], none⟩ := by
  decide +kernel

/-- C44 refuted: a command that goes on in a line that does not exist is accepted. -/
theorem C44_continuation_refuted : parse BSpec.anyRx asciiDigit "RUN: tool \\\n".toList =
    .ok ⟨[.run ⟨1, "tool ".toList⟩], [], [], [], none⟩ := by
  decide +kernel

/-- C44 refuted: in a last line without a line feed, `%(line)` is the line before. -/
theorem C44_last_line_refuted : parse BSpec.anyRx asciiDigit "RUN: a\nRUN: echo %(line)".toList =
    .ok ⟨[.run ⟨1, "a".toList⟩, .run ⟨1, "echo 1".toList⟩], [], [], [], none⟩ := by
  decide +kernel

/-- C44 refuted: a comma inside a regular expression splits a list of features. -/
theorem C44_comma_refuted : parse BSpec.anyRx asciiDigit "REQUIRES: {{a{1,2}}}\nRUN: x\n".toList ≠
    parse BSpec.anyRx asciiDigit "REQUIRES: {{aa?}}\nRUN: x\n".toList := by
  decide +kernel

/-- The hypotheses of `C44_end` hold of an ordinary script. -/
example (b : Str) : parse BSpec.anyRx asciiDigit ("RUN: x\n".toList ++ "END. ".toList ++ ['\n'] ++ b) =
    .ok ⟨[.run ⟨1, "x".toList⟩], [], [], [], none⟩ := by
  rw [C44_end BSpec.anyRx asciiDigit "RUN: x\n".toList "END. ".toList [' '] b (Or.inr (by decide))
    [("RUN: x".toList, 1)] ((lines_iff _ _).2 (by decide +kernel)) (by simp [Continues]) (by decide)
    ⟨[], by decide, fun _ _ _ _ => Nat.zero_le _⟩ (by intro c hc; rw [List.mem_singleton.1 hc]; decide)]
  decide +kernel

end Litcheck
