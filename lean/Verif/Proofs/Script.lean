import Verif.Spec.Script
import Verif.Proofs.Substitutions

/-!
# Lemmas about test scripts
-/

namespace Litcheck.Script

open ScriptSpec

/-! ## Keywords -/

theorem text_ne_nil (k : DirKind) : k.text ≠ [] := by cases k <;> decide

theorem mem_all (k : DirKind) : k ∈ DirKind.all := by cases k <;> decide

theorem no_prefix (k k' : DirKind) (h : k.text <+: k'.text) : k = k' := by
  cases k <;> cases k' <;> first | rfl | (exfalso; revert h; decide)

theorem keywordAt_iff (s : Str) (k : DirKind) : keywordAt s = some k ↔ k.text <+: s := by
  unfold keywordAt
  constructor
  · intro h
    have := List.find?_some h
    exact List.isPrefixOf_iff_prefix.1 this
  · intro h
    cases hf : DirKind.all.find? (fun k => k.text.isPrefixOf s) with
    | none =>
      exfalso
      have := List.find?_eq_none.1 hf k (mem_all k)
      exact this (List.isPrefixOf_iff_prefix.2 h)
    | some k' =>
      have h0 := List.find?_some hf
      have h' : k'.text <+: s := List.isPrefixOf_iff_prefix.1 h0
      congr 1
      rcases List.prefix_or_prefix_of_prefix h h' with h | h
      · exact (no_prefix _ _ h).symm
      · exact no_prefix _ _ h

theorem keywordAt_none (s : Str) : keywordAt s = none ↔ ∀ k, ¬DirKind.text k <+: s := by
  rw [Option.eq_none_iff_forall_ne_some]
  exact forall_congr' fun k => not_congr (keywordAt_iff s k)

theorem keyword_unique {l : Str} {k k' : DirKind} {c c' : Str} (h : Keyword l k c) (h' : Keyword l k' c') :
    k = k' ∧ c = c' := by
  obtain ⟨b, e, m⟩ := h
  obtain ⟨b', e', m'⟩ := h'
  have hl : b.length = b'.length := Nat.le_antisymm (m _ _ _ e') (m' _ _ _ e)
  rw [e, List.append_assoc, List.append_assoc] at e'
  obtain ⟨_, e2⟩ := List.append_inj e' hl
  have hk : k = k' := by
    have h1 : k.text <+: k'.text ++ c' := ⟨c, e2⟩
    have h2 : k'.text <+: k'.text ++ c' := ⟨c', rfl⟩
    rcases List.prefix_or_prefix_of_prefix h1 h2 with h | h
    · exact no_prefix _ _ h
    · exact (no_prefix _ _ h).symm
  subst hk
  exact ⟨rfl, List.append_cancel_left e2⟩

theorem keyword_nil (k : DirKind) (c : Str) : ¬Keyword [] k c := by
  rintro ⟨b, e, _⟩
  have := congrArg List.length e
  have h := text_ne_nil k
  rw [List.length_append, List.length_append] at this
  have h2 := List.length_pos_iff.2 h
  rw [List.length_nil] at this
  omega

theorem keyword_cons_here {x : Char} {l c : Str} {k : DirKind} (h : x :: l = k.text ++ c) : Keyword (x :: l) k c :=
  ⟨[], by simpa using h, fun _ _ _ _ => Nat.zero_le _⟩

theorem keyword_cons_later {x : Char} {l : Str} (h : ∀ k, ¬DirKind.text k <+: x :: l) (k : DirKind) (c : Str) :
    Keyword (x :: l) k c ↔ Keyword l k c := by
  constructor
  · rintro ⟨b, e, m⟩
    cases b with
    | nil => exact absurd ⟨c, by simpa using e.symm⟩ (h k)
    | cons y b =>
      injection e with e1 e2
      refine ⟨b, e2, fun b' k' c' e' => ?_⟩
      have := m (x :: b') k' c' (by simp [e'])
      simpa using this
  · rintro ⟨b, e, m⟩
    refine ⟨x :: b, by simp [e], fun b' k' c' e' => ?_⟩
    cases b' with
    | nil => exact absurd ⟨c', by simpa using e'.symm⟩ (h k')
    | cons y b' =>
      injection e' with e1 e2
      have := m b' k' c' e2
      simpa using this

theorem rawDirective_iff (l : Str) (k : DirKind) (c : Str) : rawDirective l = some (k, c) ↔ Keyword l k c := by
  induction l with
  | nil =>
    rw [rawDirective]
    exact iff_of_false (by simp) (keyword_nil k c)
  | cons x l ih =>
    rw [rawDirective]
    cases hk : keywordAt (x :: l) with
    | some k' =>
      rw [keywordAt_iff] at hk
      obtain ⟨c', hc⟩ := hk
      simp only [Option.map_some, Option.some_or, Option.some.injEq, Prod.mk.injEq]
      have hd : (x :: l).drop k'.text.length = c' := by rw [← hc]; simp
      rw [hd]
      have hK : Keyword (x :: l) k' c' := keyword_cons_here hc.symm
      constructor
      · rintro ⟨rfl, rfl⟩; exact hK
      · intro h; exact keyword_unique hK h
    | none =>
      rw [keywordAt_none] at hk
      rw [keyword_cons_later hk, ← ih]
      simp

theorem rawDirective_none (l : Str) : rawDirective l = none ↔ ∀ k c, ¬Keyword l k c := by
  rw [Option.eq_none_iff_forall_ne_some]
  constructor
  · intro h k c hk
    exact h (k, c) ((rawDirective_iff l k c).2 hk)
  · rintro h ⟨k, c⟩ hk
    exact h k c ((rawDirective_iff l k c).1 hk)

/-! ## White space -/

theorem trimEnd_eq_self {s : Str} (h : ∀ c, s.getLast? = some c → BParse.isWs c = false) : trimEnd s = s := by
  unfold trimEnd
  cases hr : s.reverse with
  | nil => simp at hr; simp [hr]
  | cons c r =>
    have : BParse.isWs c = false := h c (by rw [← List.head?_reverse, hr]; rfl)
    rw [List.dropWhile_cons, this]
    simp [← hr]

theorem trimEnd_last {s : Str} {c : Char} (h : (trimEnd s).getLast? = some c) : BParse.isWs c = false := by
  unfold trimEnd at h
  rw [List.getLast?_reverse] at h
  have := List.head?_dropWhile_not BParse.isWs s.reverse
  rw [h] at this
  simpa using this

theorem trimStart_last {s : Str} {c : Char} (h : (trimStart s).getLast? = some c) : s.getLast? = some c := by
  have e : s = s.takeWhile BParse.isWs ++ trimStart s := (List.takeWhile_append_dropWhile).symm
  rw [e, List.getLast?_append, h]
  rfl

/-- Trimming both ends of text without white space at its end. -/
theorem trim_trimEnd (s : Str) : trim (trimEnd s) = trimStart (trimEnd s) := by
  unfold trim
  exact trimEnd_eq_self fun c h => trimEnd_last (trimStart_last h)

theorem dropWhile_nil_iff {p : Char → Bool} {s : Str} : s.dropWhile p = [] ↔ ∀ c ∈ s, p c = true := by
  induction s with
  | nil => simp
  | cons c s ih =>
    rw [List.dropWhile_cons]
    by_cases h : p c = true
    · simp [h, ih]
    · simp [h]

theorem trim_empty (s : Str) : (trim s).isEmpty = true ↔ Blank s := by
  unfold trim trimEnd trimStart Blank
  rw [List.isEmpty_iff, List.reverse_eq_nil_iff, dropWhile_nil_iff]
  constructor
  · intro h
    have h1 : s.dropWhile BParse.isWs = [] := by
      cases hd : s.dropWhile BParse.isWs with
      | nil => rfl
      | cons c cs =>
        exfalso
        have h2 := List.head?_dropWhile_not BParse.isWs s
        rw [hd] at h2
        have h3 := h c (by rw [hd]; simp)
        simp at h2
        rw [h3] at h2
        cases h2
    exact dropWhile_nil_iff.1 h1
  · intro h c hc
    rw [dropWhile_nil_iff.2 h] at hc
    simp at hc

theorem stripSuffix_some (s : Str) : (stripSuffix '\\' s).isSome = true ↔ Continues s := by
  unfold stripSuffix Continues
  split <;> simp_all

theorem stripSuffix_body (s : Str) : (stripSuffix '\\' s).getD (trimEnd s) = body s := by
  unfold stripSuffix body
  split <;> rfl

theorem cont_rest_body (collapse : Bool) (s : Str) :
    (stripSuffix '\\' s).elim (if collapse then trimStart (trimEnd s) else trimEnd s)
      (fun s => if collapse then trim s else s) = if collapse then trim (body s) else body s := by
  unfold stripSuffix body
  split
  · rfl
  · cases collapse
    · rfl
    · simp [trim_trimEnd]

/-! ## Substitution names -/

theorem char_iff (p : Char → Bool) (l : List Char) (small : ∀ n : Fin 128, p (Char.ofNat n) = true ↔ Char.ofNat n ∈ l)
    (hp : ∀ c, p c = true → c.toNat < 128) (hl : ∀ c ∈ l, c.toNat < 128) (c : Char) : p c = true ↔ c ∈ l := by
  by_cases h : c.toNat < 128
  · have := small ⟨c.toNat, h⟩
    simpa using this
  · exact iff_of_false (fun h' => h (hp c h')) fun h' => h (hl c h')

theorem alpha_small {c : Char} (h : isAsciiAlphabetic c = true) : c.toNat < 128 := by
  unfold isAsciiAlphabetic at h
  simp only [Bool.or_eq_true, Bool.and_eq_true, decide_eq_true_eq] at h
  rcases h with ⟨_, h⟩ | ⟨_, h⟩
  · exact Nat.lt_of_le_of_lt (show c.toNat ≤ 'z'.toNat from h) (by decide)
  · exact Nat.lt_of_le_of_lt (show c.toNat ≤ 'Z'.toNat from h) (by decide)

theorem alnum_small {c : Char} (h : isAsciiAlphanumeric c = true) : c.toNat < 128 := by
  unfold isAsciiAlphanumeric at h
  simp only [Bool.or_eq_true, Bool.and_eq_true, decide_eq_true_eq] at h
  rcases h with h | ⟨_, h⟩
  · exact alpha_small h
  · exact Nat.lt_of_le_of_lt (show c.toNat ≤ '9'.toNat from h) (by decide)

theorem alpha_iff (c : Char) : (c == '_' || isAsciiAlphabetic c) = true ↔
    c ∈ "_abcdefghijklmnopqrstuvwxyzABCDEFGHIJKLMNOPQRSTUVWXYZ".toList := by
  refine char_iff (fun c => c == '_' || isAsciiAlphabetic c) _ (by decide +kernel) ?_ (by decide +kernel) c
  intro c h
  simp only [Bool.or_eq_true, beq_iff_eq] at h
  rcases h with rfl | h
  · decide
  · exact alpha_small h

theorem nameChar_iff (c : Char) : isNameChar c = true ↔
    c ∈ "-_:0123456789abcdefghijklmnopqrstuvwxyzABCDEFGHIJKLMNOPQRSTUVWXYZ".toList := by
  refine char_iff isNameChar _ (by decide +kernel) ?_ (by decide +kernel) c
  intro c h
  unfold isNameChar at h
  simp only [Bool.or_eq_true, beq_iff_eq] at h
  rcases h with ((rfl | rfl) | rfl) | h
  · decide
  · decide
  · decide
  · exact alnum_small h

theorem name_iff (s : Str) : isSubstName s = true ↔ Name s := by
  unfold isSubstName Name
  rw [Bool.and_eq_true, Bool.and_eq_true, List.isPrefixOf_iff_prefix, beq_iff_eq]
  constructor
  · rintro ⟨⟨⟨t, rfl⟩, hl⟩, hm⟩
    rw [show (['%', '{'] ++ t).drop 2 = t from rfl] at hm
    cases hd : t.dropLast with
    | nil => rw [hd] at hm; cases hm
    | cons c cs =>
      rw [hd] at hm
      simp only [Bool.and_eq_true, List.all_eq_true] at hm
      refine ⟨c, cs, ?_, (alpha_iff c).1 hm.1, fun x hx => (nameChar_iff x).1 (hm.2 x hx)⟩
      rw [← hd, List.append_assoc]
      congr 1
      have ht : t ≠ [] := by rintro rfl; cases hd
      have : t.getLast? = some '}' := by
        rw [List.getLast?_append] at hl
        cases hg : t.getLast? with
        | none => simp at hg; exact absurd hg ht
        | some x => rw [hg] at hl; exact hl
      obtain ⟨u, rfl⟩ := List.getLast?_eq_some_iff.1 this
      simp
  · rintro ⟨c, cs, rfl, hc, hcs⟩
    refine ⟨⟨⟨(c :: cs) ++ ['}'], by simp⟩, List.getLast?_concat⟩, ?_⟩
    rw [show (['%', '{'] ++ c :: cs ++ ['}']).drop 2 = (c :: cs) ++ ['}'] from rfl, List.dropLast_concat]
    simp only [Bool.and_eq_true, List.all_eq_true]
    exact ⟨(alpha_iff c).2 hc, fun x hx => (nameChar_iff x).2 (hcs x hx)⟩

/-! ## Continuation lines -/

theorem contLine_seg {l : Str} {n : Nat} {s : Seg} (h : SegOf l n s) (k : DirKind) :
    contLine k l = (s.text, keyProblem k s) ∧ s.line = n := by
  cases h with
  | keyed k' c hk =>
    refine ⟨?_, rfl⟩
    unfold contLine
    rw [(rawDirective_iff l k' c).2 hk]
    rfl
  | bare hn =>
    refine ⟨?_, rfl⟩
    unfold contLine
    rw [(rawDirective_none l).2 hn]
    rfl

/-- The text of a continuation line before line references are replaced. -/
def contBody (collapse : Bool) (s : Str) : Str := if collapse then trim (body s) else body s

theorem contText_eq (nd : Char → Bool) (collapse : Bool) (n : Nat) (s : Str) :
    contText nd collapse n s = ((if collapse then [' '] else ['\\', '\n']) ++ (expand nd (contBody collapse s) n).1,
      (expand nd (contBody collapse s) n).2) := by
  unfold contText
  simp only [cont_rest_body]
  rfl

theorem contLoop_eq (nd : Char → Bool) (k : DirKind) (collapse : Bool) {ls rest : List (Str × Nat)} {segs : List Seg}
    (h : Cont ls segs rest) : contLoop nd k collapse ls =
      (segs.flatMap fun s => (if collapse then [' '] else ['\\', '\n']) ++ (expand nd (contBody collapse s.text) s.line).1,
       segs.flatMap fun s => keyProblem k s ++ (expand nd (contBody collapse s.text) s.line).2, rest) := by
  induction h with
  | eof => rfl
  | last l n s rest hs hc =>
    obtain ⟨h1, h2⟩ := contLine_seg hs k
    have hc' : (stripSuffix '\\' s.text).isSome = false := by
      rw [Bool.eq_false_iff]; exact fun h => hc ((stripSuffix_some _).1 h)
    simp only [contLoop, h1, hc', contText_eq, ← h2]
    simp
  | more l n s ls rest segs hs hc _ ih =>
    obtain ⟨h1, h2⟩ := contLine_seg hs k
    have hc' : (stripSuffix '\\' s.text).isSome = true := (stripSuffix_some _).2 hc
    simp only [contLoop, h1, hc', contText_eq, ← h2, ih]
    simp

theorem intercalate_cons (sep a : Str) (l : List Str) : sep.intercalate (a :: l) = a ++ l.flatMap (sep ++ ·) := by
  induction l generalizing a with
  | nil => simp [List.intercalate]
  | cons b l ih => 
    rw [List.flatMap_cons, ← List.append_assoc, List.append_assoc, List.append_assoc, ← ih b]
    simp [List.intercalate]

/-- What `parseLine` yields, for both ways of joining. -/
theorem parseLine_more (nd : Char → Bool) (k : DirKind) (c : Str) (n : Nat) (collapse : Bool) {ls rest : List (Str × Nat)}
    {segs : List Seg} (hc : Continues c) (h : Cont ls segs rest) : parseLine nd k c n collapse ls =
      ((if collapse then [' '] else ['\\', '\n']).intercalate ((expand nd (trimStart (body c)) n).1 ::
          segs.map fun s => (expand nd (contBody collapse s.text) s.line).1),
       (expand nd (trimStart (body c)) n).2 ++
         (segs.flatMap fun s => keyProblem k s ++ (expand nd (contBody collapse s.text) s.line).2), rest) := by
  unfold parseLine
  simp only [(stripSuffix_some _).2 hc, stripSuffix_body, contLoop_eq nd k collapse h, intercalate_cons]
  simp [List.flatMap_map]

theorem parseLine_one (nd : Char → Bool) (k : DirKind) (c : Str) (n : Nat) (collapse : Bool) (ls : List (Str × Nat))
    (hc : ¬Continues c) : parseLine nd k c n collapse ls =
      ((expand nd (trimStart (body c)) n).1, (expand nd (trimStart (body c)) n).2, ls) := by
  have hc' : (stripSuffix '\\' c).isSome = false := by
    rw [Bool.eq_false_iff]; exact fun h => hc ((stripSuffix_some _).1 h)
  unfold parseLine
  simp only [hc', stripSuffix_body]
  rfl

/-! ## Directives -/

variable (rx : Rx) (nd : Char → Bool)

theorem retries_snoc (es : List Dir) (d : Dir) :
    retries (es ++ [d]) = (retries es).or (if d.kind = .allowedRetries then retriesOf d else none) := by
  unfold retries
  rw [List.filter_append, List.findSome?_append]
  by_cases h : d.kind = .allowedRetries
  · simp [h]
  · simp [h]

theorem problems_append (es ds ds' : List Dir) :
    problems rx nd es (ds ++ ds') = problems rx nd es ds ++ problems rx nd (es ++ ds) ds' := by
  induction ds generalizing es with
  | nil => simp [problems]
  | cons d ds ih => simp [problems, ih]

/-- Adding a directive that is not about features or retries. -/
theorem meaning_cmd (es : List Dir) (d : Dir) (h : Multi d.kind) :
    meaning rx nd (es ++ [d]) = { meaning rx nd es with
      commands := (meaning rx nd es).commands ++ (commandOf nd d).toList } := by
  unfold meaning
  have h1 : (d.kind == .xfail) = false := by rw [beq_eq_false_iff_ne]; rintro h'; rw [h'] at h; exact h
  have h2 : (d.kind == .requires) = false := by rw [beq_eq_false_iff_ne]; rintro h'; rw [h'] at h; exact h
  have h3 : (d.kind == .unsupported) = false := by rw [beq_eq_false_iff_ne]; rintro h'; rw [h'] at h; exact h
  have h4 : d.kind ≠ .allowedRetries := by rintro h'; rw [h'] at h; exact h
  simp only [List.filter_append, List.filterMap_append, retries_snoc, List.filter, h1, h2, h3, h4, if_false]
  cases hc : commandOf nd d <;> simp [List.filterMap, hc]

theorem commandOf_bool (d : Dir) (h : ¬Multi d.kind) : commandOf nd d = none := by
  unfold commandOf
  cases hk : d.kind <;> simp_all [Multi]

theorem bools_eq (k : DirKind) (ss : List Str) : ∀ (st : St),
    ss.foldl (St.bool rx k) st =
      ⟨((ss.map (parseBool rx)).filterMap Except.toOption).foldl (fun s e => (St.store ⟨s, []⟩ k e).script) st.script,
       st.errors ++ (ss.map (parseBool rx)).filterMap (fun | .ok _ => none | .error e => some (.invalidBooleanExpr e))⟩ := by
  induction ss with
  | nil => simp
  | cons s ss ih =>
    intro st
    rw [List.foldl_cons, ih]
    unfold St.bool
    cases hp : parseBool rx s with
    | ok e => simp [hp, Except.toOption, St.store]
    | error e =>
      simp only [List.map_cons, hp, List.filterMap_cons, Except.toOption, St.fail]
      simp

theorem goodExprs_eq (d : Dir) :
    goodExprs rx d = ((splitCommas d.head.text).map (parseBool rx)).filterMap Except.toOption := by
  unfold goodExprs exprs parseBool
  congr 1
  funext e
  cases e <;> rfl

theorem badExprs_eq (d : Dir) : badExprs rx d = ((splitCommas d.head.text).map (parseBool rx)).filterMap
    (fun | .ok _ => none | .error e => some (.invalidBooleanExpr e)) := by
  unfold badExprs exprs parseBool
  rfl

theorem store_requires (es : List BExpr) (s : TestScript) :
    es.foldl (fun s e => (St.store ⟨s, []⟩ .requires e).script) s = { s with requires := s.requires ++ es } := by
  induction es generalizing s with
  | nil => simp
  | cons e es ih => rw [List.foldl_cons, ih]; simp [St.store]

theorem store_unsupported (es : List BExpr) (s : TestScript) :
    es.foldl (fun s e => (St.store ⟨s, []⟩ .unsupported e).script) s = { s with unsupported := s.unsupported ++ es } := by
  induction es generalizing s with
  | nil => simp
  | cons e es ih => rw [List.foldl_cons, ih]; simp [St.store]

theorem store_xfail (es : List BExpr) (s : TestScript) :
    es.foldl (fun s e => (St.store ⟨s, []⟩ .xfail e).script) s = { s with xfails := s.xfails ++ es } := by
  induction es generalizing s with
  | nil => simp
  | cons e es ih => rw [List.foldl_cons, ih]; simp [St.store]

/-- A directive about features. -/
theorem step_bools (es : List Dir) (d : Dir) (E : List ScriptErr)
    (hk : d.kind = .requires ∨ d.kind = .unsupported ∨ d.kind = .xfail) :
    St.bools rx d.kind ⟨meaning rx nd es, E⟩ d.head.text =
      ⟨meaning rx nd (es ++ [d]), E ++ problemsOf rx nd (retries es).isSome d⟩ := by
  have hm : ¬Multi d.kind := by rcases hk with h | h | h <;> simp [h, Multi]
  have hr : d.kind ≠ .allowedRetries := by rcases hk with h | h | h <;> simp [h]
  unfold St.bools
  rw [bools_eq, ← goodExprs_eq, ← badExprs_eq]
  have hp : problemsOf rx nd (retries es).isSome d = badExprs rx d := by
    unfold problemsOf
    rcases hk with h | h | h <;> simp [h]
  rw [hp]
  congr 1
  rcases hk with h | h | h
  · rw [h, store_requires]
    unfold meaning
    simp [retries_snoc, commandOf_bool nd d hm, h]
  · rw [h, store_unsupported]
    unfold meaning
    simp [retries_snoc, commandOf_bool nd d hm, h]
  · rw [h, store_xfail]
    unfold meaning
    simp [retries_snoc, commandOf_bool nd d hm, h]

/-- A directive about retries. -/
theorem step_int (es : List Dir) (d : Dir) (E : List ScriptErr) (hk : d.kind = .allowedRetries) :
    St.int ⟨meaning rx nd es, E⟩ d.head.text =
      ⟨meaning rx nd (es ++ [d]), E ++ problemsOf rx nd (retries es).isSome d⟩ := by
  have hm : ¬Multi d.kind := by simp [hk, Multi]
  have hM : meaning rx nd (es ++ [d]) = { meaning rx nd es with allowedRetries := (retries es).or (retriesOf d) } := by
    unfold meaning
    simp [retries_snoc, commandOf_bool nd d hm, hk]
  rw [hM]
  unfold St.int problemsOf
  have hR : (meaning rx nd es).allowedRetries = retries es := rfl
  simp only [hR, hk]
  cases hr : retries es with
  | some r =>
    simp only [Option.isSome_some, if_true, St.fail, Option.some_or]
    rw [show meaning rx nd es = { meaning rx nd es with allowedRetries := some r } by rw [← hr]; rfl]
  | none =>
    simp only [Option.isSome_none, Bool.false_eq_true, if_false, Option.none_or]
    have : parseUsize (trim d.head.text) = retriesOf d := rfl
    rw [this]
    cases hd : retriesOf d with
    | none =>
      simp only [Option.elim, St.fail, Option.isNone_none, if_true]
      rw [show meaning rx nd es = { meaning rx nd es with allowedRetries := none } by rw [← hr]; rfl]
    | some r => simp

/-- The commands of the directives of more than one line. -/
theorem step_run (es : List Dir) (d : Dir) (E : List ScriptErr) (hk : d.kind = .run) :
    (St.fail ⟨meaning rx nd es, E⟩ (lineProblems nd d)).push (.run ⟨d.head.line, command nd d⟩) =
      ⟨meaning rx nd (es ++ [d]), E ++ problemsOf rx nd (retries es).isSome d⟩ := by
  rw [meaning_cmd rx nd es d (by simp [hk, Multi])]
  simp [St.fail, St.push, problemsOf, commandOf, hk]

theorem step_subst (es : List Dir) (d : Dir) (E : List ScriptErr) (hk : d.kind = .define ∨ d.kind = .redefine) :
    (St.fail ⟨meaning rx nd es, E⟩ (lineProblems nd d)).subst d.head.line (d.kind == .redefine) (definition nd d) =
      ⟨meaning rx nd (es ++ [d]), E ++ problemsOf rx nd (retries es).isSome d⟩ := by
  have hM : Multi d.kind := by rcases hk with h | h <;> simp [h, Multi]
  rw [meaning_cmd rx nd es d hM]
  have hC : commandOf nd d = (keyValue (definition nd d)).bind fun kv =>
      if Name kv.1 then some (.subst ⟨d.head.line, kv.1, kv.2, d.kind == .redefine⟩) else none := by
    unfold commandOf
    rcases hk with h | h <;> simp only [h]
  have hP : problemsOf rx nd (retries es).isSome d = lineProblems nd d ++
      ((keyValue (definition nd d)).toList.flatMap fun kv =>
        if Name kv.1 then [] else [.invalidSubstitution (.invalidKey kv.1)]) := by
    unfold problemsOf
    rcases hk with h | h <;> simp only [h]
  rw [hC, hP]
  unfold St.subst keyValue
  cases hs : splitOnce '=' (definition nd d) with
  | none => simp [St.fail]
  | some kv =>
    simp only [Option.elim_some, Option.map_some, newSubst, Option.bind_some]
    by_cases hn : Name (trim kv.1)
    · simp [(name_iff _).2 hn, hn, St.push, St.fail]
    · have : isSubstName (trim kv.1) = false := by
        rw [Bool.eq_false_iff]; exact fun h => hn ((name_iff _).1 h)
      simp [this, hn, St.fail]

theorem parse_run (c : Str) (n : Nat) (k : DirKind) (ls rest : List (Str × Nat)) (segs : List Seg)
    (h : Continues c ∧ Cont ls segs rest ∨ ¬Continues c ∧ segs = [] ∧ rest = ls) :
    parseLine nd .run c n false ls = (command nd ⟨.run, ⟨c, n, some k⟩, segs⟩,
      lineProblems nd ⟨.run, ⟨c, n, some k⟩, segs⟩, rest) := by
  rcases h with ⟨hc, h⟩ | ⟨hc, rfl, rfl⟩
  · rw [parseLine_more nd .run c n false hc h]
    rfl
  · rw [parseLine_one nd .run c n false rest hc]
    simp [command, lineProblems, headText, intercalate_cons]

theorem parse_def (c : Str) (n : Nat) (kd k : DirKind) (hk : kd ≠ .run) (ls rest : List (Str × Nat)) (segs : List Seg)
    (h : Continues c ∧ Cont ls segs rest ∨ ¬Continues c ∧ segs = [] ∧ rest = ls) :
    parseLine nd kd c n true ls = (definition nd ⟨kd, ⟨c, n, some k⟩, segs⟩,
      lineProblems nd ⟨kd, ⟨c, n, some k⟩, segs⟩, rest) := by
  rcases h with ⟨hc, h⟩ | ⟨hc, rfl, rfl⟩
  · rw [parseLine_more nd kd c n true hc h]
    simp only [definition, lineProblems, headText, hk, if_false, contBody, if_true]
  · rw [parseLine_one nd kd c n true rest hc]
    simp [definition, lineProblems, headText, intercalate_cons]

theorem cont_length {ls rest : List (Str × Nat)} {segs : List Seg} (h : Cont ls segs rest) :
    rest.length ≤ ls.length := by
  induction h with
  | eof => exact Nat.le_refl _
  | last l n s rest _ _ => simp
  | more l n s ls rest segs _ _ _ ih => simp only [List.length_cons]; omega

/-- A directive is carried out. -/
theorem step_dir (fuel : Nat) (l c : Str) (k : DirKind) (n : Nat) (ls rest : List (Str × Nat)) (segs : List Seg)
    (es : List Dir) (E : List ScriptErr) (hk : Keyword l k c) (he : k ≠ .end_)
    (h : Multi k ∧ Continues c ∧ Cont ls segs rest ∨ (Multi k → ¬Continues c) ∧ segs = [] ∧ rest = ls) :
    loop rx nd (fuel + 1) ⟨meaning rx nd es, E⟩ ((l, n) :: ls) =
      loop rx nd fuel ⟨meaning rx nd (es ++ [⟨k, ⟨c, n, some k⟩, segs⟩]),
        E ++ problemsOf rx nd (retries es).isSome ⟨k, ⟨c, n, some k⟩, segs⟩⟩ rest := by
  rw [loop, (rawDirective_iff l k c).2 hk]
  have hh : Multi k → (Continues c ∧ Cont ls segs rest ∨ ¬Continues c ∧ segs = [] ∧ rest = ls) := by
    intro hm
    rcases h with h | h
    · exact Or.inl h.2
    · exact Or.inr ⟨h.1 hm, h.2⟩
  cases k with
  | end_ => exact absurd rfl he
  | run =>
    simp only [parse_run nd c n .run ls rest segs (hh trivial)]
    rw [← step_run rx nd es ⟨.run, ⟨c, n, some .run⟩, segs⟩ E rfl]
  | define =>
    simp only [parse_def nd c n .define .define (by decide) ls rest segs (hh trivial)]
    rw [← step_subst rx nd es ⟨.define, ⟨c, n, some .define⟩, segs⟩ E (Or.inl rfl)]
    rfl
  | redefine =>
    simp only [parse_def nd c n .redefine .redefine (by decide) ls rest segs (hh trivial)]
    rw [← step_subst rx nd es ⟨.redefine, ⟨c, n, some .redefine⟩, segs⟩ E (Or.inr rfl)]
    rfl
  | allowedRetries =>
    rcases h with h | ⟨_, rfl, rfl⟩
    · exact h.1.elim
    · rw [← step_int rx nd es ⟨.allowedRetries, ⟨c, n, some .allowedRetries⟩, []⟩ E rfl]
  | requires =>
    rcases h with h | ⟨_, rfl, rfl⟩
    · exact h.1.elim
    · rw [← step_bools rx nd es ⟨.requires, ⟨c, n, some .requires⟩, []⟩ E (Or.inl rfl)]
  | unsupported =>
    rcases h with h | ⟨_, rfl, rfl⟩
    · exact h.1.elim
    · rw [← step_bools rx nd es ⟨.unsupported, ⟨c, n, some .unsupported⟩, []⟩ E (Or.inr (Or.inl rfl))]
  | xfail =>
    rcases h with h | ⟨_, rfl, rfl⟩
    · exact h.1.elim
    · rw [← step_bools rx nd es ⟨.xfail, ⟨c, n, some .xfail⟩, []⟩ E (Or.inr (Or.inr rfl))]

theorem loop_eq {ls : List (Str × Nat)} {ds : List Dir} (h : Directives ls ds) : ∀ (fuel : Nat) (es : List Dir)
    (E : List ScriptErr), ls.length ≤ fuel → loop rx nd fuel ⟨meaning rx nd es, E⟩ ls =
      ⟨meaning rx nd (es ++ ds), E ++ problems rx nd es ds⟩ := by
  induction h with
  | nil => intro fuel es E _; cases fuel <;> simp [loop, problems]
  | stop l c n ls hk hb =>
    intro fuel es E hf
    cases fuel with
    | zero => simp at hf
    | succ fuel =>
      rw [loop, (rawDirective_iff _ _ _).2 hk]
      simp [(trim_empty c).2 hb, problems]
  | notEnd l c n ls ds hk hb _ ih =>
    intro fuel es E hf
    cases fuel with
    | zero => simp at hf
    | succ fuel =>
      rw [loop, (rawDirective_iff _ _ _).2 hk]
      have : (trim c).isEmpty = false := by rw [Bool.eq_false_iff]; exact fun h => hb ((trim_empty c).1 h)
      simp only [this, Bool.false_eq_true, if_false]
      exact ih fuel es E (by simpa using hf)
  | plain l n ls ds hk _ ih =>
    intro fuel es E hf
    cases fuel with
    | zero => simp at hf
    | succ fuel =>
      rw [loop, (rawDirective_none _).2 hk]
      exact ih fuel es E (by simpa using hf)
  | one l c k n ls ds hk he hm _ ih =>
    intro fuel es E hf
    cases fuel with
    | zero => simp at hf
    | succ fuel =>
      rw [step_dir rx nd fuel l c k n ls ls [] es E hk he (Or.inr ⟨hm, rfl, rfl⟩),
        ih fuel _ _ (by simpa using hf)]
      simp [problems]
  | many l c k n ls rest segs ds hk hm hc hcont _ ih =>
    intro fuel es E hf
    cases fuel with
    | zero => simp at hf
    | succ fuel =>
      have he : k ≠ .end_ := by rintro rfl; exact hm
      have hl := cont_length hcont
      rw [step_dir rx nd fuel l c k n ls rest segs es E hk he (Or.inl ⟨hm, hc, hcont⟩),
        ih fuel _ _ (by simp only [List.length_cons] at hf; omega)]
      simp [problems]

/-! ## Every list of lines has directives -/

theorem seg_exists (l : Str) (n : Nat) : ∃ s, SegOf l n s := by
  cases h : rawDirective l with
  | none => exact ⟨_, .bare ((rawDirective_none l).1 h)⟩
  | some d => exact ⟨_, .keyed d.1 d.2 ((rawDirective_iff l d.1 d.2).1 h)⟩

theorem cont_exists (ls : List (Str × Nat)) : ∃ segs rest, Cont ls segs rest := by
  induction ls with
  | nil => exact ⟨_, _, .eof⟩
  | cons l ls ih =>
    obtain ⟨s, hs⟩ := seg_exists l.1 l.2
    by_cases hc : Continues s.text
    · obtain ⟨segs, rest, h⟩ := ih
      exact ⟨_, _, .more l.1 l.2 s ls rest segs hs hc h⟩
    · exact ⟨_, _, .last l.1 l.2 s ls hs hc⟩

theorem directives_exist (ls : List (Str × Nat)) : ∃ ds, Directives ls ds := by
  induction hn : ls.length using Nat.strong_induction_on generalizing ls with
  | _ m ih =>
    cases ls with
    | nil => exact ⟨_, .nil⟩
    | cons l ls =>
      simp only [List.length_cons] at hn
      obtain ⟨ds, hds⟩ := ih ls.length (by omega) ls rfl
      cases h : rawDirective l.1 with
      | none => exact ⟨_, .plain l.1 l.2 ls ds ((rawDirective_none _).1 h) hds⟩
      | some d =>
        have hk := (rawDirective_iff l.1 d.1 d.2).1 h
        by_cases he : d.1 = .end_
        · rw [he] at hk
          by_cases hb : Blank d.2
          · exact ⟨_, .stop l.1 d.2 l.2 ls hk hb⟩
          · exact ⟨_, .notEnd l.1 d.2 l.2 ls ds hk hb hds⟩
        · by_cases hm : Multi d.1 ∧ Continues d.2
          · obtain ⟨segs, rest, hc⟩ := cont_exists ls
            have hl := cont_length hc
            obtain ⟨ds', hds'⟩ := ih rest.length (by omega) rest rfl
            exact ⟨_, .many l.1 d.2 d.1 l.2 ls rest segs ds' hk hm.1 hm.2 hc hds'⟩
          · exact ⟨_, .one l.1 d.2 d.1 l.2 ls ds hk he (fun h1 h2 => hm ⟨h1, h2⟩) hds⟩

/-! ## Lines -/

theorem rawLines_nil_iff (s : Str) : rawLines s = [] ↔ s = [] := by
  cases s with
  | nil => simp [rawLines]
  | cons c s =>
    rw [rawLines]
    split
    · simp
    · cases h : (rawLines s).head? <;> simp

theorem rawLines_line (l s : Str) (h : '\n' ∉ l) : rawLines (l ++ ['\n'] ++ s) = (l, true) :: rawLines s := by
  induction l with
  | nil => simp [rawLines]
  | cons c l ih =>
    rw [List.mem_cons, not_or] at h
    rw [List.cons_append, List.cons_append, rawLines, if_neg (Ne.symm h.1), ih h.2]
    simp

theorem rawLines_last (l : Str) (h : '\n' ∉ l) (hl : l ≠ []) : rawLines l = [(l, false)] := by
  induction l with
  | nil => exact absurd rfl hl
  | cons c l ih =>
    rw [List.mem_cons, not_or] at h
    rw [rawLines, if_neg (Ne.symm h.1)]
    cases l with
    | nil => simp [rawLines]
    | cons d l => rw [ih h.2 (by simp)]; simp

theorem stripCr (l : Str) (h : l.getLast? ≠ some '\r') : (stripSuffix '\r' l).getD l = l := by
  unfold stripSuffix
  rw [if_neg h]; rfl

theorem stripCr' (l : Str) : (stripSuffix '\r' (l ++ ['\r'])).getD (l ++ ['\r']) = l := by
  unfold stripSuffix
  rw [if_pos (by simp)]; simp

theorem isLines_eq {n : Nat} {s : Str} {ls : List (Str × Nat)} (h : IsLines n s ls) : number n (rawLines s) = ls := by
  induction h with
  | nil n => simp [rawLines, number]
  | last n l h1 h2 h3 => rw [rawLines_last l h2 h1]; simp [number, stripCr l h3]
  | lastCr n l h1 =>
    rw [rawLines_last (l ++ ['\r']) (by simp [h1]) (by simp)]
    simp [number, stripCr' l]
  | line n l s ls h1 h2 _ ih =>
    rw [rawLines_line l s h1]
    simp [number, stripCr l h2, ih]
  | lineCr n l s ls h1 _ ih =>
    rw [show l ++ ['\r', '\n'] ++ s = (l ++ ['\r']) ++ ['\n'] ++ s by simp, rawLines_line (l ++ ['\r']) s (by simp [h1])]
    simp [number, stripCr' l, ih]

theorem isLines_exist (n : Nat) (s : Str) : ∃ ls, IsLines n s ls := by
  induction hn : s.length using Nat.strong_induction_on generalizing s n with
  | _ m ih =>
    by_cases hs : '\n' ∈ s
    · obtain ⟨l, t, rfl, hl⟩ := List.eq_append_cons_of_mem hs
      simp only [List.length_append, List.length_cons] at hn
      obtain ⟨ls, hls⟩ := ih t.length (by omega) (n + 1) t rfl
      by_cases hr : l.getLast? = some '\r'
      · obtain ⟨u, rfl⟩ := List.getLast?_eq_some_iff.1 hr
        refine ⟨(u, n + 1) :: ls, ?_⟩
        have := IsLines.lineCr n u t ls (fun h => hl (by simp [h])) hls
        simpa using this
      · refine ⟨(l, n + 1) :: ls, ?_⟩
        have := IsLines.line n l t ls hl hr hls
        simpa using this
    · by_cases hr : s.getLast? = some '\r'
      · obtain ⟨u, rfl⟩ := List.getLast?_eq_some_iff.1 hr
        exact ⟨_, .lastCr n u fun h => hs (by simp [h])⟩
      · cases s with
        | nil => exact ⟨_, .nil n⟩
        | cons c s => exact ⟨_, .last n _ (by simp) hs hr⟩

theorem lines_iff (s : Str) (ls : List (Str × Nat)) : IsLines 0 s ls ↔ lines s = ls := by
  constructor
  · exact isLines_eq
  · rintro rfl
    obtain ⟨ls, h⟩ := isLines_exist 0 s
    have := isLines_eq h
    unfold lines
    rw [this]
    exact h

end Litcheck.Script
