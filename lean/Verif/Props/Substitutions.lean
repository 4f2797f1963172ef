import Verif.Proofs.Substitutions

/-!
# C40, C41: substitutions
-/

namespace Litcheck

open SubSpec
open Scoped (MARKER PP)

/-! ## C40: lookup, overriding, DEFINE and REDEFINE -/

namespace SubSet

theorem get_insert (s : SubSet) (k v k' : Str) : (s.insert k v).get k' = if k = k' then some v else s.get k' := by
  induction s with
  | nil =>
    unfold insert get
    by_cases h : k = k' <;> simp [h]
  | cons e s ih =>
    obtain ⟨a, b⟩ := e
    rw [insert]
    by_cases h : a = k
    · subst h
      by_cases h' : a = k' <;> simp [get, h']
    · have : (a == k) = false := by simpa using h
      rw [this]
      by_cases h' : a = k'
      · subst h'
        simp [get, Ne.symm h]
      · have e1 : ∀ t : SubSet, get ((a, b) :: t) k' = get t k' := by
          intro t; simp [get, h']
        rw [if_neg (by simp), e1, e1, ih]

theorem get_extend (kvs : List (Str × Str)) : ∀ (s : SubSet) (k : Str), (s.extend kvs).get k = (lastOf k kvs).or (s.get k) := by
  induction kvs with
  | nil => intro s k; simp [extend, lastOf]
  | cons e kvs ih =>
    intro s k
    have : s.extend (e :: kvs) = (s.insert e.1 e.2).extend kvs := rfl
    rw [this, ih, get_insert]
    unfold lastOf
    rw [List.reverse_cons, List.find?_append]
    cases hf : kvs.reverse.find? (fun kv => kv.1 == k) with
    | some x => simp
    | none =>
      by_cases h : e.1 = k <;> simp [h]

theorem contains_iff (s : SubSet) (k : Str) : s.contains k = true ↔ s.get k ≠ none := by
  unfold contains get
  simp [List.find?_eq_none, List.any_eq_true]

/-- A key occurs once, as in every `IndexMap`. -/
def WF (s : SubSet) : Prop := (s.map (·.1)).Nodup

theorem keys_insert (s : SubSet) (k v : Str) : (s.insert k v).map (·.1) = if k ∈ s.map (·.1) then s.map (·.1) else s.map (·.1) ++ [k] := by
  induction s with
  | nil => simp [insert]
  | cons e s ih =>
    obtain ⟨a, b⟩ := e
    rw [insert]
    by_cases h : a = k
    · simp [h]
    · have : (a == k) = false := by simpa using h
      rw [this]
      simp only [Bool.false_eq_true, if_false, List.map_cons, ih, List.mem_cons, Ne.symm h, false_or]
      split <;> rfl

theorem wf_nil : WF [] := List.nodup_nil

theorem wf_insert {s : SubSet} (h : s.WF) (k v : Str) : (s.insert k v).WF := by
  unfold WF at *
  rw [keys_insert]
  split
  · exact h
  · rename_i hk
    exact List.nodup_append.2 ⟨h, List.nodup_singleton k, by
      intro a ha b hb e
      rw [List.mem_singleton] at hb
      subst hb; subst e
      exact hk ha⟩

theorem wf_extend (kvs : List (Str × Str)) : ∀ {s : SubSet}, s.WF → (s.extend kvs).WF := by
  induction kvs with
  | nil => intro s h; exact h
  | cons e kvs ih => intro s h; exact ih (wf_insert h e.1 e.2)

theorem mem_iff {s : SubSet} (h : s.WF) (k v : Str) : (k, v) ∈ s ↔ s.get k = some v := by
  induction s with
  | nil => simp [get]
  | cons e s ih =>
    obtain ⟨a, b⟩ := e
    unfold WF at h
    rw [List.map_cons, List.nodup_cons] at h
    have ih := ih h.2
    by_cases hk : a = k
    · subst hk
      have hn : ∀ w, (a, w) ∉ s := fun w hw => h.1 (List.mem_map.2 ⟨_, hw, rfl⟩)
      simp [get, hn, eq_comm]
    · have : get ((a, b) :: s) k = get s k := by simp [get, hk]
      rw [this, ← ih]
      simp [Ne.symm hk]

end SubSet

/-- C40, lookup: after any history of definitions in a test, a key has the value last given to it there, and
otherwise the value of the suite. -/
theorem C40_lookup (suite : SubSet) (defs : List (Str × Str)) (k : Str) :
    ((Scoped.new suite).extend defs).get k = (lastOf k defs).or (suite.get k) := by
  unfold Scoped.get Scoped.extend Scoped.new
  simp only
  rw [SubSet.get_extend]
  simp [SubSet.get]

/-- C40, overriding: a definition changes the value of its key and of nothing else. -/
theorem C40_override (s : Scoped) (k v k' : Str) : (s.insert k v).get k' = if k = k' then some v else s.get k' := by
  unfold Scoped.get Scoped.insert
  simp only
  rw [SubSet.get_insert]
  split <;> simp

/-- C40, what the commands are rewritten with: exactly the keys that are defined, each with the value it is looked
up with. -/
theorem C40_visible (s : Scoped) (hp : s.parent.WF) (hs : s.set.WF) (k v : Str) : (k, v) ∈ s.iter ↔ s.get k = some v := by
  unfold Scoped.iter Scoped.get
  rw [List.mem_append, SubSet.mem_iff hs]
  constructor
  · rintro (h | h)
    · obtain ⟨⟨a, b⟩, hm, he⟩ := List.mem_map.1 h
      injection he with e1 e2
      dsimp only at e1 e2
      subst e1
      rw [SubSet.mem_iff hp] at hm
      cases hg : s.set.get a with
      | none => rw [hg] at e2; simp [hm, ← e2]
      | some w => rw [hg] at e2; simp [← e2]
    · simp [h]
  · intro h
    cases hg : s.set.get k with
    | some w => right; rw [hg] at h; simpa using h
    | none =>
      left
      rw [hg] at h
      simp at h
      rw [← SubSet.mem_iff hp] at h
      exact List.mem_map.2 ⟨_, h, by simp [hg]⟩

theorem Scoped.contains_iff (s : Scoped) (k : Str) : s.contains k = true ↔ s.get k ≠ none := by
  unfold Scoped.contains Scoped.get
  rw [Bool.or_eq_true, SubSet.contains_iff, SubSet.contains_iff]
  cases s.set.get k <;> simp

theorem Scoped.iter_key (s : Scoped) (k : Str) : (∃ v, (k, v) ∈ s.iter) ↔ s.get k ≠ none := by
  rw [← Scoped.contains_iff]
  unfold Scoped.iter Scoped.contains SubSet.contains
  rw [Bool.or_eq_true, List.any_eq_true, List.any_eq_true]
  constructor
  · rintro ⟨v, h⟩
    rcases List.mem_append.1 h with h | h
    · obtain ⟨e, hm, he⟩ := List.mem_map.1 h
      injection he with e1 e2
      exact .inr ⟨e, hm, by simp [e1]⟩
    · exact .inl ⟨_, h, by simp⟩
  · rintro (⟨e, hm, he⟩ | ⟨e, hm, he⟩)
    · exact ⟨e.2, List.mem_append.2 (.inr (by simp at he; rw [← he]; exact hm))⟩
    · simp at he
      exact ⟨_, List.mem_append.2 (.inl (List.mem_map.2 ⟨e, hm, by rw [he]⟩))⟩

/-- C40, DEFINE: it succeeds exactly when the key is new, and then gives the key its value. -/
theorem C40_define (d : Subst) (hd : d.replace = false) (s s' : Scoped) :
    d.apply s = .ok s' ↔ s.get d.key = none ∧ s' = s.insert d.key d.value := by
  unfold Subst.apply Scoped.findMatching
  by_cases hc : s.get d.key = none
  · have : s.contains d.key = false := by
      rw [Bool.eq_false_iff, Ne, Scoped.contains_iff]; simp [hc]
    simp [this, hd, hc, eq_comm]
  · have : s.contains d.key = true := (Scoped.contains_iff _ _).2 hc
    rw [this]
    by_cases hf : s.iter.any (fun kv => kv.1 != d.key && occurs d.key kv.1) = true
    · simp [hf, hc]
    · simp [hf, hc, hd]

/-- C40, REDEFINE: it succeeds exactly when the key is defined and no other key contains it, and then gives the key its
value. -/
theorem C40_redefine (d : Subst) (hd : d.replace = true) (s s' : Scoped) :
    d.apply s = .ok s' ↔
      s.get d.key ≠ none ∧ (∀ k, s.get k ≠ none → k ≠ d.key → ¬∃ a b, k = a ++ d.key ++ b) ∧
      s' = s.insert d.key d.value := by
  unfold Subst.apply Scoped.findMatching
  by_cases hc : s.get d.key = none
  · have : s.contains d.key = false := by
      rw [Bool.eq_false_iff, Ne, Scoped.contains_iff]; simp [hc]
    simp [this, hd, hc]
  · have : s.contains d.key = true := (Scoped.contains_iff _ _).2 hc
    rw [this]
    by_cases hf : s.iter.any (fun kv => kv.1 != d.key && occurs d.key kv.1) = true
    · simp only [hf, Bool.not_true, Bool.false_eq_true, if_false, if_true, reduceCtorEq, false_iff, not_and]
      intro _ h
      exfalso
      obtain ⟨e, hm, he⟩ := List.any_eq_true.1 hf
      rw [Bool.and_eq_true, bne_iff_ne, occurs_iff] at he
      exact h e.1 ((Scoped.iter_key s e.1).1 ⟨e.2, hm⟩) he.1 he.2
    · have h : ∀ k, s.get k ≠ none → k ≠ d.key → ¬∃ a b, k = a ++ d.key ++ b := by
        intro k hk hne ho
        apply hf
        obtain ⟨v, hv⟩ := (Scoped.iter_key s k).2 hk
        rw [List.any_eq_true]
        refine ⟨_, hv, ?_⟩
        rw [Bool.and_eq_true, bne_iff_ne, occurs_iff]
        exact ⟨hne, ho⟩
      simp only [hf, hd, Bool.not_true, Bool.false_eq_true, if_false, if_true, Except.ok.injEq]
      exact ⟨fun e => ⟨hc, h, e.symm⟩, fun e => e.2.2.symm⟩

/-- C40, over a whole script: each command is rewritten with what the directives before it have defined, over what was
defined at the start; nothing that comes later matters to it. -/
theorem C40_script (rx : SubRx) (s s' : Scoped) (pre post cmds' : List Cmd) (r : RunCmd)
    (h : applySubstitutions rx s (pre ++ .run r :: post) = .ok (cmds', s')) :
    ∃ (seen : Scoped) (t : Str), cmds'[pre.length]? = some (.run { r with command := t }) ∧
      seen.apply rx r.command = .ok t ∧ ∀ k, seen.get k = (lastOf k (definitions pre)).or (s.get k) := by
  induction pre generalizing s cmds' with
  | nil =>
    rw [List.nil_append, applySubstitutions] at h
    obtain ⟨t, h1, h⟩ := BParse.bind_ok'.1 h
    obtain ⟨⟨cs, s2⟩, h2, h⟩ := BParse.bind_ok'.1 h
    injection h with h
    injection h with e1 e2
    subst e1
    refine ⟨s, t, rfl, h1, fun k => ?_⟩
    simp [definitions, lastOf]
  | cons c pre ih =>
    cases c with
    | run r' =>
      rw [List.cons_append, applySubstitutions] at h
      obtain ⟨t, h1, h⟩ := BParse.bind_ok'.1 h
      obtain ⟨⟨cs, s2⟩, h2, h⟩ := BParse.bind_ok'.1 h
      injection h with h
      injection h with e1 e2
      subst e1; subst e2
      obtain ⟨seen, t', a, b, c⟩ := ih s cs h2
      exact ⟨seen, t', by simpa using a, b, c⟩
    | subst d =>
      rw [List.cons_append, applySubstitutions] at h
      obtain ⟨s1, h1, h⟩ := BParse.bind_ok'.1 h
      obtain ⟨⟨cs, s2⟩, h2, h⟩ := BParse.bind_ok'.1 h
      injection h with h
      injection h with e1 e2
      subst e1; subst e2
      obtain ⟨seen, t', a, b, c⟩ := ih s1 cs h2
      refine ⟨seen, t', by simpa using a, b, fun k => ?_⟩
      have hs1 : s1 = s.insert d.key d.value := by
        cases hr : d.replace
        · exact ((C40_define d hr s s1).1 h1).2
        · exact ((C40_redefine d hr s s1).1 h1).2.2
      rw [c k, hs1, C40_override]
      have e : definitions (Cmd.subst d :: pre) = (d.key, d.value) :: definitions pre := rfl
      rw [e]
      unfold lastOf
      rw [List.reverse_cons, List.find?_append]
      cases hf : (definitions pre).reverse.find? (fun kv => kv.1 == k) with
      | some x => simp
      | none => by_cases hk : d.key = k <;> simp [hk]

/-- Witness: a suite with `%a`, a test that redefines it and defines `%b`. -/
example :
    let suite : SubSet := [("%a".toList, "1".toList), ("%c".toList, "3".toList)]
    let s := (Scoped.new suite).extend [("%a".toList, "x".toList), ("%b".toList, "y".toList)]
    s.get "%a".toList = some "x".toList ∧ s.get "%b".toList = some "y".toList ∧ s.get "%c".toList = some "3".toList ∧
    s.parent.WF ∧ s.set.WF ∧
    (Subst.mk 1 "%b".toList "z".toList true).apply s = .ok (s.insert "%b".toList "z".toList) ∧
    (Subst.mk 1 "%b".toList "z".toList false).apply s = .error (.alreadyExists "%b".toList) := by
  refine ⟨by decide +kernel, by decide +kernel, by decide +kernel, ?_, ?_, by decide +kernel, by decide +kernel⟩
  · unfold SubSet.WF; decide +kernel
  · unfold SubSet.WF; decide +kernel

/-! ## C41: escaped percent signs -/

theorem pieces_exist (text : Str) : ∃ ps, Pieces text ps := by
  induction hn : text.length using Nat.strong_induction_on generalizing text with
  | _ n ih =>
    by_cases hf : Free ['%', '%'] text
    · exact ⟨[text], by simp [intercalate_one], by simp, by simpa using hf, by simp⟩
    · obtain ⟨a, b, e, hm⟩ := exists_first text (by simp) hf
      obtain ⟨ps, h1, h2, h3, h4⟩ := ih b.length (by rw [← hn, e]; simp; omega) b rfl
      obtain ⟨q, ps, rfl⟩ := List.exists_cons_of_ne_nil h2
      refine ⟨a :: q :: ps, ?_, by simp, ?_, ?_⟩
      · rw [intercalate_two, ← h1, e]
      · intro p hp
        rcases List.mem_cons.1 hp with rfl | hp
        · rintro ⟨x, y, rfl⟩
          have := hm x (y ++ ['%', '%']) (by simp)
          simp at this
        · exact h3 p hp
      · intro p hp
        rw [List.dropLast_cons_of_ne_nil (by simp)] at hp
        rcases List.mem_cons.1 hp with rfl | hp
        · intro hl
          obtain ⟨x, rfl⟩ := List.getLast?_eq_some_iff.1 hl
          have := hm x ['%'] (by simp)
          simp at this
        · exact h4 p hp

/-- C41 for literal keys that begin with a percent sign, where neither the command nor the texts of the keys and
replacements contain `#`, and no replacement contains `%`: the command is cut at its `%%`, the keys are replaced in
each piece on its own, and the pieces are put together with a single `%` between them. The key `%%`, which every test
has, plays no part. What is missing: other regular expressions, `$` in replacements, and `#`. -/
theorem C41_partial (rx : SubRx) (s : Scoped) (keys : List (Str × Str))
    (hlit : List.Forall₂ (fun e kv => e.2 = kv.2 ∧ LiteralFor rx e.1 e.2 kv.1) s.iter keys)
    (hkeys : ∀ kv ∈ keys, kv.1 = ['%', '%'] ∨ (kv.1.head? = some '%' ∧ '#' ∉ kv.1 ∧ '%' ∉ kv.2 ∧ '#' ∉ kv.2))
    (hne : s.iter ≠ []) (text : Str) (hh : '#' ∉ text) (ps : List Str) (hps : Pieces text ps) :
    ∃ out, s.apply rx text = .ok (['%'].intercalate out) ∧
      List.Forall₂ (ReplacedEach (keys.filter fun kv => kv.1 != ['%', '%'])) ps out := by
  obtain ⟨h1, h2, h3, h4⟩ := hps
  have hpp : ∀ q ∈ ps, NoPP q := fun q hq => (noPP_iff q).2 (h3 q hq)
  have hhp : ∀ q ∈ ps, '#' ∉ q := by
    intro q hq hm
    apply hh
    rw [h1]
    clear h1 h2 h3 h4 hpp
    induction ps with
    | nil => cases hq
    | cons a ps ih =>
      cases ps with
      | nil =>
        rw [List.mem_singleton] at hq
        subst hq
        simpa [intercalate_one] using hm
      | cons b ps =>
        rw [intercalate_two]
        rcases List.mem_cons.1 hq with rfl | hq
        · simp [hm]
        · have := ih hq
          simp [this]
  cases hit : s.iter with
  | nil => exact absurd hit hne
  | cons e entries =>
    -- the first escaping turns the command into its pieces with markers between them
    have hesc : (Scoped.escapeStep ⟨text, false, true⟩).buf = MARKER.intercalate ps ∧
        ((Scoped.escapeStep ⟨text, false, true⟩).needsUnescape = false → ps.length = 1) := by
      unfold Scoped.escapeStep
      simp only [if_true]
      have hj : litReplace PP MARKER text = MARKER.intercalate ps := by rw [h1]; exact escape_join ps hpp h4
      unfold litReplace?
      by_cases ho : occurs PP text = true
      · rw [if_pos ho]
        exact ⟨hj, by intro h; cases h⟩
      · rw [if_neg ho]
        have hfree : Free PP text := by rw [free_iff]; simpa using ho
        constructor
        · rw [← hj, litReplace_free _ _ hfree]; rfl
        · intro _
          match ps, h1, h2 with
          | [p], _, _ => rfl
          | p :: q :: ps, h1, _ =>
            exfalso
            apply hfree
            rw [intercalate_two] at h1
            exact ⟨p, _, h1⟩
    rw [hit] at hlit
    cases hlit with
    | @cons _ kv _ kvs hd tl =>
      obtain ⟨p, r⟩ := e
      obtain ⟨k, r'⟩ := kv
      obtain ⟨hr, hl⟩ := hd
      dsimp only at hr hl
      subst hr
      obtain ⟨st', out, a, b, c, d, f⟩ := loop_first hl tl (hkeys (k, r) (by simp))
        (fun kv hkv => hkeys kv (List.mem_cons_of_mem _ hkv)) ⟨text, false, true⟩ ps hesc.1 hpp hhp
      refine ⟨out, ?_, f⟩
      unfold Scoped.apply
      rw [hit]
      refine BParse.bind_ok'.2 ⟨st', a, ?_⟩
      cases hu : st'.needsUnescape with
      | true =>
        rw [if_pos rfl, b, unescape_join out d]
        rfl
      | false =>
        rw [if_neg (by simp), b]
        have hlen := hesc.2 (by rw [← c, hu])
        have := f.length_eq
        match out, (by omega : out.length = 1) with
        | [x], _ => simp only [intercalate_one]; rfl

/-- An engine that reads every pattern as the text it is. -/
def litRx : SubRx := ⟨fun _ => true, fun p r s => litReplace? p r s⟩

theorem litRx_literal (p r : Str) (hp : p ≠ []) : LiteralFor litRx p r p := by
  refine ⟨rfl, fun s => ⟨fun h => ?_, fun h => ⟨litReplace p r s, ?_, replaced_litReplace r hp s⟩⟩⟩
  · show litReplace? p r s = none
    unfold litReplace?
    rw [(free_iff p s).1 h]
    simp
  · show litReplace? p r s = some _
    unfold litReplace?
    rw [if_pos]
    rw [free_iff] at h
    simpa using h

/-- Witness: the hypotheses of C41 hold for a test with the key `%s` next to `%%`, and a command that uses both. -/
example :
    let s : Scoped := (Scoped.new [("%s".toList, "/t.ll".toList)]).insert "%%".toList "%".toList
    List.Forall₂ (fun e kv => e.2 = kv.2 ∧ LiteralFor litRx e.1 e.2 kv.1) s.iter s.iter ∧
    (∀ kv ∈ s.iter, kv.1 = ['%', '%'] ∨ (kv.1.head? = some '%' ∧ '#' ∉ kv.1 ∧ '%' ∉ kv.2 ∧ '#' ∉ kv.2)) ∧
    s.iter ≠ [] ∧ Pieces "%%s %s %%%s".toList ["".toList, "s %s ".toList, "%s".toList] ∧
    s.apply litRx "%%s %s %%%s".toList = .ok "%s /t.ll %/t.ll".toList := by
  refine ⟨?_, ?_, by decide +kernel, ?_, by decide +kernel⟩
  · rw [List.forall₂_same]
    intro e he
    refine ⟨rfl, litRx_literal _ _ ?_⟩
    revert he
    have : (Scoped.insert (Scoped.new [("%s".toList, "/t.ll".toList)]) "%%".toList "%".toList).iter =
        [("%s".toList, "/t.ll".toList), ("%%".toList, "%".toList)] := by decide +kernel
    rw [this]
    intro he
    rcases List.mem_cons.1 he with rfl | he
    · simp
    · rcases List.mem_cons.1 he with rfl | he
      · simp
      · cases he
  · decide +kernel
  · refine ⟨by decide +kernel, by simp, ?_, ?_⟩
    · intro p hp
      rw [free_iff]
      revert p
      decide +kernel
    · decide +kernel

/-- C41 at full strength is refuted: a command may contain the text that stands for `%%` inside the code; it becomes a
percent sign too. -/
theorem C41_marker_refuted :
    ((Scoped.new []).insert "%%".toList "%".toList).apply litRx "echo %% '#_MARKER_#'".toList =
      .ok "echo % '%'".toList := by decide +kernel

/-- C41 at full strength is refuted: a percent sign at the end of a replacement joins with the percent sign of the key
that follows to an escaped percent sign, and the key is not replaced. -/
theorem C41_join_refuted :
    let s := (Scoped.new [("%s".toList, "100%".toList), ("%t".toList, "tmp".toList)]).insert "%%".toList "%".toList
    s.apply litRx "%s%t".toList = .ok "100%t".toList ∧ s.get "%t".toList = some "tmp".toList := by
  decide +kernel

end Litcheck
