import Verif.Proofs.SimulateCompile
import Verif.Proofs.Literal
import Verif.Proofs.Sets

/-!
# `--ignore-case`: the matchers
-/

namespace Litcheck.NoCase
open Spec Simulate
open Litcheck.Regex (Re engine inClass inRanges otherCase decode)
open Litcheck.Smart Litcheck.Pattern Litcheck.Sets

/-- The same text but for the case of ASCII letters. -/
abbrev Same (b b' : Buf) : Prop := List.Forall₂ (SameLetter true) b b'

theorem lower_iff {x y : UInt8} : SameLetter true x y ↔ asciiLower x = asciiLower y := by
  rw [← sameByte_iff]; simp [sameByte]

theorem letter_cases {x y : UInt8} (h : SameLetter true x y) :
    x = y ∨ (x.toNat < 128 ∧ y.toNat < 128 ∧ y.toNat = otherCase x.toNat ∧ x.toNat = otherCase y.toNat) := by
  have hx := asciiLower_toNat x
  have hy := asciiLower_toNat y
  have e := lower_iff.1 h
  rw [e, hy] at hx
  by_cases hxy : x = y
  · exact .inl hxy
  · have hne : x.toNat ≠ y.toNat := fun h => hxy (UInt8.toNat_inj.1 h)
    right
    unfold otherCase
    split_ifs at hx ⊢ <;> omega

theorem same_lines {b b' : Buf} (h : Same b b') : SameLines b b' := by
  refine List.Forall₂.imp ?_ h
  intro x y hxy
  rcases letter_cases hxy with rfl | ⟨h1, h2, h3, h4⟩
  · exact ⟨Iff.rfl, Iff.rfl⟩
  · have lf : LF.toNat = 10 := rfl
    have cr : CR.toNat = 13 := rfl
    unfold otherCase at h3 h4
    refine ⟨⟨fun e => ?_, fun e => ?_⟩, ⟨fun e => ?_, fun e => ?_⟩⟩ <;>
      · rw [← UInt8.toNat_inj] at e ⊢
        simp only [lf, cr] at e ⊢
        split_ifs at h3 h4 <;> omega

/-! ## Literals -/

theorem starts_same : ∀ {lit lit' : Buf}, Same lit lit' → ∀ {b b' : Buf}, Same b b' → startsWith true lit' b' = startsWith true lit b
  | _, _, .nil, _, _, _ => by simp [startsWith]
  | _, _, .cons hx hl, _, _, .nil => rfl
  | _, _, .cons hx hl, _, _, .cons hy hb => by
    simp only [startsWith, sameByte, if_true, lower_iff.1 hx, lower_iff.1 hy, starts_same hl hb]

theorem hitAt_same {lit lit' : Buf} (hl : Same lit lit') {b b' : Buf} (hb : Same b b') (stop p : Nat) :
    hitAt true b' stop p lit' = hitAt true b stop p lit := by
  simp only [hitAt, hl.length_eq, starts_same hl (List.forall₂_drop p hb)]

theorem longest_same {b b' : Buf} (hb : Same b b') (stop p : Nat) : ∀ {ls ls' : List Buf}, List.Forall₂ Same ls ls' → ∀ (pid : Nat),
    longestAt true b' stop p ls' pid = longestAt true b stop p ls pid
  | _, _, .nil, _ => rfl
  | _, _, .cons h hs, pid => by
    simp only [longestAt, longest_same hb stop p hs, hitAt_same h hb, h.length_eq]

theorem findSet_same {b b' : Buf} (hb : Same b b') {ls ls' : List Buf} (hl : List.Forall₂ Same ls ls') (stop : Nat) : ∀ (n p : Nat),
    findSet true ls' b' stop n p = findSet true ls b stop n p
  | 0, p => by unfold findSet; rw [longest_same hb stop p hl]
  | n + 1, p => by unfold findSet; rw [longest_same hb stop p hl]; dsimp only; rw [findSet_same hb hl stop n]

theorem refl_same (b : Buf) : Same b b := List.forall₂_same.2 fun _ _ => lower_iff.2 rfl

theorem refls_same (ls : List Buf) : List.Forall₂ Same ls ls := List.forall₂_same.2 fun b _ => refl_same b

/-! ## Regular expressions -/

theorem decode_same {b b' : Buf} (h : Same b b') :
    decode b' = decode b ∨ ∃ x y, decode b = some (x, 1) ∧ decode b' = some (y, 1) ∧ y = otherCase x ∧ x = otherCase y := by
  have hi : ∀ {x y : UInt8}, SameLetter true x y → 128 ≤ x.toNat ∨ 128 ≤ y.toNat → x = y := by
    intro x y hxy hc
    rcases letter_cases hxy with e | ⟨h1, h2, _⟩
    · exact e
    · omega
  have hc : ∀ {x y : UInt8}, SameLetter true x y → Regex.isCont y = Regex.isCont x := by
    intro x y hxy
    rcases letter_cases hxy with e | ⟨h1, h2, _⟩
    · rw [e]
    · simp [Regex.isCont, Nat.not_le.2 h1, Nat.not_le.2 h2]
  have he : ∀ {x y : UInt8}, SameLetter true x y → Regex.isCont x = true → y = x := by
    intro x y hxy h
    refine (hi hxy (.inl ?_)).symm
    simp only [Regex.isCont, Bool.and_eq_true, decide_eq_true_eq] at h
    exact h.1
  cases h with
  | nil => exact .inl rfl
  | @cons x y xs ys hxy hs =>
    rcases letter_cases hxy with rfl | ⟨h1, h2, h3, h4⟩
    · left
      unfold decode
      dsimp only
      cases hs with
      | nil => rfl
      | @cons a a' as as' ha has =>
        cases has with
        | nil =>
          dsimp only
          by_cases ca : Regex.isCont a = true
          · rw [he ha ca]
          · have ca' : Regex.isCont a' = false := by rw [hc ha]; simpa using ca
            have ca : Regex.isCont a = false := by simpa using ca
            simp [ca, ca']
        | @cons c c' cs cs' hcc hcs =>
          cases hcs with
          | nil =>
            dsimp only
            by_cases ca : Regex.isCont a = true
            · rw [he ha ca]
              by_cases cc : Regex.isCont c = true
              · rw [he hcc cc]
              · have cc' : Regex.isCont c' = false := by rw [hc hcc]; simpa using cc
                have cc : Regex.isCont c = false := by simpa using cc
                simp [cc, cc']
            · have ca' : Regex.isCont a' = false := by rw [hc ha]; simpa using ca
              have ca : Regex.isCont a = false := by simpa using ca
              simp [ca, ca']
          | @cons d d' ds ds' hd hds =>
            dsimp only
            by_cases ca : Regex.isCont a = true
            · rw [he ha ca]
              by_cases cc : Regex.isCont c = true
              · rw [he hcc cc]
                by_cases cd : Regex.isCont d = true
                · rw [he hd cd]
                · have cd' : Regex.isCont d' = false := by rw [hc hd]; simpa using cd
                  have cd : Regex.isCont d = false := by simpa using cd
                  simp [cd, cd']
              · have cc' : Regex.isCont c' = false := by rw [hc hcc]; simpa using cc
                have cc : Regex.isCont c = false := by simpa using cc
                simp [cc, cc']
            · have ca' : Regex.isCont a' = false := by rw [hc ha]; simpa using ca
              have ca : Regex.isCont a = false := by simpa using ca
              simp [ca, ca']
    · right
      refine ⟨x.toNat, y.toNat, ?_, ?_, h3, h4⟩
      · unfold decode; simp [h1]
      · unfold decode; simp [h2]

theorem inClass_other {c d : Nat} (h : d = otherCase c) (h' : c = otherCase d) (neg : Bool) (rs : List (Nat × Nat)) :
    inClass true neg rs d = inClass true neg rs c := by
  unfold inClass
  rw [← h', ← h]
  simp only [Bool.true_and, Bool.or_comm]

theorem iterOpt_same {f g : Nat → List (Nat × Regex.Caps)} (h : ∀ i, g i = f i) (gr : Bool) : ∀ (n i : Nat) (cs : Regex.Caps),
    Regex.iterOpt g gr n i cs = Regex.iterOpt f gr n i cs := by
  have : g = f := funext h
  rw [this]; intros; rfl

theorem ends_same {b b' : Buf} (hb : Same b b') (hi : Nat) : ∀ (re : Re) (i : Nat), re.ends true b' hi i = re.ends true b hi i
  | .eps, i => rfl
  | .cls neg rs, i => by
    unfold Re.ends
    rcases decode_same (List.forall₂_drop i hb) with e | ⟨x, y, e1, e2, h1, h2⟩
    · rw [e]
    · rw [e1, e2]
      dsimp only
      rw [inClass_other h1 h2]
  | .bol, i => by
    unfold Re.ends Regex.atBol
    have e : (b'[i - 1]? == some LF) = (b[i - 1]? == some LF) := by
      rw [Bool.eq_iff_iff]; simpa using ((same_lines hb).get (i - 1)).1
    rw [e]
  | .eol, i => by
    unfold Re.ends Regex.atEol
    have e : (b'[i]? == some LF) = (b[i]? == some LF) := by
      rw [Bool.eq_iff_iff]; simpa using ((same_lines hb).get i).1
    rw [e, ← hb.length_eq]
  | .cat r s, i => by
    unfold Re.ends
    rw [ends_same hb hi r, funext (ends_same hb hi s)]
  | .alt r s, i => by
    unfold Re.ends
    rw [ends_same hb hi r, ends_same hb hi s]
  | .rep r m M g, i => by
    unfold Re.ends
    rw [funext (ends_same hb hi r)]
  | .cap n r, i => by
    unfold Re.ends
    rw [ends_same hb hi r]

theorem findFrom_same {b b' : Buf} (hb : Same b b') (hi : Nat) (re : Re) : ∀ (n p : Nat),
    Regex.findFrom true b' hi re n p = Regex.findFrom true b hi re n p
  | 0, p => by unfold Regex.findFrom; rw [ends_same hb]
  | n + 1, p => by unfold Regex.findFrom; rw [ends_same hb]; dsimp only; rw [findFrom_same hb hi re n]

theorem find_same {b b' : Buf} (hb : Same b b') (re : Re) (lo hi : Nat) (a : Bool) :
    Regex.find true re b' lo hi a = Regex.find true re b lo hi a := by
  unfold Regex.find
  rw [findFrom_same hb]

/-! ## Patterns with variables -/

/-- An operation which captures nothing, and looks at the input without regard to case. -/
def OpBlind : MOp engine → Prop
  | .literal _ => True
  | .regex prog caps => prog.1 = true ∧ caps = []
  | .subst _ _ => True
  | _ => False

theorem part_same {b b' : Buf} (hb : Same b b') {cf : Conf engine} (hic : cf.ignoreCase = true) {op : MOp engine} (ho : OpBlind op)
    (hi : Nat) (env : Vars) (st : Smart.St) : matchPart cf b' hi env st op = matchPart cf b hi env st op := by
  cases op with
  | literal lit =>
    unfold matchPart
    dsimp only
    rw [hic, hitAt_same (refl_same _) hb, findSet_same hb (refls_same _)]
  | regex prog caps =>
    obtain ⟨h1, rfl⟩ := ho
    obtain ⟨ic, re⟩ := prog
    dsimp only at h1
    subst h1
    have e : engine.search (true, re) b' st.pos hi st.anchored = engine.search (true, re) b st.pos hi st.anchored := find_same hb _ _ _ _
    unfold matchPart
    dsimp only
    rw [e]
    rfl
  | subst e ty =>
    unfold matchPart
    dsimp only
    cases evalExpr cf.checked cf.line env ty e with
    | yes v =>
      simp only [Step.bind]
      rw [hic]
      cases hp : engine.build true (substText v ty) with
      | none => rfl
      | some prog =>
        obtain ⟨ic, re⟩ := prog
        have h1 : ic = true := by
          simp only [engine, Option.map_eq_some_iff, Prod.mk.injEq] at hp
          obtain ⟨_, _, h, _⟩ := hp
          exact h.symm
        subst h1
        have e : engine.search (true, re) b' st.pos hi st.anchored = engine.search (true, re) b st.pos hi st.anchored := find_same hb _ _ _ _
        simp only [e]
    | no f => rfl
    | err => rfl
    | panic p => rfl
  | numeric _ _ => exact ho.elim
  | bind _ _ => exact ho.elim
  | drop => exact ho.elim
  | constraint _ => exact ho.elim

theorem parts_same {b b' : Buf} (hb : Same b b') {cf : Conf engine} (hic : cf.ignoreCase = true) (hi : Nat) :
    ∀ (ops : List (MOp engine)), (∀ op ∈ ops, OpBlind op) → ∀ (env : Vars) (st : Smart.St),
    matchParts cf b' hi ops env st = matchParts cf b hi ops env st ∧ stoppedAt cf b' hi ops env st = stoppedAt cf b hi ops env st
  | [], _, env, st => ⟨rfl, rfl⟩
  | op :: ops, ho, env, st => by
    have h1 := part_same hb hic (ho op (by simp)) hi env st
    have h2 := fun e s => parts_same hb hic hi ops (fun x hx => ho x (by simp [hx])) e s
    have hop := ho op (by simp)
    rw [matchParts.eq_def, matchParts.eq_def (b := b), stoppedAt.eq_def, stoppedAt.eq_def (b := b)]
    cases op with
    | literal lit =>
      dsimp only
      rw [h1, ← hb.length_eq]
      simp only [(h2 _ _).1, (h2 _ _).2, and_self]
    | regex prog caps =>
      dsimp only
      rw [h1, ← hb.length_eq]
      simp only [(h2 _ _).1, (h2 _ _).2, and_self]
    | subst e ty =>
      dsimp only
      rw [h1, ← hb.length_eq]
      simp only [(h2 _ _).1, (h2 _ _).2, and_self]
    | numeric _ _ => exact hop.elim
    | bind _ _ => exact hop.elim
    | drop => exact hop.elim
    | constraint _ => exact hop.elim

theorem attempt_same {b b' : Buf} (hb : Same b b') {cf : Conf engine} (hic : cf.ignoreCase = true) (hi : Nat) (a : Bool) {op : MOp engine}
    {ops : List (MOp engine)} (ho : ∀ x ∈ op :: ops, OpBlind x) (env : Vars) (p : Nat) :
    attempt cf b' hi a op ops env p = attempt cf b hi a op ops env p := by
  have h2 := fun e s => parts_same hb hic hi ops (fun x hx => ho x (by simp [hx])) e s
  have e : start b' a p = start b a p := by unfold start; rw [hb.length_eq]
  unfold attempt
  dsimp only
  rw [e, part_same hb hic (ho op (by simp))]
  simp only [(h2 _ _).1, (h2 _ _).2, ← hb.length_eq]

theorem search_same {b b' : Buf} (hb : Same b b') {cf : Conf engine} (hic : cf.ignoreCase = true) (hi : Nat) (a : Bool) {op : MOp engine}
    {ops : List (MOp engine)} (ho : ∀ x ∈ op :: ops, OpBlind x) (env : Vars) : ∀ (n p : Nat),
    search cf b' hi a op ops env n p = search cf b hi a op ops env n p
  | 0, p => rfl
  | n + 1, p => by
    unfold search
    rw [attempt_same hb hic hi a ho]
    simp only [search_same hb hic hi a ho env n]

theorem smart_same {b b' : Buf} (hb : Same b b') {cf : Conf engine} (hic : cf.ignoreCase = true) {ops : List (MOp engine)}
    (ho : ∀ x ∈ ops, OpBlind x) (ps : Nat) (r : Rng) (env : Vars) : (smartPat cf ops ps).run b' r env = (smartPat cf ops ps).run b r env := by
  unfold smartPat
  dsimp only
  have e : tryMatch cf ops ps (b'.length + 2) b' r env = tryMatch cf ops ps (b.length + 2) b r env := by
    unfold tryMatch
    cases ops with
    | nil => rfl
    | cons op ops =>
      dsimp only
      rw [search_same hb hic _ _ ho, hb.length_eq]
  rw [e]

/-! ## Whitespace -/

theorem ws_same {x y : UInt8} (h : SameLetter true x y) : isAsciiWs y.toNat = isAsciiWs x.toNat ∧ (y == LF) = (x == LF) := by
  rcases letter_cases h with rfl | ⟨h1, h2, h3, h4⟩
  · exact ⟨rfl, rfl⟩
  · have lf : LF.toNat = 10 := rfl
    have k : ∀ {z : UInt8}, (65 ≤ z.toNat ∧ z.toNat ≤ 90) ∨ (97 ≤ z.toNat ∧ z.toNat ≤ 122) → isAsciiWs z.toNat = false ∧ (z == LF) = false := by
      intro z hz
      constructor
      · simp only [isAsciiWs, Bool.or_eq_false_iff, beq_eq_false_iff_ne]; omega
      · simp only [beq_eq_false_iff_ne, ne_eq, ← UInt8.toNat_inj, lf]; omega
    by_cases hc : (65 ≤ x.toNat ∧ x.toNat ≤ 90) ∨ (97 ≤ x.toNat ∧ x.toNat ≤ 122)
    · have hy : (65 ≤ y.toNat ∧ y.toNat ≤ 90) ∨ (97 ≤ y.toNat ∧ y.toNat ≤ 122) := by
        unfold otherCase at h3; split_ifs at h3 <;> omega
      rw [(k hc).1, (k hc).2, (k hy).1, (k hy).2]; exact ⟨rfl, rfl⟩
    · have : y = x := by
        rw [← UInt8.toNat_inj]
        unfold otherCase at h3; split_ifs at h3 <;> omega
      rw [this]; exact ⟨rfl, rfl⟩

theorem wsLen_same : ∀ {b b' : Buf}, Same b b' → wsLen b' = wsLen b
  | _, _, .nil => rfl
  | _, _, .cons h hs => by unfold wsLen; rw [(ws_same h).1, (ws_same h).2, wsLen_same hs]

theorem slice_same {b b' : Buf} (h : Same b b') (i j : Nat) : Same (sliceOf b i j) (sliceOf b' i j) :=
  List.forall₂_drop _ (List.forall₂_take _ h)

theorem whitespace_same {b b' : Buf} (hb : Same b b') (ps : Nat) (r : Rng) (env : Vars) :
    (whitespacePat ps).run b' r env = (whitespacePat ps).run b r env := by
  have h := slice_same hb r.start r.stop
  unfold whitespacePat
  dsimp only
  revert h
  generalize sliceOf b r.start r.stop = u
  generalize sliceOf b' r.start r.stop = v
  intro h
  cases h with
  | nil => rfl
  | cons h hs =>
    dsimp only
    rw [(ws_same h).1, wsLen_same (.cons h hs)]

end Litcheck.NoCase
