import Verif.Spec.Regex
import Mathlib.Tactic.ByContra

/-!
# The matcher finds the leftmost match, and finds one whenever there is one
-/

namespace Litcheck.Regex
open Litcheck.RegexSpec
variable {ic : Bool} {b : Buf} {hi : Nat}

theorem decode_pos {b : Buf} {c n : Nat} (h : decode b = some (c, n)) : 1 ≤ n ∧ n ≤ b.length := by
  unfold decode at h
  split at h
  · simp at h
  · dsimp only at h
    split at h
    · simp only [Option.some.injEq, Prod.mk.injEq] at h; simp; omega
    split at h
    · simp at h
    split at h
    · split at h
      · split at h
        · simp only [Option.some.injEq, Prod.mk.injEq] at h; simp; omega
        · simp at h
      · simp at h
    split at h
    · split at h
      · split at h
        · simp only [Option.some.injEq, Prod.mk.injEq] at h; simp; omega
        · simp at h
      · simp at h
    · split at h
      · split at h
        · simp only [Option.some.injEq, Prod.mk.injEq] at h; simp; omega
        · simp at h
      · simp at h

theorem Iter.le {R : Nat → Nat → Caps → Prop} (hR : ∀ i j c, R i j c → i ≤ j) {n i j : Nat} {c : Caps}
    (h : Iter R n i j c) : i ≤ j := by
  induction h with
  | zero => exact Nat.le_refl _
  | succ h1 _ ih => exact Nat.le_trans (hR _ _ _ h1) ih

theorem Lang.le : ∀ (r : Re) (i j : Nat) (c : Caps), Lang ic b r i j c → i ≤ j
  | .eps, i, j, c, h => by simp only [Lang] at h; omega
  | .cls neg ranges, i, j, c, h => by simp only [Lang] at h; obtain ⟨v, n, _, _, h, _⟩ := h; omega
  | .bol, i, j, c, h => by simp only [Lang] at h; omega
  | .eol, i, j, c, h => by simp only [Lang] at h; omega
  | .cat r s, i, j, c, h => by
    simp only [Lang] at h
    obtain ⟨k, c1, c2, h1, h2, _⟩ := h
    exact Nat.le_trans (Lang.le r _ _ _ h1) (Lang.le s _ _ _ h2)
  | .alt r s, i, j, c, h => by
    simp only [Lang] at h
    rcases h with h | h
    · exact Lang.le r _ _ _ h
    · exact Lang.le s _ _ _ h
  | .rep r min max g, i, j, c, h => by
    simp only [Lang] at h
    obtain ⟨n, _, _, h⟩ := h
    exact Iter.le (Lang.le r) h
  | .cap name r, i, j, c, h => by
    simp only [Lang] at h
    obtain ⟨d, h, _⟩ := h
    exact Lang.le r _ _ _ h

/-- What the body of a repetition yields. -/
def BodySound (hi : Nat) (R : Nat → Nat → Caps → Prop) (body : Nat → List (Nat × Caps)) : Prop :=
  ∀ i, i ≤ hi → ∀ x ∈ body i, R i x.1 x.2 ∧ i ≤ x.1 ∧ x.1 ≤ hi

/-- What the body of a repetition finds. -/
def BodyComplete (hi : Nat) (R : Nat → Nat → Caps → Prop) (body : Nat → List (Nat × Caps)) : Prop :=
  ∀ i j c, R i j c → i ≤ j ∧ (j ≤ hi → ∃ d, (j, d) ∈ body i)

theorem iterOpt_sound {R : Nat → Nat → Caps → Prop} {body : Nat → List (Nat × Caps)} {g : Bool}
    (hb : BodySound hi R body) : ∀ n i cs j c, i ≤ hi → (j, c) ∈ iterOpt body g n i cs →
      ∃ k d, k ≤ n ∧ c = cs ++ d ∧ Iter R k i j d ∧ i ≤ j ∧ j ≤ hi
  | 0, i, cs, j, c, hi', h => by
    simp only [iterOpt, List.mem_singleton, Prod.mk.injEq] at h
    obtain ⟨rfl, rfl⟩ := h
    exact ⟨0, [], Nat.le_refl _, by simp, .zero, Nat.le_refl _, hi'⟩
  | n + 1, i, cs, j, c, hi', h => by
    have key : (j, c) = (i, cs) ∨ (j, c) ∈ (body i).flatMap fun x =>
        if x.1 ≤ i then [(x.1, cs ++ x.2)] else iterOpt body g n x.1 (cs ++ x.2) := by
      unfold iterOpt at h
      dsimp only at h
      split at h
      · rcases List.mem_append.1 h with h | h
        · exact .inr h
        · exact .inl (List.mem_singleton.1 h)
      · rcases List.mem_cons.1 h with h | h
        · exact .inl h
        · exact .inr h
    rcases key with h | h
    · simp only [Prod.mk.injEq] at h
      obtain ⟨rfl, rfl⟩ := h
      exact ⟨0, [], Nat.zero_le _, by simp, .zero, Nat.le_refl _, hi'⟩
    · obtain ⟨x, hx, h⟩ := List.mem_flatMap.1 h
      obtain ⟨h1, h2, h3⟩ := hb i hi' x hx
      split at h
      · simp only [List.mem_singleton, Prod.mk.injEq] at h
        obtain ⟨rfl, rfl⟩ := h
        refine ⟨1, x.2, by omega, rfl, ?_, h2, h3⟩
        have := Iter.succ h1 (Iter.zero (R := R))
        simpa using this
      · obtain ⟨k, d, hk, rfl, hit, h5, h6⟩ := iterOpt_sound hb n x.1 _ j c h3 h
        exact ⟨k + 1, x.2 ++ d, by omega, by simp, .succ h1 hit, by omega, h6⟩

theorem iterReq_sound {R : Nat → Nat → Caps → Prop} {body : Nat → List (Nat × Caps)} {g : Bool} {m : Nat → Nat}
    (hb : BodySound hi R body) : ∀ n i cs j c, i ≤ hi → (j, c) ∈ iterReq body g m n i cs →
      ∃ k d, n ≤ k ∧ (∀ M, (∀ j, m j ≤ M) → k ≤ n + M) ∧ c = cs ++ d ∧ Iter R k i j d ∧ i ≤ j ∧ j ≤ hi
  | 0, i, cs, j, c, hi', h => by
    unfold iterReq at h
    obtain ⟨k, d, h1, h2, h3, h4, h5⟩ := iterOpt_sound hb _ i cs j c hi' h
    exact ⟨k, d, Nat.zero_le _, fun M hM => by have := hM i; omega, h2, h3, h4, h5⟩
  | n + 1, i, cs, j, c, hi', h => by
    unfold iterReq at h
    obtain ⟨x, hx, h⟩ := List.mem_flatMap.1 h
    obtain ⟨h1, h2, h3⟩ := hb i hi' x hx
    obtain ⟨k, d, hk, hM, rfl, hit, h5, h6⟩ := iterReq_sound hb n x.1 _ j c h3 h
    exact ⟨k + 1, x.2 ++ d, by omega, fun M h => by have := hM M h; omega, by simp, .succ h1 hit, by omega, h6⟩

theorem iterOpt_self {body : Nat → List (Nat × Caps)} {g : Bool} (n i : Nat) (cs : Caps) : (i, cs) ∈ iterOpt body g n i cs := by
  cases n with
  | zero => simp [iterOpt]
  | succ n => unfold iterOpt; dsimp only; split <;> simp

theorem iterOpt_complete {R : Nat → Nat → Caps → Prop} {body : Nat → List (Nat × Caps)} {g : Bool}
    (hb : BodyComplete hi R body) {k i j : Nat} {d : Caps} (h : Iter R k i j d) :
    j ≤ hi → ∀ n cs, (k ≤ n ∨ hi + 1 - i ≤ n) → ∃ c, (j, c) ∈ iterOpt body g n i cs := by
  induction h with
  | zero => intro _ n cs _; exact ⟨cs, iterOpt_self n _ cs⟩
  | @succ k i l j c d h1 h2 ih =>
    intro hj n cs hn
    obtain ⟨h3, h4⟩ := hb _ _ _ h1
    have h5 : l ≤ j := Iter.le (fun i j c h => (hb i j c h).1) h2
    rcases Nat.eq_or_lt_of_le h3 with he | hl
    · subst he
      exact ih hj n cs (by omega)
    · obtain ⟨e, he⟩ := h4 (by omega)
      cases n with
      | zero => omega
      | succ n =>
        obtain ⟨c', hc'⟩ := ih hj n (cs ++ e) (by omega)
        refine ⟨c', ?_⟩
        have : (j, c') ∈ (body i).flatMap fun x =>
            if x.1 ≤ i then [(x.1, cs ++ x.2)] else iterOpt body g n x.1 (cs ++ x.2) := by
          refine List.mem_flatMap.2 ⟨(l, e), he, ?_⟩
          rw [if_neg (by dsimp only; omega)]
          exact hc'
        unfold iterOpt
        dsimp only
        split
        · exact List.mem_append_left _ this
        · exact List.mem_cons_of_mem _ this

theorem iterReq_complete {R : Nat → Nat → Caps → Prop} {body : Nat → List (Nat × Caps)} {g : Bool} {m : Nat → Nat}
    (hb : BodyComplete hi R body) : ∀ n k i j d cs, Iter R (n + k) i j d → j ≤ hi →
      (∀ l, k ≤ m l ∨ hi + 1 - l ≤ m l) → ∃ c, (j, c) ∈ iterReq body g m n i cs
  | 0, k, i, j, d, cs, h, hj, hm => by
    unfold iterReq
    rw [Nat.zero_add] at h
    exact iterOpt_complete hb h hj _ cs (hm i)
  | n + 1, k, i, j, d, cs, h, hj, hm => by
    have he : n + 1 + k = (n + k) + 1 := by omega
    rw [he] at h
    generalize hq : n + k + 1 = q at h
    cases h with
    | zero => omega
    | @succ q' _ l _ c d h1 h2 =>
      have : q' = n + k := by omega
      subst this
      obtain ⟨h3, h4⟩ := hb _ _ _ h1
      have h5 : l ≤ j := Iter.le (fun i j c h => (hb i j c h).1) h2
      obtain ⟨e, he⟩ := h4 (by omega)
      obtain ⟨c', hc'⟩ := iterReq_complete hb n k l j d (cs ++ e) h2 hj hm
      exact ⟨c', by unfold iterReq; exact List.mem_flatMap.2 ⟨(l, e), he, hc'⟩⟩

theorem ends_sound : ∀ (r : Re) (i : Nat), i ≤ hi → ∀ x ∈ r.ends ic b hi i, Lang ic b r i x.1 x.2 ∧ i ≤ x.1 ∧ x.1 ≤ hi
  | .eps, i, hi', x, h => by
    simp only [Re.ends, List.mem_singleton] at h
    subst h; simp [Lang, hi']
  | .cls neg ranges, i, hi', x, h => by
    simp only [Re.ends] at h
    split at h
    · rename_i v n hd
      split at h
      · rename_i hc
        simp only [List.mem_singleton] at h
        subst h
        simp only [Bool.and_eq_true, decide_eq_true_eq] at hc
        exact ⟨⟨v, n, hd, hc.1, rfl, rfl⟩, by simp, hc.2⟩
      · simp at h
    · simp at h
  | .bol, i, hi', x, h => by
    simp only [Re.ends] at h
    split at h
    · rename_i hc
      simp only [List.mem_singleton] at h
      subst h
      simp only [atBol, Bool.or_eq_true, beq_iff_eq] at hc
      exact ⟨⟨hc, rfl, rfl⟩, Nat.le_refl _, hi'⟩
    · simp at h
  | .eol, i, hi', x, h => by
    simp only [Re.ends] at h
    split at h
    · rename_i hc
      simp only [List.mem_singleton] at h
      subst h
      simp only [atEol, Bool.or_eq_true, beq_iff_eq, decide_eq_true_eq] at hc
      exact ⟨⟨hc, rfl, rfl⟩, Nat.le_refl _, hi'⟩
    · simp at h
  | .cat r s, i, hi', x, h => by
    simp only [Re.ends, List.mem_flatMap, List.mem_map] at h
    obtain ⟨y, hy, z, hz, rfl⟩ := h
    obtain ⟨h1, h2, h3⟩ := ends_sound r i hi' y hy
    obtain ⟨h4, h5, h6⟩ := ends_sound s y.1 h3 z hz
    exact ⟨⟨y.1, y.2, z.2, h1, h4, rfl⟩, by dsimp only; omega, h6⟩
  | .alt r s, i, hi', x, h => by
    simp only [Re.ends, List.mem_append] at h
    rcases h with h | h
    · obtain ⟨h1, h2⟩ := ends_sound r i hi' x h; exact ⟨.inl h1, h2⟩
    · obtain ⟨h1, h2⟩ := ends_sound s i hi' x h; exact ⟨.inr h1, h2⟩
  | .rep r min max g, i, hi', x, h => by
    simp only [Re.ends] at h
    obtain ⟨k, d, h1, h2, h3, h4, h5, h6⟩ := iterReq_sound (R := Lang ic b r) (fun i hi' x hx => ends_sound r i hi' x hx)
      min i [] x.1 x.2 hi' h
    refine ⟨⟨k, h1, ?_, ?_⟩, h5, h6⟩
    · intro m hm
      subst hm
      have := h2 (m - min) (fun _ => Nat.le_refl _)
      omega
    · rw [h3]; simpa using h4
  | .cap name r, i, hi', x, h => by
    simp only [Re.ends, List.mem_map] at h
    obtain ⟨y, hy, rfl⟩ := h
    obtain ⟨h1, h2⟩ := ends_sound r i hi' y hy
    exact ⟨⟨y.2, h1, rfl⟩, h2⟩

theorem ends_complete : ∀ (r : Re) (i j : Nat) (c : Caps), Lang ic b r i j c → j ≤ hi → ∃ d, (j, d) ∈ r.ends ic b hi i
  | .eps, i, j, c, h, hj => by
    simp only [Lang] at h
    exact ⟨[], by simp [Re.ends, h.1]⟩
  | .cls neg ranges, i, j, c, h, hj => by
    obtain ⟨v, n, h1, h2, h3, h4⟩ := h
    refine ⟨[], ?_⟩
    simp only [Re.ends, h1]
    rw [if_pos (by simp [h2]; omega)]
    simp [h3]
  | .bol, i, j, c, h, hj => by
    obtain ⟨h1, h2, h3⟩ := h
    refine ⟨[], ?_⟩
    simp only [Re.ends]
    rw [if_pos (by simpa [atBol] using h1)]
    simp [h2]
  | .eol, i, j, c, h, hj => by
    obtain ⟨h1, h2, h3⟩ := h
    refine ⟨[], ?_⟩
    simp only [Re.ends]
    rw [if_pos (by simpa [atEol] using h1)]
    simp [h2]
  | .cat r s, i, j, c, h, hj => by
    obtain ⟨k, c1, c2, h1, h2, h3⟩ := h
    have hk : k ≤ j := Lang.le s _ _ _ h2
    obtain ⟨d1, hd1⟩ := ends_complete r i k c1 h1 (by omega)
    obtain ⟨d2, hd2⟩ := ends_complete s k j c2 h2 hj
    refine ⟨d1 ++ d2, ?_⟩
    simp only [Re.ends, List.mem_flatMap, List.mem_map]
    exact ⟨(k, d1), hd1, (j, d2), hd2, rfl⟩
  | .alt r s, i, j, c, h, hj => by
    rcases h with h | h
    · obtain ⟨d, hd⟩ := ends_complete r i j c h hj
      exact ⟨d, by simp only [Re.ends]; exact List.mem_append_left _ hd⟩
    · obtain ⟨d, hd⟩ := ends_complete s i j c h hj
      exact ⟨d, by simp only [Re.ends]; exact List.mem_append_right _ hd⟩
  | .rep r min max g, i, j, c, h, hj => by
    obtain ⟨n, h1, h2, h3⟩ := h
    simp only [Re.ends]
    refine iterReq_complete (R := Lang ic b r) (fun i j c h => ⟨Lang.le r i j c h, ends_complete r i j c h⟩) min (n - min) i j c []
      (by rw [Nat.add_sub_cancel' h1]; exact h3) hj ?_
    intro l
    cases max with
    | none => exact .inr (Nat.le_refl _)
    | some m => have := h2 m rfl; dsimp only; omega
  | .cap name r, i, j, c, h, hj => by
    obtain ⟨d, h1, h2⟩ := h
    obtain ⟨e, he⟩ := ends_complete r i j d h1 hj
    refine ⟨e ++ [(name, i, j)], ?_⟩
    simp only [Re.ends, List.mem_map]
    exact ⟨(j, e), he, rfl⟩

theorem findFrom_some {re : Re} : ∀ (n p : Nat) (h : Hit), findFrom ic b hi re n p = some h →
    p ≤ h.start ∧ h.start ≤ p + n ∧ (h.stop, h.caps) ∈ re.ends ic b hi h.start ∧ ∀ q, p ≤ q → q < h.start → re.ends ic b hi q = []
  | n, p, h, hf => by
    unfold findFrom at hf
    split at hf
    · rename_i e cs rest heq
      simp only [Option.some.injEq] at hf
      subst hf
      exact ⟨Nat.le_refl _, by simp, by simp [heq], fun q h1 h2 => absurd h1 (by dsimp only at h2; omega)⟩
    · rename_i heq
      cases n with
      | zero => simp at hf
      | succ n =>
        dsimp only at hf
        obtain ⟨h1, h2, h3, h4⟩ := findFrom_some n (p + 1) h hf
        refine ⟨by omega, by omega, h3, fun q hq1 hq2 => ?_⟩
        rcases Nat.eq_or_lt_of_le hq1 with rfl | hlt
        · exact heq
        · exact h4 q hlt hq2

theorem findFrom_none {re : Re} : ∀ (n p : Nat), findFrom ic b hi re n p = none →
    ∀ q, p ≤ q → q ≤ p + n → re.ends ic b hi q = []
  | n, p, hf => by
    intro q hq1 hq2
    unfold findFrom at hf
    split at hf
    · simp at hf
    · rename_i heq
      cases n with
      | zero => have : q = p := by omega
                rw [this]; exact heq
      | succ n =>
        dsimp only at hf
        rcases Nat.eq_or_lt_of_le hq1 with rfl | hlt
        · exact heq
        · exact findFrom_none n (p + 1) hf q hlt (by omega)

theorem ends_nil_iff {re : Re} {q : Nat} (hq : q ≤ hi) :
    re.ends ic b hi q = [] ↔ ∀ j, j ≤ hi → ¬ RegexSpec.Matches ic b re q j := by
  constructor
  · rintro h j hj ⟨c, hc⟩
    obtain ⟨d, hd⟩ := ends_complete re q j c hc hj
    rw [h] at hd
    simp at hd
  · intro h
    by_contra hne
    obtain ⟨x, hx⟩ := List.exists_mem_of_ne_nil _ hne
    obtain ⟨h1, h2, h3⟩ := ends_sound re q hq x hx
    exact h x.1 h3 ⟨x.2, h1⟩

/-- What a search reports is a match inside the range, and none starts before it. -/
theorem find_some {re : Re} {lo : Nat} {anchored : Bool} {h : Hit} (hf : find ic re b lo hi anchored = some h) :
    lo ≤ h.start ∧ h.start ≤ h.stop ∧ h.stop ≤ hi ∧ (anchored = true → h.start = lo) ∧ Lang ic b re h.start h.stop h.caps ∧
      ∀ q j, lo ≤ q → q < h.start → j ≤ hi → ¬ RegexSpec.Matches ic b re q j := by
  unfold find at hf
  split at hf
  · simp at hf
  · rename_i hle
    obtain ⟨h1, h2, h3, h4⟩ := findFrom_some _ _ _ hf
    have hs : h.start ≤ hi := by split at h2 <;> omega
    obtain ⟨h5, h6, h7⟩ := ends_sound re h.start hs _ h3
    refine ⟨h1, h6, h7, fun ha => ?_, h5, fun q j hq1 hq2 hj => (ends_nil_iff (by omega)).1 (h4 q hq1 hq2) j hj⟩
    rw [ha] at h2
    simp only [if_true] at h2
    omega

/-- A search which reports nothing has nothing to report. -/
theorem find_none {re : Re} {lo : Nat} {anchored : Bool} (hf : find ic re b lo hi anchored = none) :
    ∀ q j, lo ≤ q → j ≤ hi → (anchored = true → q = lo) → ¬ RegexSpec.Matches ic b re q j := by
  intro q j hq hj ha hm
  have hqj : q ≤ j := Lang.le re _ _ _ hm.choose_spec
  unfold find at hf
  split at hf
  · omega
  · refine (ends_nil_iff (by omega)).1 (findFrom_none _ _ hf q hq ?_) j hj hm
    split
    · rename_i h; have := ha h; omega
    · omega

end Litcheck.Regex
