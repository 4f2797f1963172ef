import Verif.Spec.Placement
import Verif.Proofs.Groups

/-!
# A satisfied list of directives has a placement
-/

namespace Litcheck
open Spec
variable {E : Type}

/-- Glue two functions on naturals. -/
def glue {α : Type} (k : Nat) (f g : Nat → α) (i : Nat) : α := if i < k then f i else g (i - k)

theorem glue_lt {α : Type} {k : Nat} {f g : Nat → α} {i : Nat} (h : i < k) : glue k f g i = f i := by simp [glue, h]
theorem glue_ge {α : Type} {k : Nat} {f g : Nat → α} {i : Nat} (h : k ≤ i) : glue k f g i = g (i - k) := by
  simp [glue, Nat.not_lt.2 h]
theorem glue_add {α : Type} {k : Nat} {f g : Nat → α} {i : Nat} : glue k f g (k + i) = g i := by
  rw [glue_ge (by omega), Nat.add_sub_cancel_left]

theorem Spec.Positive.left {gs ds : List (Directive E)} {i : Nat} (h : i < gs.length) :
    Positive (gs ++ ds) i ↔ Positive gs i := by
  unfold Positive; rw [List.getElem?_append_left h]

theorem Spec.Positive.right {gs ds : List (Directive E)} {i : Nat} (h : gs.length ≤ i) :
    Positive (gs ++ ds) i ↔ Positive ds (i - gs.length) := by
  unfold Positive; rw [List.getElem?_append_right h]

theorem Spec.Positive.lt {ds : List (Directive E)} {i : Nat} (h : Positive ds i) : i < ds.length := by
  obtain ⟨d, h1, _⟩ := h
  exact (List.getElem?_eq_some_iff.1 h1).1

theorem Spec.SameDagGroup.right {gs ds : List (Directive E)} {i j : Nat} (h : SameDagGroup ds i j) :
    SameDagGroup (gs ++ ds) (gs.length + i) (gs.length + j) := by
  intro k h1 h2
  obtain ⟨d, h3, h4⟩ := h (k - gs.length) (by omega) (by omega)
  exact ⟨d, by rw [List.getElem?_append_right (by omega)]; exact h3, h4⟩

theorem Spec.InTurn.append {ms : List (Meaning E)} {b : Buf} {place : Nat → Nat × Nat} {ps qs : List Nat} {env env1 env2 : E}
    (h : InTurn ms b place ps env env1) (h2 : InTurn ms b place qs env1 env2) : InTurn ms b place (ps ++ qs) env env2 := by
  induction h with
  | nil => exact h2
  | cons a1 a2 _ ih => exact .cons a1 a2 (ih h2)

theorem Spec.InTurn.left {ms ns : List (Meaning E)} {b : Buf} {p0 place : Nat → Nat × Nat} {ps : List Nat} {env env1 : E}
    (h : InTurn ms b p0 ps env env1) : InTurn (ms ++ ns) b (glue ms.length p0 place) ps env env1 := by
  induction h with
  | nil => exact .nil
  | cons a1 a2 _ ih =>
    have hp := (List.getElem?_eq_some_iff.1 a1).1
    exact .cons (by rw [List.getElem?_append_left hp]; exact a1) (by rw [glue_lt hp]; exact a2) ih

theorem Spec.InTurn.right {ms ns : List (Meaning E)} {b : Buf} {p0 place : Nat → Nat × Nat} {ps : List Nat} {env env1 : E}
    (h : InTurn ns b place ps env env1) : InTurn (ms ++ ns) b (glue ms.length p0 place) (ps.map (ms.length + ·)) env env1 := by
  induction h with
  | nil => exact .nil
  | cons a1 a2 _ ih =>
    exact .cons (by rw [List.getElem?_append_right (Nat.le_add_right _ _), Nat.add_sub_cancel_left]; exact a1) (by rw [glue_add]; exact a2) ih

theorem Spec.Threads.inTurn {ms : List (Meaning E)} {spans : List (Nat × Nat)} {b : Buf} {ps : List Nat} {env env1 : E}
    (h : Threads ms spans b ps env env1) : InTurn ms b (fun i => spans.getD i (0, 0)) ps env env1 := by
  induction h with
  | nil => exact .nil
  | cons a1 a2 a3 _ ih => exact .cons a1 (by rw [List.getD_eq_getElem?_getD, a2]; exact a3) ih

theorem Spec.WholeDags.nil {ds : List (Directive E)} {i n : Nat} (h : WholeDags ds i n) {d : Directive E} (hd : ds[i]? = some d)
    (hk : d.kind ≠ .dag) : n = 0 := by
  by_contra hn
  obtain ⟨d', h1, h2⟩ := h.1 0 (by omega)
  rw [Nat.add_zero, hd] at h1
  cases h1
  exact hk h2

/-- Put a group of matched positive directives in front of a placement. -/
theorem Spec.Placed.group {b : Buf} {pos hi s e : Nat} {gs ds : List (Directive E)} {env env1 : E}
    {p0 : Nat → Nat × Nat} {envs0 : Nat → E} {place : Nat → Nat × Nat} {envs : Nat → E}
    (hgpos : ∀ d ∈ gs, d.kind ≠ .not)
    (hpl : Placed b e hi ds env1 place envs)
    (h0 : envs0 0 = env) (h1 : envs0 gs.length = env1)
    (hps : pos ≤ s) (heh : e ≤ hi)
    (hin : ∀ i, i < gs.length → s ≤ (p0 i).1 ∧ (p0 i).1 ≤ (p0 i).2 ∧ (p0 i).2 ≤ e)
    (hsm : ∃ i, i < gs.length ∧ (p0 i).1 = s) (hem : ∃ i, i < gs.length ∧ (p0 i).2 = e)
    (hord : ∀ i j, i < j → j < gs.length → SameDagGroup gs i j ∧ Disjoint (p0 i) (p0 j))
    (hfit : ∀ i d p, gs[i]? = some d → PrevEnd gs p0 pos i p → Fits b hi d p (envs0 i) (p0 i) (envs0 (i + 1)))
    (hdg : ∀ i d, gs[i]? = some d → d.kind = .dag → (∀ d' ∈ gs, BindsNothing d'.mean) → envs0 (i + 1) = envs0 i)
    (hth : (∀ d ∈ gs, d.kind = .dag) → ∃ order : List Nat, order.Perm (List.range gs.length) ∧
      order.Pairwise (fun p q => (p0 p).2 ≤ (p0 q).1) ∧ InTurn (gs.map Directive.mean) b p0 order env env1) :
    Placed b pos hi (gs ++ ds) env (glue gs.length p0 place) (glue gs.length envs0 envs) := by
  obtain ⟨is, his, hiss⟩ := hsm
  obtain ⟨ie, hie, hiee⟩ := hem
  have hk : 0 < gs.length := by omega
  have hse : s ≤ e := by have := hin is his; omega
  have gpos : ∀ i, i < gs.length → Positive gs i := by
    intro i hi'
    exact ⟨gs[i], by simp [hi'], hgpos _ (List.getElem_mem hi')⟩
  have hin2 : ∀ i, gs.length ≤ i → Positive (gs ++ ds) i →
      e ≤ (place (i - gs.length)).1 ∧ (place (i - gs.length)).1 ≤ (place (i - gs.length)).2 ∧
      (place (i - gs.length)).2 ≤ hi := by
    intro i hi1 hi2
    rw [Positive.right hi1] at hi2
    exact hpl.inside _ hi2
  have prevR : ∀ i p, gs.length ≤ i → PrevEnd (gs ++ ds) (glue gs.length p0 place) pos i p →
      PrevEnd ds place e (i - gs.length) p := by
    intro i p hi1 ⟨ha, hb, hc⟩
    have hep : e ≤ p := by
      have := hb ie (by omega) ((Positive.left hie).2 (gpos _ hie))
      rw [glue_lt hie] at this; omega
    refine ⟨hep, ?_, ?_⟩
    · intro j hj hpj
      have := hb (gs.length + j) (by omega) ((Positive.right (by omega)).2 (by simpa using hpj))
      rw [glue_add] at this; exact this
    · rcases hc with rfl | ⟨j, hj1, hj2, hj3⟩
      · left; omega
      · by_cases hjk : j < gs.length
        · left
          rw [glue_lt hjk] at hj3
          have := hin j hjk; omega
        · right
          rw [glue_ge (by omega)] at hj3
          exact ⟨j - gs.length, by omega, (Positive.right (by omega)).1 hj2, hj3⟩
  have nextR : ∀ i n, gs.length ≤ i → NextStart (gs ++ ds) (glue gs.length p0 place) hi i n →
      NextStart ds place hi (i - gs.length) n := by
    intro i n hi1 ⟨ha, hb, hc⟩
    refine ⟨ha, ?_, ?_⟩
    · intro j hj hpj
      have := hb (gs.length + j) (by omega) ((Positive.right (by omega)).2 (by simpa using hpj))
      rw [glue_add] at this; exact this
    · rcases hc with h | ⟨j, hj1, hj2, hj3⟩
      · exact .inl h
      · right
        rw [glue_ge (by omega)] at hj3
        exact ⟨j - gs.length, by omega, (Positive.right (by omega)).1 hj2, hj3⟩
  have hdisj_lt : ∀ i j, i < j → Positive (gs ++ ds) i → Positive (gs ++ ds) j →
      Disjoint (glue gs.length p0 place i) (glue gs.length p0 place j) := by
    intro i j hij hpi hpj
    by_cases hi1 : i < gs.length
    · by_cases hj1 : j < gs.length
      · rw [glue_lt hi1, glue_lt hj1]; exact (hord i j hij hj1).2
      · rw [glue_lt hi1, glue_ge (by omega)]
        have h2 := hin i hi1
        have h3 := hin2 j (by omega) hpj
        exact .inl (by omega)
    · rw [glue_ge (by omega), glue_ge (by omega)]
      exact hpl.disjoint _ _ (by omega) ((Positive.right (by omega)).1 hpi) ((Positive.right (by omega)).1 hpj)
  refine ⟨?_, ?_, ?_, ?_, ?_, ?_, ?_, ?_⟩
  · rw [glue_lt hk, h0]
  · intro i hpi
    by_cases hi1 : i < gs.length
    · rw [glue_lt hi1]; have := hin i hi1; omega
    · rw [glue_ge (by omega)]; have := hin2 i (by omega) hpi; omega
  · intro i j hij hpi hpj hng
    by_cases hi1 : i < gs.length
    · by_cases hj1 : j < gs.length
      · exfalso
        apply hng
        intro k h2 h3
        obtain ⟨d, h4, h5⟩ := (hord i j hij hj1).1 k h2 h3
        exact ⟨d, by rw [List.getElem?_append_left (by omega)]; exact h4, h5⟩
      · rw [glue_lt hi1, glue_ge (by omega)]
        have h2 := hin i hi1
        have h3 := hin2 j (by omega) hpj
        omega
    · rw [glue_ge (by omega), glue_ge (by omega)]
      refine hpl.order _ _ (by omega) ((Positive.right (by omega)).1 hpi) ((Positive.right (by omega)).1 hpj) ?_
      intro hg
      apply hng
      have := hg.right (gs := gs)
      rwa [show gs.length + (i - gs.length) = i by omega, show gs.length + (j - gs.length) = j by omega] at this
  · intro i j hij hpi hpj
    rcases Nat.lt_or_gt_of_ne hij with h | h
    · exact hdisj_lt i j h hpi hpj
    · exact (hdisj_lt j i h hpj hpi).symm
  · intro i d p hd hp
    by_cases hi1 : i < gs.length
    · rw [glue_lt hi1, glue_lt hi1]
      have he : glue gs.length envs0 envs (i + 1) = envs0 (i + 1) := by
        by_cases hi2 : i + 1 < gs.length
        · exact glue_lt hi2
        · rw [glue_ge (by omega)]
          have : i + 1 = gs.length := by omega
          rw [this, Nat.sub_self, hpl.start, h1]
      rw [he]
      rw [List.getElem?_append_left hi1] at hd
      refine hfit i d p hd ?_
      obtain ⟨ha, hb, hc⟩ := hp
      refine ⟨ha, ?_, ?_⟩
      · intro j hj hpj
        have := hb j hj ((Positive.left (by omega)).2 hpj)
        rwa [glue_lt (by omega)] at this
      · rcases hc with h | ⟨j, hj1, hj2, hj3⟩
        · exact .inl h
        · rw [glue_lt (by omega)] at hj3
          exact .inr ⟨j, hj1, (Positive.left (by omega)).1 hj2, hj3⟩
    · rw [glue_ge (by omega), glue_ge (by omega), glue_ge (by omega)]
      rw [List.getElem?_append_right (by omega)] at hd
      have := hpl.fits _ d p hd (prevR i p (by omega) hp)
      rwa [show i + 1 - gs.length = i - gs.length + 1 by omega]
  · intro i d p n hd hk' hp hn
    by_cases hi1 : i < gs.length
    · rw [List.getElem?_append_left hi1] at hd
      exact absurd hk' (hgpos d (List.mem_of_getElem? hd))
    · rw [List.getElem?_append_right (by omega)] at hd
      exact hpl.absent _ d p n hd hk' (prevR i p (by omega) hp) (nextR i n (by omega) hn)
  · intro i d hd hk' hb
    by_cases hi1 : i < gs.length
    · have he : glue gs.length envs0 envs (i + 1) = envs0 (i + 1) := by
        by_cases hi2 : i + 1 < gs.length
        · exact glue_lt hi2
        · rw [glue_ge (by omega)]
          have : i + 1 = gs.length := by omega
          rw [this, Nat.sub_self, hpl.start, h1]
      have hleft : ∀ i j, SameDagGroup gs i j → SameDagGroup (gs ++ ds) i j := by
        intro i j h k h2 h3
        obtain ⟨x, h4, h5⟩ := h k h2 h3
        exact ⟨x, by rw [List.getElem?_append_left (List.getElem?_eq_some_iff.1 h4).1]; exact h4, h5⟩
      rw [he, glue_lt hi1]
      have hd0 := hd
      rw [List.getElem?_append_left hi1] at hd
      refine hdg i d hd hk' fun d' hd' => ?_
      obtain ⟨j, hj, hje⟩ := List.mem_iff_getElem.1 hd'
      refine hb j d' (by rw [List.getElem?_append_left hj, ← hje]; exact List.getElem?_eq_getElem hj) ?_
      rcases Nat.lt_trichotomy i j with h | h | h
      · exact .inl ⟨by omega, hleft _ _ (hord i j h hj).1⟩
      · subst h
        refine .inl ⟨by omega, fun k h2 h3 => ?_⟩
        have : k = i := by omega
        subst this
        exact ⟨d, hd0, hk'⟩
      · exact .inr ⟨by omega, hleft _ _ (hord j i h hi1).1⟩
    · rw [glue_ge (by omega), glue_ge (by omega), show i + 1 - gs.length = i - gs.length + 1 by omega]
      rw [List.getElem?_append_right (by omega)] at hd
      refine hpl.dags _ d hd hk' fun j d' hj ht => ?_
      refine hb (gs.length + j) d' (by rw [List.getElem?_append_right (by omega)]; simpa using hj) ?_
      rcases ht with ⟨h2, h3⟩ | ⟨h2, h3⟩
      · refine .inl ⟨by omega, ?_⟩
        have := h3.right (gs := gs)
        rwa [show gs.length + (i - gs.length) = i by omega] at this
      · refine .inr ⟨by omega, ?_⟩
        have := h3.right (gs := gs)
        rwa [show gs.length + (i - gs.length) = i by omega] at this
  · intro i n hw
    by_cases hi1 : i < gs.length
    · by_cases hn0 : n = 0
      · subst hn0
        exact ⟨[], by simp, .nil, .nil⟩
      obtain ⟨d0, g1, g2⟩ := hw.1 0 (by omega)
      rw [Nat.add_zero, List.getElem?_append_left hi1] at g1
      have hall : ∀ j (hj : j < gs.length), gs[j].kind = .dag := by
        intro j hj
        rcases Nat.lt_trichotomy i j with h | h | h
        · obtain ⟨d, h3, h4⟩ := (hord i j h hj).1 j (by omega) (by omega)
          rw [List.getElem?_eq_getElem hj] at h3
          cases h3
          exact h4
        · subst h
          rw [List.getElem?_eq_getElem hj] at g1
          cases g1
          exact g2
        · obtain ⟨d, h3, h4⟩ := (hord j i h hi1).1 j (by omega) (by omega)
          rw [List.getElem?_eq_getElem hj] at h3
          cases h3
          exact h4
      have hi0 : i = 0 := by
        by_contra hne
        refine hw.2.1 (i - 1) gs[i - 1] (by omega) ?_ (hall _ (by omega))
        rw [List.getElem?_append_left (by omega)]
        exact List.getElem?_eq_getElem (by omega)
      subst hi0
      have hn : gs.length ≤ n := by
        by_contra hlt
        refine hw.2.2 gs[n] ?_ (hall n (by omega))
        rw [Nat.zero_add, List.getElem?_append_left (by omega)]
        exact List.getElem?_eq_getElem (by omega)
      obtain ⟨m, rfl⟩ := Nat.exists_eq_add_of_le hn
      have hw2 : WholeDags ds 0 m := by
        refine ⟨fun k hk2 => ?_, fun j d h => by omega, fun d hd => hw.2.2 d ?_⟩
        · obtain ⟨d, h3, h4⟩ := hw.1 (gs.length + k) (by omega)
          rw [List.getElem?_append_right (by omega)] at h3
          exact ⟨d, by rw [← h3]; congr 1; omega, h4⟩
        · rw [List.getElem?_append_right (by omega), ← hd]
          congr 1
          omega
      obtain ⟨o1, a1, a2, a3⟩ := hth fun d hd => by
        obtain ⟨j, hj, rfl⟩ := List.mem_iff_getElem.1 hd
        exact hall j hj
      obtain ⟨o2, b1, b2, b3⟩ := hpl.groups 0 m hw2
      have m1 : ∀ p ∈ o1, p < gs.length := fun p hp => List.mem_range.1 (a1.mem_iff.1 hp)
      have m2 : ∀ p ∈ o2, p < m := fun p hp => by simpa using b1.mem_iff.1 hp
      refine ⟨o1 ++ o2.map (gs.length + ·), ?_, ?_, ?_⟩
      · have e1 : List.range' 0 (gs.length + m) = List.range gs.length ++ (List.range' 0 m).map (gs.length + ·) := by
          rw [List.range_eq_range', ← List.range'_append, List.map_add_range']
          simp
        rw [e1]
        exact a1.append (b1.map _)
      · rw [List.pairwise_append]
        refine ⟨a2.imp_of_mem fun {p q} hp hq h => ?_, ?_, ?_⟩
        · rw [glue_lt (m1 p hp), glue_lt (m1 q hq)]
          exact h
        · rw [List.pairwise_map]
          refine b2.imp fun {p q} h => ?_
          rw [glue_add, glue_add]
          exact h
        · intro p hp q hq
          obtain ⟨q', hq', rfl⟩ := List.mem_map.1 hq
          rw [glue_lt (m1 p hp), glue_add]
          obtain ⟨d, h3, h4⟩ := hw2.1 q' (m2 q' hq')
          rw [Nat.zero_add] at h3
          have := hpl.inside q' ⟨d, h3, by rw [h4]; simp⟩
          have := hin p (m1 p hp)
          omega
      · rw [glue_lt hi1, h0, Nat.zero_add, glue_add, List.map_append]
        rw [hpl.start, Nat.zero_add] at b3
        have l1 := a3.left (ns := ds.map Directive.mean) (place := place)
        have l2 := b3.right (ms := gs.map Directive.mean) (p0 := p0)
        rw [List.length_map] at l1 l2
        exact l1.append l2
    · have hw2 : WholeDags ds (i - gs.length) n := by
        refine ⟨fun k hk2 => ?_, fun j d h hd => hw.2.1 (gs.length + j) d (by omega) ?_, fun d hd => hw.2.2 d ?_⟩
        · obtain ⟨d, h3, h4⟩ := hw.1 k hk2
          rw [List.getElem?_append_right (by omega)] at h3
          exact ⟨d, by rw [← h3]; congr 1; omega, h4⟩
        · rw [List.getElem?_append_right (by omega), ← hd]
          congr 1
          omega
        · rw [List.getElem?_append_right (by omega), ← hd]
          congr 1
          omega
      obtain ⟨o2, b1, b2, b3⟩ := hpl.groups _ n hw2
      refine ⟨o2.map (gs.length + ·), ?_, ?_, ?_⟩
      · have := b1.map (gs.length + ·)
        rw [List.map_add_range', show gs.length + (i - gs.length) = i by omega] at this
        exact this
      · rw [List.pairwise_map]
        refine b2.imp fun {p q} h => ?_
        rw [glue_add, glue_add]
        exact h
      · rw [glue_ge (by omega), glue_ge (by omega), List.map_append, show i + n - gs.length = i - gs.length + n by omega]
        have l2 := b3.right (ms := gs.map Directive.mean) (p0 := p0)
        rw [List.length_map] at l2
        exact l2

/-- Put a `CHECK-NOT` in front of a placement. -/
theorem Spec.Placed.consNot {b : Buf} {pos hi : Nat} {m : Meaning E} {ds : List (Directive E)} {env : E}
    {place : Nat → Nat × Nat} {envs : Nat → E}
    (hpl : Placed b pos hi ds env place envs)
    (hab : ∀ n, n ≤ hi → (∀ j, Positive ds j → n ≤ (place j).1) → (n = hi ∨ ∃ j, Positive ds j ∧ (place j).1 = n) →
      Absent m b pos n) :
    Placed b pos hi (⟨.not, m⟩ :: ds) env (glue 1 (fun _ => (0, 0)) place) (glue 1 (fun _ => env) envs) := by
  have hp0 : ¬ Positive ((⟨.not, m⟩ : Directive E) :: ds) 0 := by rintro ⟨d, h1, h2⟩; simp at h1; subst h1; exact h2 rfl
  have hps : ∀ i, Positive ((⟨.not, m⟩ : Directive E) :: ds) (i + 1) ↔ Positive ds i := by intro i; simp [Positive]
  have hg : ∀ (i : Nat), glue 1 (fun _ => (0, 0)) place (i + 1) = place i := by intro i; rw [Nat.add_comm]; exact glue_add
  have hge : ∀ i, glue 1 (fun _ => env) envs (i + 1) = envs i := by intro i; rw [Nat.add_comm]; exact glue_add
  have prevR : ∀ i p, PrevEnd (⟨.not, m⟩ :: ds) (glue 1 (fun _ => (0, 0)) place) pos (i + 1) p → PrevEnd ds place pos i p := by
    intro i p ⟨ha, hb, hc⟩
    refine ⟨ha, fun j hj hpj => ?_, ?_⟩
    · have := hb (j + 1) (by omega) ((hps j).2 hpj); rwa [hg] at this
    · rcases hc with h | ⟨j, hj1, hj2, hj3⟩
      · exact .inl h
      · cases j with
        | zero => exact absurd hj2 hp0
        | succ j => rw [hg] at hj3; exact .inr ⟨j, by omega, (hps j).1 hj2, hj3⟩
  refine ⟨by simp [glue], ?_, ?_, ?_, ?_, ?_, ?_, ?_⟩
  · intro i hi'
    cases i with
    | zero => exact absurd hi' hp0
    | succ i => rw [hg]; exact hpl.inside i ((hps i).1 hi')
  · intro i j hij h1 h2 h3
    cases i with
    | zero => exact absurd h1 hp0
    | succ i =>
      cases j with
      | zero => omega
      | succ j =>
        rw [hg, hg]
        refine hpl.order i j (by omega) ((hps i).1 h1) ((hps j).1 h2) fun h4 => h3 ?_
        have := h4.right (gs := [⟨.not, m⟩])
        simpa [Nat.add_comm] using this
  · intro i j hij h1 h2
    cases i with
    | zero => exact absurd h1 hp0
    | succ i =>
      cases j with
      | zero => exact absurd h2 hp0
      | succ j => rw [hg, hg]; exact hpl.disjoint i j (by omega) ((hps i).1 h1) ((hps j).1 h2)
  · intro i d p hd hp
    cases i with
    | zero =>
      simp at hd; subst hd
      rw [hge, hpl.start]
      simp [Fits, glue]
    | succ i => rw [hg, hge, hge]; exact hpl.fits i d p (by simpa using hd) (prevR i p hp)
  · intro i d p n hd hk hp hn
    obtain ⟨ha, hb, hc⟩ := hn
    cases i with
    | zero =>
      simp at hd; subst hd
      obtain ⟨h1, h2, h3⟩ := hp
      have hp' : p = pos := by rcases h3 with h | ⟨j, hj, _⟩; exact h; omega
      subst hp'
      refine hab n ha (fun j hpj => ?_) ?_
      · have := hb (j + 1) (by omega) ((hps j).2 hpj); rwa [hg] at this
      · rcases hc with h | ⟨j, hj1, hj2, hj3⟩
        · exact .inl h
        · cases j with
          | zero => omega
          | succ j => rw [hg] at hj3; exact .inr ⟨j, (hps j).1 hj2, hj3⟩
    | succ i =>
      refine hpl.absent i d p n (by simpa using hd) hk (prevR i p hp) ⟨ha, fun j hj hpj => ?_, ?_⟩
      · have := hb (j + 1) (by omega) ((hps j).2 hpj); rwa [hg] at this
      · rcases hc with h | ⟨j, hj1, hj2, hj3⟩
        · exact .inl h
        · cases j with
          | zero => omega
          | succ j => rw [hg] at hj3; exact .inr ⟨j, by omega, (hps j).1 hj2, hj3⟩
  · intro i d hd hk hb
    cases i with
    | zero => simp at hd; subst hd; simp at hk
    | succ i =>
      rw [hge, hge]
      refine hpl.dags i d (by simpa using hd) hk fun j d' hj ht => hb (j + 1) d' (by simpa using hj) ?_
      rcases ht with ⟨h2, h3⟩ | ⟨h2, h3⟩
      · refine .inl ⟨by omega, ?_⟩
        have := h3.right (gs := [⟨.not, m⟩])
        simpa [Nat.add_comm] using this
      · refine .inr ⟨by omega, ?_⟩
        have := h3.right (gs := [⟨.not, m⟩])
        simpa [Nat.add_comm] using this
  · intro i n hw
    cases i with
    | zero =>
      have := hw.nil (d := ⟨.not, m⟩) (by simp) (by simp)
      subst this
      exact ⟨[], by simp, .nil, .nil⟩
    | succ i =>
      have hw2 : WholeDags ds i n := by
        refine ⟨fun k hk2 => ?_, fun j d h hd => hw.2.1 (j + 1) d (by omega) (by simpa using hd), fun d hd => hw.2.2 d ?_⟩
        · obtain ⟨d, h3, h4⟩ := hw.1 k hk2
          rw [show i + 1 + k = i + k + 1 by omega] at h3
          exact ⟨d, by simpa using h3, h4⟩
        · rw [show i + 1 + n = i + n + 1 by omega]
          simpa using hd
      obtain ⟨o2, b1, b2, b3⟩ := hpl.groups i n hw2
      refine ⟨o2.map (1 + ·), ?_, ?_, ?_⟩
      · have := b1.map (1 + ·)
        rw [List.map_add_range', Nat.add_comm 1 i] at this
        exact this
      · rw [List.pairwise_map]
        refine b2.imp fun {p q} h => ?_
        rw [glue_add, glue_add]
        exact h
      · rw [hge, show i + 1 + n = i + n + 1 by omega, hge]
        exact b3.right (ms := [m]) (p0 := fun _ => (0, 0))

theorem count_zero_of_NoLF {b : Buf} {lo hi : Nat} (h : NoLF b lo hi) : lfCount b lo hi = 0 := by
  unfold lfCount between
  rw [List.count_eq_zero]
  intro hm
  obtain ⟨i, hi'⟩ := List.mem_iff_getElem?.1 hm
  rw [List.getElem?_drop, List.getElem?_take] at hi'
  split at hi'
  · exact h (lo + i) (by omega) (by omega) hi'
  · simp at hi'

theorem between_split (b : Buf) {lo mid hi : Nat} (h1 : lo ≤ mid) (h2 : mid ≤ hi) :
    between b lo hi = between b lo mid ++ between b mid hi := by
  unfold between
  apply List.ext_getElem?
  intro i
  rw [List.getElem?_append]
  simp only [List.getElem?_drop, List.getElem?_take, List.length_drop, List.length_take]
  by_cases hm : i < min mid b.length - lo
  · rw [if_pos hm, if_pos (by omega), if_pos (by omega)]
  · rw [if_neg hm]
    by_cases hml : mid ≤ b.length
    · have : mid + (i - (min mid b.length - lo)) = lo + i := by omega
      rw [this]
    · have e1 : b[lo + i]? = none := by rw [List.getElem?_eq_none_iff]; omega
      have e2 : b[mid + (i - (min mid b.length - lo))]? = none := by rw [List.getElem?_eq_none_iff]; omega
      rw [e1, e2]; simp

theorem lfCount_one {b : Buf} {pos n s : Nat} (h : FirstLF b pos n) (hns : n < s) (hno : NoLF b (n + 1) s) :
    lfCount b pos s = 1 := by
  obtain ⟨h1, h2, h3⟩ := h
  have e0 := count_zero_of_NoLF h3
  have e2 := count_zero_of_NoLF hno
  unfold lfCount at *
  rw [between_split b h1 (by omega : n ≤ s), between_split b (by omega : n ≤ n + 1) (by omega : n + 1 ≤ s),
    List.count_append, List.count_append, e0, e2]
  have : between b n (n + 1) = [10] := by
    apply List.ext_getElem?
    intro i
    unfold between
    rw [List.getElem?_drop, List.getElem?_take]
    cases i with
    | zero => simp; exact h2
    | succ i => simp
  rw [this]; rfl

theorem Spec.Step.fits {d : Directive E} {b : Buf} {hi pos s e : Nat} {env env' : E} (h : Step d b hi pos env s e env') :
    Fits b hi d pos env (s, e) env' := by
  obtain ⟨h1, h2, h3, h4⟩ := h
  unfold Fits
  generalize hk : d.kind = k at *
  cases k <;> simp only at h4 ⊢ <;> first | exact h4 | exact h4.elim | skip
  obtain ⟨h5, n, h6, h7, h8⟩ := h4
  refine ⟨h5, ?_, fun i hi1 hi2 => h8 i (by omega) hi2⟩
  exact lfCount_one h6 h7 (fun i hi1 hi2 => h8 i hi1 (by omega))

theorem Spec.Step.positive {d : Directive E} {b : Buf} {hi pos s e : Nat} {env env' : E} (h : Step d b hi pos env s e env') :
    d.kind ≠ .not := by
  intro hk
  obtain ⟨h1, h2, h3, h4⟩ := h
  rw [hk] at h4
  exact h4

theorem Spec.Step.notDag {d : Directive E} {b : Buf} {hi pos s e : Nat} {env env' : E} (h : Step d b hi pos env s e env') :
    d.kind ≠ .dag := by
  intro hk
  obtain ⟨h1, h2, h3, h4⟩ := h
  rw [hk] at h4
  exact h4

theorem prevEnd_zero {ds : List (Directive E)} {place : Nat → Nat × Nat} {lo p : Nat} (h : PrevEnd ds place lo 0 p) :
    p = lo := by
  obtain ⟨_, _, h | ⟨j, hj, _⟩⟩ := h
  · exact h
  · omega

theorem Spec.Placed.one {b : Buf} {pos hi s e : Nat} {d : Directive E} {ds : List (Directive E)} {env env1 : E}
    {place : Nat → Nat × Nat} {envs : Nat → E} (hpos : d.kind ≠ .not) (hpl : Placed b e hi ds env1 place envs)
    (h1 : pos ≤ s) (h2 : s ≤ e) (h3 : e ≤ hi) (hf : Fits b hi d pos env (s, e) env1) (hnd : d.kind ≠ .dag) :
    Placed b pos hi (d :: ds) env (glue 1 (fun _ => (s, e)) place) (glue 1 (fun i => if i = 0 then env else env1) envs) := by
  refine Placed.group (gs := [d]) (s := s) (e := e) (by simpa using hpos) hpl (by simp) (by simp) h1 h3 ?_ ⟨0, by simp⟩ ⟨0, by simp⟩ ?_ ?_ ?_ (fun h => absurd (h d (by simp)) hnd)
  · intro i hi'; simp; omega
  · intro i j h4 h5; simp at h5; omega
  · intro i d' p hd hp
    cases i with
    | zero => simp at hd; subst hd; rw [prevEnd_zero hp]; simpa using hf
    | succ i => simp at hd
  · intro i d' hd hk
    cases i with
    | zero => simp at hd; subst hd; exact absurd hk hnd
    | succ i => simp at hd

/-- A satisfied list of directives has a placement; and what was forbidden is absent up to its first match. -/
theorem Spec.Run.placed {b : Buf} {hi pos pos' : Nat} {env env' : E} {nots : List (Meaning E)}
    {ds : List (Directive E)} (hh : pos ≤ hi) (h : Run b hi pos env nots ds pos' env') :
    ∃ place envs, Placed b pos hi ds env place envs ∧ envs ds.length = env' ∧
      ∀ n, n ≤ hi → (∀ j, Positive ds j → n ≤ (place j).1) → AllAbsent nots b pos n := by
  induction h with
  | @done pos env nots hab =>
    refine ⟨fun _ => (0, 0), fun _ => env, ⟨rfl, ?_, ?_, ?_, ?_, ?_, ?_, ?_⟩, rfl, fun n hn _ => hab.mono (Nat.le_refl _) hn⟩
    · rintro i ⟨d, h1, _⟩; simp at h1
    · rintro i j _ ⟨d, h1, _⟩; simp at h1
    · rintro i j _ ⟨d, h1, _⟩; simp at h1
    · intro i d p h1; simp at h1
    · intro i d p n h1; simp at h1
    · intro i d h1; simp at h1
    · intro i n hw
      have : n = 0 := by
        by_contra hn
        obtain ⟨d, h1, _⟩ := hw.1 0 (by omega)
        simp at h1
      subst this
      exact ⟨[], by simp, .nil, .nil⟩
  | @not pos env nots m ds pos' env' hr ih =>
    obtain ⟨place, envs, h1, hend, h2⟩ := ih hh
    refine ⟨_, _, h1.consNot (m := m) ?_, ?_, ?_⟩
    · intro n hn hle _
      exact h2 n hn hle m (by simp)
    · rw [List.length_cons, Nat.add_comm, glue_add]; exact hend
    · intro n hn hle
      have h3 := h2 n hn (fun j hj => by
        have := hle (j + 1) (by simpa [Positive] using hj)
        rw [Nat.add_comm, glue_add] at this; exact this)
      exact fun m' hm' => h3 m' (by simp [hm'])
  | @step pos env nots d ds s e env1 pos' env' hs hab hr ih =>
    have hb := hs
    obtain ⟨b1, b2, b3, _⟩ := hb
    obtain ⟨place, envs, h1, hend, h2⟩ := ih b3
    refine ⟨_, _, h1.one hs.positive b1 b2 b3 hs.fits hs.notDag, by rw [List.length_cons, Nat.add_comm, glue_add]; exact hend, ?_⟩
    intro n hn hle
    have := hle 0 ⟨d, by simp, hs.positive⟩
    rw [glue_lt (by omega)] at this
    exact hab.mono (Nat.le_refl _) this
  | @count pos env nots c m ds s e env1 pos' env' hs hab hr ih =>
    obtain ⟨b1, b2, b3⟩ := hs.bounds
    obtain ⟨place, envs, h1, hend, h2⟩ := ih b3
    refine ⟨_, _, h1.one (d := ⟨.count c, m⟩) (by simp) b1 b2 b3 (by simpa [Fits] using hs) (by simp), by rw [List.length_cons, Nat.add_comm, glue_add]; exact hend, ?_⟩
    intro n hn hle
    have := hle 0 ⟨⟨.count c, m⟩, by simp, by simp⟩
    rw [glue_lt (by omega)] at this
    exact hab.mono (Nat.le_refl _) this
  | @dags pos env nots ms ds s e env1 pos' env' hne hd hab hr ih =>
    obtain ⟨b1, b2, b3⟩ := hd.match_.bounds
    have hvs := hd.keeps
    obtain ⟨spans, hf, hpw, hse, ⟨s0, hs0, hs1⟩, ⟨e0, he0, he1⟩, order, ho1, ho2, ho3⟩ := hd
    obtain ⟨place, envs, h1, hend, h2⟩ := ih b3
    have hlen : spans.length = ms.length := hf.length_eq.symm
    have hgl : (ms.map (fun m => (⟨.dag, m⟩ : Directive E))).length = ms.length := by simp
    have hgd : ∀ i, i < ms.length → spans.getD i (0, 0) ∈ spans := by
      intro i hi'
      rw [List.getD_eq_getElem?_getD, List.getElem?_eq_getElem (by omega)]
      exact List.getElem_mem _
    obtain ⟨is, his, hiss⟩ := List.mem_iff_getElem.1 hs0
    obtain ⟨ie, hie, hiee⟩ := List.mem_iff_getElem.1 he0
    have hbnd : ∀ i, i < ms.length → (spans.getD i (0,0)).1 ≤ (spans.getD i (0,0)).2 := by
      intro i hi'
      have := hf.get (i := i) (by omega) (by omega)
      rw [List.getD_eq_getElem?_getD, List.getElem?_eq_getElem (by omega)]
      exact this.2.1
    refine ⟨_, _, Placed.group (gs := ms.map (⟨.dag, ·⟩)) (p0 := fun i => spans.getD i (0, 0))
      (envs0 := fun i => if i < ms.length then env else env1) (s := s) (e := e) ?_ h1 ?_ ?_ b1 b3 ?_ ?_ ?_ ?_ ?_ ?_ ?_, by rw [List.length_append, glue_add]; exact hend, ?_⟩
    · intro d hd'; obtain ⟨m, _, rfl⟩ := List.mem_map.1 hd'; simp
    · have : 0 < ms.length := List.length_pos_iff.2 hne
      simp [this]
    · simp
    · intro i hi'
      rw [hgl] at hi'
      have := hse _ (hgd i hi')
      have := hbnd i hi'
      omega
    · exact ⟨is, by rw [hgl]; omega, by simp only [List.getD_eq_getElem?_getD]; rw [List.getElem?_eq_getElem his]; simp [hiss, hs1]⟩
    · exact ⟨ie, by rw [hgl]; omega, by simp only [List.getD_eq_getElem?_getD]; rw [List.getElem?_eq_getElem hie]; simp [hiee, he1]⟩
    · intro i j hij hj
      rw [hgl] at hj
      refine ⟨fun k hk1 hk2 => ?_, ?_⟩
      · exact ⟨⟨.dag, ms[k]⟩, by simp [show k < ms.length by omega], rfl⟩
      · have := List.pairwise_iff_getElem.1 hpw i j (by omega) (by omega) hij
        simp only [List.getD_eq_getElem?_getD]
        rw [List.getElem?_eq_getElem (by omega), List.getElem?_eq_getElem (by omega)]
        exact this
    · intro i d p hd' hp
      have hi' : i < ms.length := by
        have := (List.getElem?_eq_some_iff.1 hd').1; rwa [hgl] at this
      rw [List.getElem?_map, List.getElem?_eq_getElem hi'] at hd'
      simp at hd'
      subst hd'
      have := hf.get (i := i) (by omega) (by omega)
      obtain ⟨_, _, _, x, y, h5⟩ := this
      simp only [List.getD_eq_getElem?_getD]
      rw [List.getElem?_eq_getElem (by omega)]
      exact ⟨x, y, h5⟩
    · intro i d hd' _ hb
      have hi' : i < ms.length := by
        have := (List.getElem?_eq_some_iff.1 hd').1; rwa [hgl] at this
      have := hvs fun m hm => hb ⟨.dag, m⟩ (List.mem_map_of_mem hm)
      rw [this]
      simp
    · intro _
      have hget : ∀ p sp, spans[p]? = some sp → spans.getD p (0, 0) = sp := fun p sp h => by rw [List.getD_eq_getElem?_getD, h]; rfl
      refine ⟨order, by rw [hgl]; exact ho1, ?_, ?_⟩
      · refine ho2.imp_of_mem fun {p q} hp hq h => ?_
        have hp' : p < spans.length := by rw [hlen]; exact List.mem_range.1 (ho1.mem_iff.1 hp)
        have hq' : q < spans.length := by rw [hlen]; exact List.mem_range.1 (ho1.mem_iff.1 hq)
        have := h _ _ (List.getElem?_eq_getElem hp') (List.getElem?_eq_getElem hq')
        rw [hget p _ (List.getElem?_eq_getElem hp'), hget q _ (List.getElem?_eq_getElem hq')]
        exact this
      · rw [List.map_map, show (Directive.mean ∘ fun m => (⟨.dag, m⟩ : Directive E)) = id from rfl, List.map_id]
        exact ho3.inTurn
    · intro n hn hle
      have := hle is (by rw [Positive.left (by rw [hgl]; omega)]; exact ⟨⟨.dag, ms[is]'(by omega)⟩, by simp [show is < ms.length by omega], by simp⟩)
      rw [glue_lt (by rw [hgl]; omega)] at this
      simp only [List.getD_eq_getElem?_getD] at this
      rw [List.getElem?_eq_getElem his] at this
      simp [hiss, hs1] at this
      exact hab.mono (Nat.le_refl _) this

end Litcheck
