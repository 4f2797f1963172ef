import Verif.Model.PathTree

/-!
# Proofs about the path tree
-/

namespace Litcheck.PathTree

/-! ## Prefixes -/

/-- The ways a component can stand to a path. -/
theorem commonPrefix_acc (acc c p : FPath) :
    (c = p ∧ commonPrefix acc c p = some .exact) ∨
    (∃ r, r ≠ [] ∧ p = c ++ r ∧ commonPrefix acc c p = some .child) ∨
    (∃ r, r ≠ [] ∧ c = p ++ r ∧ commonPrefix acc c p = some .ancestor) ∨
    (∃ s a as b bs, a ≠ b ∧ c = s ++ a :: as ∧ p = s ++ b :: bs ∧
      commonPrefix acc c p = if acc ++ s = [] then none else some (.part (acc ++ s))) := by
  induction c generalizing acc p with
  | nil =>
    cases p with
    | nil => left; exact ⟨rfl, rfl⟩
    | cons b bs => right; left; exact ⟨b :: bs, by simp, rfl, rfl⟩
  | cons a as ih =>
    cases p with
    | nil => right; right; left; exact ⟨a :: as, by simp, rfl, rfl⟩
    | cons b bs =>
      by_cases hab : a = b
      · subst hab
        have hstep : commonPrefix acc (a :: as) (a :: bs) = commonPrefix (acc ++ [a]) as bs := by
          rw [commonPrefix, if_pos rfl]
        rcases ih (acc ++ [a]) bs with ⟨h1, h2⟩ | ⟨r, h1, h2, h3⟩ | ⟨r, h1, h2, h3⟩ | ⟨s, x, xs, y, ys, h1, h2, h3, h4⟩
        · left; exact ⟨by rw [h1], by rw [hstep, h2]⟩
        · right; left; exact ⟨r, h1, by rw [h2]; rfl, by rw [hstep, h3]⟩
        · right; right; left; exact ⟨r, h1, by rw [h2]; rfl, by rw [hstep, h3]⟩
        · right; right; right
          refine ⟨a :: s, x, xs, y, ys, h1, by rw [h2]; rfl, by rw [h3]; rfl, ?_⟩
          rw [hstep, h4]
          simp
      · right; right; right
        refine ⟨[], a, as, b, bs, hab, rfl, rfl, ?_⟩
        rw [commonPrefix, if_neg hab]
        simp

theorem hasCommonPrefix_true (c p : FPath) : hasCommonPrefix true c p = true := by
  induction c generalizing p with
  | nil => rfl
  | cons a as ih =>
    cases p with
    | nil => rfl
    | cons b bs =>
      rw [hasCommonPrefix]
      split
      · exact ih bs
      · rfl

theorem hasCommonPrefix_iff (c p : FPath) (hp : p ≠ []) :
    hasCommonPrefix false c p = true ↔ c = [] ∨ c.head? = p.head? := by
  cases c with
  | nil => simp [hasCommonPrefix]
  | cons a as =>
    cases p with
    | nil => exact absurd rfl hp
    | cons b bs =>
      rw [hasCommonPrefix]
      by_cases h : a = b
      · simp [h, hasCommonPrefix_true]
      · simp [h]

theorem commonPrefix_cases (c p : FPath) (h : hasCommonPrefix false c p = true) (hp : p ≠ []) :
    (c = p ∧ commonPrefix [] c p = some .exact) ∨
    (∃ r, r ≠ [] ∧ p = c ++ r ∧ commonPrefix [] c p = some .child) ∨
    (∃ r, r ≠ [] ∧ c = p ++ r ∧ commonPrefix [] c p = some .ancestor) ∨
    (∃ s a as b bs, s ≠ [] ∧ a ≠ b ∧ c = s ++ a :: as ∧ p = s ++ b :: bs ∧
      commonPrefix [] c p = some (.part s)) := by
  rcases commonPrefix_acc [] c p with h1 | h1 | h1 | ⟨s, a, as, b, bs, h1, h2, h3, h4⟩
  · exact .inl h1
  · exact .inr (.inl h1)
  · exact .inr (.inr (.inl h1))
  · have hs : s ≠ [] := by
      rintro rfl
      rw [hasCommonPrefix_iff c p hp] at h
      rcases h with h | h
      · simp [h] at h2
      · rw [h2, h3] at h
        simp only [List.nil_append, List.head?_cons, Option.some.injEq] at h
        exact h1 h
    refine .inr (.inr (.inr ⟨s, a, as, b, bs, hs, h1, h2, h3, ?_⟩))
    rw [h4, List.nil_append, if_neg hs]

theorem strip_iff (c p r : FPath) : strip c p = some r ↔ p = c ++ r := by
  induction c generalizing p with
  | nil => simp [strip, eq_comm]
  | cons a as ih =>
    cases p with
    | nil => simp [strip]
    | cons b bs =>
      rw [strip]
      by_cases h : a = b
      · simp [h, ih]
      · simp only [h, if_false]
        constructor
        · intro h'; cases h'
        · intro h'
          simp only [List.cons_append, List.cons.injEq] at h'
          exact absurd h'.1.symm h

theorem strip_append (c r : FPath) : strip c (c ++ r) = some r := (strip_iff _ _ _).2 rfl

theorem strip_none (c p : FPath) : strip c p = none ↔ ∀ r, p ≠ c ++ r := by
  constructor
  · intro h r hr
    rw [(strip_iff _ _ _).2 hr] at h
    cases h
  · intro h
    cases hs : strip c p with
    | none => rfl
    | some r => exact absurd ((strip_iff _ _ _).1 hs) (h r)

/-! ## What a node answers for a path -/

/-- Whether a node is a directory, and its data. -/
def view : Node → Bool × Option Nat
  | .leaf _ _ d => (false, d)
  | .branch _ _ d => (true, d)

theorem view_data (n : Node) : (view n).2 = n.data := by cases n <;> rfl

def look (n : Node) (q : FPath) : Option (Bool × Option Nat) := (getNode n q).map view

def lookL (ns : List Node) (q : FPath) : Option (Bool × Option Nat) := (getFirst ns q).map view

theorem look_leaf (c : FPath) (ty : Ty) (d : Option Nat) (q : FPath) :
    look (.leaf c ty d) q = if q = c then some (false, d) else none := by
  unfold look
  rw [getNode]
  split <;> rfl

theorem look_branch (c : FPath) (ch : List Node) (d : Option Nat) (q : FPath) :
    look (.branch c ch d) q =
      match strip c q with
      | none => none
      | some r => if r = [] then some (true, d) else lookL ch r := by
  unfold look lookL
  rw [getNode]
  cases strip c q with
  | none => rfl
  | some r =>
    simp only []
    split <;> rfl

theorem look_branch_self (c : FPath) (ch : List Node) (d : Option Nat) :
    look (.branch c ch d) c = some (true, d) := by
  have : strip c c = some [] := by simpa using strip_append c []
  rw [look_branch, this]
  simp

theorem look_branch_below (c : FPath) (ch : List Node) (d : Option Nat) (r : FPath) (hr : r ≠ []) :
    look (.branch c ch d) (c ++ r) = lookL ch r := by
  rw [look_branch, strip_append]
  simp [hr]

theorem look_branch_none (c : FPath) (ch : List Node) (d : Option Nat) (q : FPath) (h : ∀ r, q ≠ c ++ r) :
    look (.branch c ch d) q = none := by
  rw [look_branch, (strip_none c q).2 h]

theorem lookL_cons (n : Node) (ns : List Node) (q : FPath) :
    lookL (n :: ns) q = if hasCommonPrefix false n.comp q = true then look n q else lookL ns q := by
  unfold lookL look
  rw [getFirst]
  split <;> rfl

theorem look_prefix {n : Node} {q : FPath} {v : Bool × Option Nat} (h : look n q = some v) :
    ∃ r, q = n.comp ++ r := by
  cases n with
  | leaf c ty d =>
    rw [look_leaf] at h
    split at h
    · exact ⟨[], by simpa [Node.comp]⟩
    · cases h
  | branch c ch d =>
    rw [look_branch] at h
    split at h
    · cases h
    · rename_i r hr
      exact ⟨r, (strip_iff _ _ _).1 hr⟩

theorem look_head {n : Node} {q : FPath} {v : Bool × Option Nat} (hc : n.comp ≠ []) (h : look n q = some v) :
    n.comp.head? = q.head? := by
  obtain ⟨r, rfl⟩ := look_prefix h
  obtain ⟨a, as, ha⟩ := List.exists_cons_of_ne_nil hc
  rw [ha]
  rfl

theorem look_ne_head {n : Node} {q : FPath} (hc : n.comp ≠ []) (h : n.comp.head? ≠ q.head?) : look n q = none := by
  cases hl : look n q with
  | none => rfl
  | some v => exact absurd (look_head hc hl) h

/-! ## Well-formed nodes -/

/-- No two nodes begin with the same component. -/
def Heads (ns : List Node) : Prop := (ns.map fun n => n.comp.head?).Nodup

/-- Children have components, with distinct beginnings; and no node is there without need. -/
inductive WF : Node → Prop
  | leaf (c : FPath) (ty : Ty) (k : Nat) : WF (.leaf c ty (some k))
  | branch (c : FPath) (ch : List Node) (d : Option Nat) :
      (∀ n ∈ ch, WF n) → (∀ n ∈ ch, n.comp ≠ []) → Heads ch → (d = none → ch ≠ []) → WF (.branch c ch d)

/-- A list of children. -/
structure WFL (ns : List Node) : Prop where
  wf : ∀ n ∈ ns, WF n
  ne : ∀ n ∈ ns, n.comp ≠ []
  heads : Heads ns

theorem WFL.tail {n : Node} {ns : List Node} (h : WFL (n :: ns)) : WFL ns :=
  ⟨fun m hm => h.wf m (by simp [hm]), fun m hm => h.ne m (by simp [hm]), by
    have := h.heads
    unfold Heads at this ⊢
    simp only [List.map_cons, List.nodup_cons] at this
    exact this.2⟩

theorem WF.children {c : FPath} {ch : List Node} {d : Option Nat} (h : WF (.branch c ch d)) : WFL ch := by
  cases h with
  | branch _ _ _ h1 h2 h3 _ => exact ⟨h1, h2, h3⟩

theorem lookL_iff {ns : List Node} (h : WFL ns) {q : FPath} (hq : q ≠ []) (v : Bool × Option Nat) :
    lookL ns q = some v ↔ ∃ n ∈ ns, look n q = some v := by
  induction ns with
  | nil => simp [lookL, getFirst]
  | cons n ns ih =>
    rw [lookL_cons]
    by_cases hh : hasCommonPrefix false n.comp q = true
    · rw [if_pos hh]
      constructor
      · intro h1; exact ⟨n, by simp, h1⟩
      · rintro ⟨m, hm, h1⟩
        rcases List.mem_cons.1 hm with rfl | hm
        · exact h1
        · exfalso
          have hhd := look_head (h.ne m (by simp [hm])) h1
          rw [hasCommonPrefix_iff _ _ hq] at hh
          rcases hh with hh | hh
          · exact h.ne n (by simp) hh
          · have := h.heads
            unfold Heads at this
            simp only [List.map_cons, List.nodup_cons, List.mem_map, not_exists, not_and] at this
            exact this.1 m hm (by rw [hhd, hh])
    · rw [if_neg hh, ih h.tail]
      constructor
      · rintro ⟨m, hm, h1⟩; exact ⟨m, by simp [hm], h1⟩
      · rintro ⟨m, hm, h1⟩
        rcases List.mem_cons.1 hm with rfl | hm
        · exfalso
          apply hh
          rw [hasCommonPrefix_iff _ _ hq]
          exact .inr (look_head (h.ne m (by simp)) h1)
        · exact ⟨m, hm, h1⟩

theorem option_ext {α : Type} {x y : Option α} (h : ∀ v, x = some v ↔ y = some v) : x = y := by
  cases x with
  | none =>
    cases y with
    | none => rfl
    | some b => have := (h b).2 rfl; cases this
  | some a => exact ((h a).1 rfl).symm

theorem WFL.perm {ns ms : List Node} (h : WFL ns) (hp : ns.Perm ms) : WFL ms :=
  ⟨fun n hn => h.wf n (hp.mem_iff.2 hn), fun n hn => h.ne n (hp.mem_iff.2 hn),
    ((hp.map _).nodup_iff).1 h.heads⟩

theorem lookL_perm {ns ms : List Node} (h : WFL ns) (hp : ns.Perm ms) {q : FPath} (hq : q ≠ []) :
    lookL ns q = lookL ms q := by
  refine option_ext fun v => ?_
  rw [lookL_iff h hq, lookL_iff (h.perm hp) hq]
  constructor
  · rintro ⟨n, hn, h⟩; exact ⟨n, hp.mem_iff.1 hn, h⟩
  · rintro ⟨n, hn, h⟩; exact ⟨n, hp.mem_iff.2 hn, h⟩

theorem sortNodes_perm (l : List Node) : (sortNodes l).Perm l := List.perm_insertionSort _ _

/-! ## What insertion does -/

/-- The effect of inserting `p` with type `ty` and key `k`, on the answers. -/
structure Ins (f f' : FPath → Option (Bool × Option Nat)) (p : FPath) (ty : Ty) (k : Nat) : Prop where
  other : ∀ q, q ≠ [] → q ≠ p → (∀ r, p ≠ q ++ r) → f' q = f q
  above : ∀ q r, q ≠ [] → r ≠ [] → p = q ++ r →
    f' q = (f q).map (fun v => (true, v.2)) ∨ (f q = none ∧ f' q = some (true, none))
  entry : ∃ b, f' p = some (b, some k) ∧ (ty = .dir → b = true) ∧ (∀ d, f p = some (true, d) → b = true) ∧
    (b = true → ty = .dir ∨ ∃ r b' k', r ≠ [] ∧ f (p ++ r) = some (b', some k'))

theorem Ins.data {f f' : FPath → Option (Bool × Option Nat)} {p : FPath} {ty : Ty} {k : Nat} (h : Ins f f' p ty k)
    (q : FPath) (hq : q ≠ []) : (f' q).bind (·.2) = if q = p then some k else (f q).bind (·.2) := by
  by_cases hqp : q = p
  · subst hqp
    obtain ⟨b, hb, _⟩ := h.entry
    simp [hb]
  · rw [if_neg hqp]
    by_cases hr : ∃ r, p = q ++ r
    · obtain ⟨r, hr⟩ := hr
      have hrn : r ≠ [] := by rintro rfl; simp at hr; exact hqp hr.symm
      rcases h.above q r hq hrn hr with h1 | ⟨h1, h2⟩
      · rw [h1]; cases f q <;> rfl
      · rw [h1, h2]; rfl
    · rw [h.other q hq hqp (fun r hr' => hr ⟨r, hr'⟩)]

/-- Insertion below `c`. -/
theorem Ins.lift {g g' f f' : FPath → Option (Bool × Option Nat)} {c p : FPath} {ty : Ty} {k : Nat} (hp : p ≠ [])
    (h : Ins g g' p ty k) (hg : ∀ r, r ≠ [] → f (c ++ r) = g r) (hg' : ∀ r, r ≠ [] → f' (c ++ r) = g' r)
    (hc : c ≠ [] → ∃ b d, f c = some (b, d) ∧ f' c = some (true, d))
    (hn : ∀ q, (∀ r, q ≠ c ++ r) → f q = none ∧ f' q = none) : Ins f f' (c ++ p) ty k where
  other := by
    intro q hq hqp hpre
    by_cases hr : ∃ r, q = c ++ r
    · obtain ⟨r, rfl⟩ := hr
      by_cases hrn : r = []
      · subst hrn
        exact absurd (by simp) (hpre p)
      · rw [hg r hrn, hg' r hrn]
        refine h.other r hrn (by rintro rfl; exact hqp rfl) ?_
        intro s hs
        exact hpre s (by rw [hs]; simp)
    · have := hn q (fun r hr' => hr ⟨r, hr'⟩)
      rw [this.1, this.2]
  above := by
    intro q r hq hr hpr
    by_cases hqc : ∃ s, q = c ++ s
    · obtain ⟨s, rfl⟩ := hqc
      by_cases hs : s = []
      · subst hs
        rw [List.append_nil] at hq hpr ⊢
        obtain ⟨b, d, h1, h2⟩ := hc hq
        left
        rw [h1, h2]
        rfl
      · rw [hg s hs, hg' s hs]
        refine h.above s r hs hr ?_
        rw [List.append_assoc] at hpr
        exact List.append_cancel_left hpr
    · have := hn q (fun r hr' => hqc ⟨r, hr'⟩)
      left
      rw [this.1, this.2]
      rfl
  entry := by
    obtain ⟨b, h1, h2, h3, h4⟩ := h.entry
    refine ⟨b, by rw [hg' p hp, h1], h2, ?_, ?_⟩
    · intro d hd
      rw [hg p hp] at hd
      exact h3 d hd
    · intro hb
      rcases h4 hb with h5 | ⟨r, b', k', hr, h5⟩
      · exact .inl h5
      · refine .inr ⟨r, b', k', hr, ?_⟩
        rw [List.append_assoc, hg (p ++ r) (by simp [hp])]
        exact h5

theorem look_newNode (c : FPath) (ty : Ty) (k : Nat) (q : FPath) :
    look (newNode c ty k) q = if q = c then some (decide (ty = .dir), some k) else none := by
  cases ty with
  | unknown => exact look_leaf _ _ _ _
  | file => exact look_leaf _ _ _ _
  | dir =>
    show look (.branch c [] (some k)) q = _
    by_cases h : q = c
    · subst h
      rw [look_branch_self]
      simp
    · rw [if_neg h, look_branch]
      split
      · rfl
      · rename_i r hr
        have := (strip_iff _ _ _).1 hr
        have hrn : r ≠ [] := by rintro rfl; simp at this; exact h this
        rw [if_neg hrn]
        rfl

theorem newNode_comp (c : FPath) (ty : Ty) (k : Nat) : (newNode c ty k).comp = c := by cases ty <;> rfl

theorem newNode_wf (c : FPath) (ty : Ty) (k : Nat) : WF (newNode c ty k) := by
  cases ty with
  | unknown => exact .leaf _ _ _
  | file => exact .leaf _ _ _
  | dir => exact .branch _ _ _ (by simp) (by simp) (by simp [Heads]) (by simp)

/-- The first entry ever. -/
theorem Ins.new (ty : Ty) (k : Nat) (p : FPath) :
    Ins (fun _ => none) (fun q => if q = p then some (decide (ty = .dir), some k) else none) p ty k where
  other := by intro q _ h _; simp [h]
  above := by
    intro q r _ hr h
    left
    have : q ≠ p := by rintro rfl; simp at h; exact hr h
    simp [this]
  entry := ⟨decide (ty = .dir), by simp, by simp, by simp, by simp⟩

theorem look_under (n : Node) (pre rest : FPath) (h : n.comp = pre ++ rest) (r : FPath) :
    look (n.under pre) r = look n (pre ++ r) := by
  cases n with
  | leaf c ty d =>
    simp only [Node.comp] at h
    subst h
    simp only [Node.under, strip_append, Option.getD_some]
    rw [look_leaf, look_leaf]
    by_cases hr : r = rest
    · simp [hr]
    · rw [if_neg hr, if_neg (by simpa using hr)]
  | branch c ch d =>
    simp only [Node.comp] at h
    subst h
    simp only [Node.under, strip_append, Option.getD_some]
    rw [look_branch, look_branch]
    have : strip (pre ++ rest) (pre ++ r) = strip rest r := by
      refine option_ext fun v => ?_
      rw [strip_iff, strip_iff, List.append_assoc]
      exact List.append_right_inj pre
    rw [this]

theorem under_comp (n : Node) (pre rest : FPath) (h : n.comp = pre ++ rest) : (n.under pre).comp = rest := by
  cases n <;> (simp only [Node.comp] at h; subst h; simp [Node.under, Node.comp, strip_append])

theorem under_wf {n : Node} (h : WF n) (pre : FPath) : WF (n.under pre) := by
  cases h with
  | leaf c ty k => exact .leaf _ _ _
  | branch c ch d h1 h2 h3 h4 => exact .branch _ _ _ h1 h2 h3 h4

/-- Every node leads to data. -/
theorem WF.has_data {n : Node} (h : WF n) : ∃ r b k, look n (n.comp ++ r) = some (b, some k) := by
  induction h with
  | leaf c ty k => exact ⟨[], false, k, by rw [look_leaf]; simp [Node.comp]⟩
  | branch c ch d h1 h2 h3 h4 ih =>
    cases d with
    | some k => exact ⟨[], true, k, by simp [Node.comp, look_branch_self]⟩
    | none =>
      obtain ⟨m, ms, hm⟩ := List.exists_cons_of_ne_nil (h4 rfl)
      obtain ⟨r, b, k, hr⟩ := ih m (by simp [hm])
      have hne : m.comp ++ r ≠ [] := by
        have := h2 m (by simp [hm])
        simp [this]
      refine ⟨m.comp ++ r, b, k, ?_⟩
      show look _ (c ++ _) = _
      rw [look_branch_below _ _ _ _ hne, lookL_iff ⟨h1, h2, h3⟩ hne]
      exact ⟨m, by simp [hm], hr⟩

theorem leaf_no_look (n : Node) (q : FPath) (h : ∀ r, q ≠ n.comp ++ r) : look n q = none := by
  cases hl : look n q with
  | none => rfl
  | some v =>
    obtain ⟨r, hr⟩ := look_prefix hl
    exact absurd hr (h r)

/-- Insertion at a proper ancestor of the node. -/
theorem Ins.ancestor {n : Node} (hw : WF n) (p rest : FPath) (hp : p ≠ []) (hr : rest ≠ []) (hc : n.comp = p ++ rest)
    (ty : Ty) (k : Nat) :
    WF (.branch p [n.under p] (some k)) ∧ Ins (look n) (look (.branch p [n.under p] (some k))) p ty k := by
  have hu := under_comp n p rest hc
  have hwl : WFL [n.under p] := ⟨by simp [under_wf hw], by simp [hu, hr], by simp [Heads]⟩
  refine ⟨.branch _ _ _ hwl.wf hwl.ne hwl.heads (by simp), ?_⟩
  have hbelow : ∀ r, r ≠ [] → look (.branch p [n.under p] (some k)) (p ++ r) = look n (p ++ r) := by
    intro r hrn
    rw [look_branch_below _ _ _ _ hrn]
    refine option_ext fun v => ?_
    rw [lookL_iff hwl hrn]
    simp [look_under n p rest hc]
  refine ⟨?_, ?_, ?_⟩
  · intro q hq hqp hpre
    by_cases h : ∃ r, q = p ++ r
    · obtain ⟨r, rfl⟩ := h
      exact hbelow r (by rintro rfl; simp at hqp)
    · rw [look_branch_none _ _ _ _ (fun r hr' => h ⟨r, hr'⟩), leaf_no_look]
      intro r hr'
      exact h ⟨rest ++ r, by rw [hr', hc]; simp⟩
  · intro q r hq hrn hpr
    left
    have h1 : ∀ s, q ≠ n.comp ++ s := by
      intro s hs
      have h1 := congrArg List.length hs
      have h2 := congrArg List.length hpr
      rw [hc] at h1
      simp only [List.length_append] at h1 h2
      have := List.length_pos_of_ne_nil hrn
      omega
    have h2 : ∀ s, q ≠ p ++ s := by
      intro s hs
      have h1 := congrArg List.length hs
      have h2 := congrArg List.length hpr
      simp only [List.length_append] at h1 h2
      have := List.length_pos_of_ne_nil hrn
      omega
    rw [look_branch_none _ _ _ _ h2, leaf_no_look n q h1]
    rfl
  · refine ⟨true, look_branch_self _ _ _, by simp, by simp, ?_⟩
    intro _
    right
    obtain ⟨r, b, k', h⟩ := hw.has_data
    rw [hc, List.append_assoc] at h
    exact ⟨rest ++ r, b, k', by simp [hr], h⟩

theorem heads_pair {a b : Node} (h : a.comp.head? ≠ b.comp.head?) : Heads [a, b] := by
  simp [Heads, h]

/-- Insertion beside the node, below a common prefix. -/
theorem Ins.beside {n : Node} (hw : WF n) (s : FPath) (a : Comp) (as : FPath) (b : Comp) (bs : FPath) (hs : s ≠ [])
    (hab : a ≠ b) (hc : n.comp = s ++ a :: as) (ty : Ty) (k : Nat) :
    WF (n.insertPartial s (s ++ b :: bs) ty k) ∧
      Ins (look n) (look (n.insertPartial s (s ++ b :: bs) ty k)) (s ++ b :: bs) ty k := by
  unfold Node.insertPartial
  rw [strip_append, Option.getD_some]
  have hu := under_comp n s (a :: as) hc
  have hwl0 : WFL [n.under s, newNode (b :: bs) ty k] := by
    refine ⟨by simp [under_wf hw, newNode_wf], by simp [hu, newNode_comp], ?_⟩
    refine heads_pair ?_
    rw [hu, newNode_comp]
    simpa using hab
  have hperm := (sortNodes_perm [n.under s, newNode (b :: bs) ty k]).symm
  have hwl := hwl0.perm hperm
  refine ⟨.branch _ _ _ hwl.wf hwl.ne hwl.heads ?_, ?_⟩
  · intro _ h
    rw [h] at hperm
    have := hperm.length_eq
    simp at this
  have hbelow : ∀ r, r ≠ [] → look (.branch s (sortNodes [n.under s, newNode (b :: bs) ty k]) none) (s ++ r) =
      if r = b :: bs then some (decide (ty = .dir), some k) else look n (s ++ r) := by
    intro r hrn
    rw [look_branch_below _ _ _ _ hrn, ← lookL_perm hwl0 hperm hrn]
    refine option_ext fun v => ?_
    rw [lookL_iff hwl0 hrn]
    simp only [List.mem_cons, List.not_mem_nil, or_false, exists_eq_or_imp, exists_eq_left, look_under n s _ hc,
      look_newNode]
    by_cases h : r = b :: bs
    · have : look n (s ++ r) = none := by
        refine leaf_no_look n _ ?_
        intro x hx
        rw [hc, h, List.append_assoc] at hx
        have := List.append_cancel_left hx
        simp only [List.cons_append, List.cons.injEq] at this
        exact hab this.1.symm
      rw [this, if_pos h]
      simp
    · rw [if_neg h]
      simp [h]
  have hlen : ∀ q r : FPath, r ≠ [] → s = q ++ r → look n q = none := by
    intro q r hr hq
    refine leaf_no_look n _ ?_
    intro x hx
    rw [hc, hq] at hx
    have := congrArg List.length hx
    simp only [List.length_append, List.length_cons] at this
    omega
  have hself : look n s = none := by
    refine leaf_no_look n _ ?_
    intro x hx
    rw [hc] at hx
    have := congrArg List.length hx
    simp only [List.length_append, List.length_cons] at this
    omega
  refine ⟨?_, ?_, ?_⟩
  · intro q hq hqp hpre
    by_cases h : ∃ r, q = s ++ r
    · obtain ⟨r, rfl⟩ := h
      have hrn : r ≠ [] := by
        rintro rfl
        exact hpre (b :: bs) (by simp)
      rw [hbelow r hrn, if_neg (by rintro rfl; exact hqp rfl)]
    · rw [look_branch_none _ _ _ _ (fun r hr' => h ⟨r, hr'⟩), leaf_no_look]
      intro r hr'
      exact h ⟨a :: as ++ r, by rw [hr', hc]; simp⟩
  · intro q r hq hrn hpr
    by_cases h : ∃ x, q = s ++ x
    · obtain ⟨x, rfl⟩ := h
      by_cases hx : x = []
      · subst hx
        right
        rw [List.append_nil, look_branch_self]
        exact ⟨hself, rfl⟩
      · left
        rw [hbelow x hx, if_neg ?_]
        · have : look n (s ++ x) = none := by
            refine leaf_no_look n _ ?_
            intro y hy
            rw [hc, List.append_assoc] at hy
            have h1 := List.append_cancel_left hy
            rw [List.append_assoc] at hpr
            have h2 := List.append_cancel_left hpr
            rw [h1] at h2
            simp only [List.cons_append, List.cons.injEq] at h2
            exact hab h2.1.symm
          rw [this]
          rfl
        · rintro rfl
          rw [List.append_assoc] at hpr
          have h2 := List.append_cancel_left hpr
          have := congrArg List.length h2
          simp only [List.length_append] at this
          have := List.length_pos_of_ne_nil hrn
          omega
    · left
      rw [look_branch_none _ _ _ _ (fun r hr' => h ⟨r, hr'⟩), leaf_no_look]
      · rfl
      · intro y hy
        exact h ⟨a :: as ++ y, by rw [hy, hc]; simp⟩
  · refine ⟨decide (ty = .dir), ?_, by simp, ?_, fun h => .inl (by simpa using h)⟩
    · rw [hbelow _ (by simp), if_pos rfl]
    · intro d hd
      have : look n (s ++ b :: bs) = none := by
        refine leaf_no_look n _ ?_
        intro x hx
        rw [hc, List.append_assoc] at hx
        have := List.append_cancel_left hx
        simp only [List.cons_append, List.cons.injEq] at this
        exact hab this.1.symm
      rw [this] at hd
      cases hd

/-- Insertion at the node itself. -/
theorem Ins.exact {n : Node} (hw : WF n) (ty : Ty) (k : Nat) (n' : Node) (h : n.setEntry ty k = .ok n') :
    WF n' ∧ n'.comp = n.comp ∧ Ins (look n) (look n') n.comp ty k := by
  cases hw with
  | leaf c t k0 =>
    have hn' : n' = newNode c ty k := by
      cases ty <;> (simp only [Node.setEntry] at h; cases h; rfl)
    subst hn'
    refine ⟨newNode_wf _ _ _, newNode_comp _ _ _, ?_, ?_, ?_⟩
    · intro q _ hqp _
      simp only [Node.comp] at hqp
      rw [look_newNode, look_leaf, if_neg hqp, if_neg hqp]
    · intro q r _ hr hpr
      left
      simp only [Node.comp] at hpr
      have hqp : q ≠ c := by rintro rfl; simp at hpr; exact hr hpr
      rw [look_newNode, look_leaf, if_neg hqp, if_neg hqp]
      rfl
    · refine ⟨decide (ty = .dir), ?_, by simp, ?_, fun h => .inl (by simpa using h)⟩
      · rw [look_newNode]; simp [Node.comp]
      · intro d hd
        rw [look_leaf] at hd
        simp [Node.comp] at hd
  | branch c ch d h1 h2 h3 h4 =>
    have hn' : n' = .branch c ch (some k) ∧ ty = .dir := by
      cases ty <;> (simp only [Node.setEntry] at h; cases h)
      exact ⟨rfl, rfl⟩
    obtain ⟨rfl, hty⟩ := hn'
    refine ⟨.branch _ _ _ h1 h2 h3 (by simp), rfl, ?_, ?_, ?_⟩
    · intro q _ hqp _
      simp only [Node.comp] at hqp
      rw [look_branch, look_branch]
      split
      · rfl
      · rename_i r hr
        have := (strip_iff _ _ _).1 hr
        have hrn : r ≠ [] := by rintro rfl; simp at this; exact hqp this
        rw [if_neg hrn, if_neg hrn]
    · intro q r _ hr hpr
      left
      simp only [Node.comp] at hpr
      have : ∀ s, q ≠ c ++ s := by
        intro s hs
        rw [hpr] at hs
        have := congrArg List.length hs
        simp only [List.length_append] at this
        have := List.length_pos_of_ne_nil hr
        omega
      rw [look_branch_none _ _ _ _ this, look_branch_none _ _ _ _ this]
      rfl
    · exact ⟨true, by simp [Node.comp, look_branch_self], by simp, by simp, fun _ => .inl hty⟩

/-- A new child. -/
theorem Ins.child {ch : List Node} (h : WFL ch) (p : FPath) (hp : p ≠ []) (ty : Ty) (k : Nat)
    (hn : ∀ n ∈ ch, hasCommonPrefix false n.comp p = false) :
    WFL (sortNodes (ch ++ [newNode p ty k])) ∧ Ins (lookL ch) (lookL (sortNodes (ch ++ [newNode p ty k]))) p ty k := by
  have hwl0 : WFL (newNode p ty k :: ch) := by
    refine ⟨?_, ?_, ?_⟩
    · intro n hm
      rcases List.mem_cons.1 hm with rfl | hm
      · exact newNode_wf _ _ _
      · exact h.wf n hm
    · intro n hm
      rcases List.mem_cons.1 hm with rfl | hm
      · rw [newNode_comp]; exact hp
      · exact h.ne n hm
    · unfold Heads
      simp only [List.map_cons, List.nodup_cons]
      refine ⟨?_, h.heads⟩
      intro hm
      obtain ⟨n, hm, he⟩ := List.mem_map.1 hm
      have := hn n hm
      rw [newNode_comp] at he
      rw [(hasCommonPrefix_iff _ _ hp).2 (.inr he)] at this
      cases this
  have hperm : (newNode p ty k :: ch).Perm (sortNodes (ch ++ [newNode p ty k])) :=
    ((List.perm_append_singleton _ _).symm).trans (sortNodes_perm _).symm
  refine ⟨hwl0.perm hperm, ?_⟩
  have hl : ∀ q, q ≠ [] → lookL (sortNodes (ch ++ [newNode p ty k])) q =
      if q.head? = p.head? then look (newNode p ty k) q else lookL ch q := by
    intro q hq
    rw [← lookL_perm hwl0 hperm hq, lookL_cons]
    rw [newNode_comp]
    by_cases he : q.head? = p.head?
    · rw [if_pos he, if_pos ((hasCommonPrefix_iff _ _ hq).2 (.inr he.symm))]
    · rw [if_neg he, if_neg]
      intro hh
      rcases (hasCommonPrefix_iff _ _ hq).1 hh with h | h
      · exact hp h
      · exact he h.symm
  have hno : ∀ q, q ≠ [] → q.head? = p.head? → lookL ch q = none := by
    intro q hq he
    cases hx : lookL ch q with
    | none => rfl
    | some v =>
      obtain ⟨n, hm, hv⟩ := (lookL_iff h hq v).1 hx
      have := look_head (h.ne n hm) hv
      have h2 := hn n hm
      rw [(hasCommonPrefix_iff _ _ hp).2 (.inr (this.trans he))] at h2
      cases h2
  refine ⟨?_, ?_, ?_⟩
  · intro q hq hqp _
    rw [hl q hq]
    by_cases he : q.head? = p.head?
    · rw [if_pos he, hno q hq he, look_newNode, if_neg hqp]
    · rw [if_neg he]
  · intro q r hq hr hpr
    left
    have he : q.head? = p.head? := by
      obtain ⟨x, xs, rfl⟩ := List.exists_cons_of_ne_nil hq
      rw [hpr]; rfl
    have hqp : q ≠ p := by rintro rfl; simp at hpr; exact hr hpr
    rw [hl q hq, if_pos he, hno q hq he, look_newNode, if_neg hqp]
    rfl
  · refine ⟨decide (ty = .dir), ?_, by simp, ?_, fun h => .inl (by simpa using h)⟩
    · rw [hl p hp, if_pos rfl, look_newNode, if_pos rfl]
    · intro d hd
      rw [hno p hp rfl] at hd
      cases hd

mutual

theorem insertNode_spec (n : Node) (p : FPath) (ty : Ty) (k : Nat) (n' : Node) (hw : WF n) (hp : p ≠ [])
    (hc : hasCommonPrefix false n.comp p = true) (h : insertNode n p ty k = .ok n') :
    WF n' ∧ n'.comp.head? = n.comp.head? ∧ Ins (look n) (look n') p ty k := by
  match n, hw, hc, h with
  | .leaf c t d, hw, hc, h =>
    rw [insertNode] at h
    simp only [Node.comp] at hc
    rcases commonPrefix_cases c p hc hp with ⟨h1, h2⟩ | ⟨r, hr, h1, h2⟩ | ⟨r, hr, h1, h2⟩ | ⟨s, a, as, b, bs, hs, hab, h1, h3, h2⟩
    · rw [h2] at h
      simp only at h
      have := Ins.exact hw ty k n' h
      refine ⟨this.1, by rw [this.2.1], ?_⟩
      have h3 := this.2.2
      simp only [Node.comp] at h3
      rw [← h1]
      exact h3
    · rw [h2] at h
      simp only at h
      split at h
      · cases h
      · cases h
        rw [h1, strip_append, Option.getD_some]
        have hwl : WFL [newNode r ty k] := ⟨by simp [newNode_wf], by simp [newNode_comp, hr], by simp [Heads]⟩
        refine ⟨.branch _ _ _ hwl.wf hwl.ne hwl.heads (by simp), rfl, ?_⟩
        refine Ins.lift (g := fun _ => none) hr (Ins.new ty k r) ?_ ?_ ?_ ?_
        · intro x hx
          rw [look_leaf, if_neg (by simpa using hx)]
        · intro x hx
          rw [look_branch_below _ _ _ _ hx]
          refine option_ext fun v => ?_
          rw [lookL_iff hwl hx]
          simp [look_newNode]
        · intro _
          exact ⟨false, d, by rw [look_leaf, if_pos rfl], look_branch_self _ _ _⟩
        · intro q hq
          rw [look_branch_none _ _ _ _ hq, look_leaf, if_neg (by intro h; exact hq [] (by simp [h]))]
          exact ⟨rfl, rfl⟩
    · rw [h2] at h
      simp only at h
      cases h
      have := Ins.ancestor hw p r hp hr h1 ty k
      refine ⟨this.1, ?_, this.2⟩
      simp only [Node.comp, h1]
      obtain ⟨x, xs, rfl⟩ := List.exists_cons_of_ne_nil hp
      rfl
    · rw [h2] at h
      simp only at h
      cases h
      subst h3
      have := Ins.beside hw s a as b bs hs hab h1 ty k
      refine ⟨this.1, ?_, this.2⟩
      simp only [Node.insertPartial, Node.comp, h1]
      obtain ⟨x, xs, rfl⟩ := List.exists_cons_of_ne_nil hs
      rfl
  | .branch c ch d, hw, hc, h =>
    rw [insertNode] at h
    simp only [Node.comp] at hc
    rcases commonPrefix_cases c p hc hp with ⟨h1, h2⟩ | ⟨r, hr, h1, h2⟩ | ⟨r, hr, h1, h2⟩ | ⟨s, a, as, b, bs, hs, hab, h1, h3, h2⟩
    · rw [h2] at h
      simp only at h
      have := Ins.exact hw ty k n' h
      refine ⟨this.1, by rw [this.2.1], ?_⟩
      have h3 := this.2.2
      simp only [Node.comp] at h3
      rw [← h1]
      exact h3
    · rw [h2] at h
      simp only at h
      rw [h1, strip_append, Option.getD_some] at h
      have lift : ∀ ch', WFL ch' → Ins (lookL ch) (lookL ch') r ty k →
          Ins (look (.branch c ch d)) (look (.branch c ch' d)) p ty k := by
        intro ch' hw' hi
        rw [h1]
        refine Ins.lift hr hi ?_ ?_ ?_ ?_
        · intro x hx; exact look_branch_below _ _ _ _ hx
        · intro x hx; exact look_branch_below _ _ _ _ hx
        · intro _; exact ⟨true, d, look_branch_self _ _ _, look_branch_self _ _ _⟩
        · intro q hq; exact ⟨look_branch_none _ _ _ _ hq, look_branch_none _ _ _ _ hq⟩
      have hne : ∀ ch' : List Node, WFL ch' → Ins (lookL ch) (lookL ch') r ty k → ch' ≠ [] := by
        rintro ch' _ hi rfl
        obtain ⟨b, hb, _⟩ := hi.entry
        simp [lookL, getFirst] at hb
      cases hf : insertFirst ch r ty k with
      | none =>
        rw [hf] at h
        simp only at h
        cases h
        have hno := insertFirst_none ch r ty k hf
        obtain ⟨hw', hi⟩ := Ins.child hw.children r hr ty k hno
        exact ⟨.branch _ _ _ hw'.wf hw'.ne hw'.heads (fun _ => hne _ hw' hi), rfl, lift _ hw' hi⟩
      | some x =>
        rw [hf] at h
        cases x with
        | error e => cases h
        | ok ch' =>
          simp only at h
          cases h
          obtain ⟨hw', _, hi⟩ := insertFirst_spec ch r ty k ch' hw.children hr hf
          exact ⟨.branch _ _ _ hw'.wf hw'.ne hw'.heads (fun _ => hne _ hw' hi), rfl, lift _ hw' hi⟩
    · rw [h2] at h
      simp only at h
      cases h
      have := Ins.ancestor hw p r hp hr h1 ty k
      refine ⟨this.1, ?_, this.2⟩
      simp only [Node.comp, h1]
      obtain ⟨x, xs, rfl⟩ := List.exists_cons_of_ne_nil hp
      rfl
    · rw [h2] at h
      simp only at h
      cases h
      subst h3
      have := Ins.beside hw s a as b bs hs hab h1 ty k
      refine ⟨this.1, ?_, this.2⟩
      simp only [Node.insertPartial, Node.comp, h1]
      obtain ⟨x, xs, rfl⟩ := List.exists_cons_of_ne_nil hs
      rfl

theorem insertFirst_none (ns : List Node) (p : FPath) (ty : Ty) (k : Nat) (h : insertFirst ns p ty k = none) :
    ∀ n ∈ ns, hasCommonPrefix false n.comp p = false := by
  match ns, h with
  | [], _ => simp
  | n :: ns, h =>
    rw [insertFirst] at h
    split at h
    · split at h <;> cases h
    · rename_i hc
      split at h
      · cases h
      · cases h
      · rename_i hf
        intro m hm
        rcases List.mem_cons.1 hm with rfl | hm
        · simpa using hc
        · exact insertFirst_none ns p ty k hf m hm

theorem insertFirst_spec (ns : List Node) (p : FPath) (ty : Ty) (k : Nat) (ns' : List Node) (hw : WFL ns) (hp : p ≠ [])
    (h : insertFirst ns p ty k = some (.ok ns')) :
    WFL ns' ∧ ns'.map (fun n => n.comp.head?) = ns.map (fun n => n.comp.head?) ∧ Ins (lookL ns) (lookL ns') p ty k := by
  match ns, hw, h with
  | [], _, h => simp [insertFirst] at h
  | n :: ns, hw, h =>
    rw [insertFirst] at h
    have hnne := hw.ne n (by simp)
    have same : ∀ q : FPath, q ≠ [] → (hasCommonPrefix false n.comp q = true ↔ n.comp.head? = q.head?) := by
      intro q hq
      rw [hasCommonPrefix_iff _ _ hq]
      simp [hnne]
    have pre : ∀ q r : FPath, q ≠ [] → p = q ++ r → q.head? = p.head? := by
      intro q r hq h
      obtain ⟨x, xs, rfl⟩ := List.exists_cons_of_ne_nil hq
      rw [h]; rfl
    split at h
    · rename_i hc
      split at h
      · rename_i n' hn
        simp only [Option.some.injEq, Except.ok.injEq] at h
        subst h
        obtain ⟨w1, w2, w3⟩ := insertNode_spec n p ty k n' (hw.wf n (by simp)) hp hc hn
        have hne' : n'.comp ≠ [] := by
          intro h0
          rw [h0] at w2
          cases hcn : n.comp with
          | nil => exact hnne hcn
          | cons x xs => rw [hcn] at w2; cases w2
        have hmap : (n' :: ns).map (fun n => n.comp.head?) = (n :: ns).map (fun n => n.comp.head?) := by
          simp [w2]
        have hw' : WFL (n' :: ns) := by
          refine ⟨?_, ?_, ?_⟩
          · intro m hm
            rcases List.mem_cons.1 hm with rfl | hm
            · exact w1
            · exact hw.wf m (by simp [hm])
          · intro m hm
            rcases List.mem_cons.1 hm with rfl | hm
            · exact hne'
            · exact hw.ne m (by simp [hm])
          · unfold Heads
            rw [hmap]
            exact hw.heads
        have same' : ∀ q : FPath, q ≠ [] → (hasCommonPrefix false n'.comp q = true ↔ n.comp.head? = q.head?) := by
          intro q hq
          rw [hasCommonPrefix_iff _ _ hq]
          simp [hne', w2]
        have hph : n.comp.head? = p.head? := (same p hp).1 hc
        have l1 : ∀ q, q ≠ [] → q.head? = p.head? → lookL (n :: ns) q = look n q := by
          intro q hq he
          rw [lookL_cons, if_pos ((same q hq).2 (hph.trans he.symm))]
        have l2 : ∀ q, q ≠ [] → q.head? = p.head? → lookL (n' :: ns) q = look n' q := by
          intro q hq he
          rw [lookL_cons, if_pos ((same' q hq).2 (hph.trans he.symm))]
        have l3 : ∀ q, q ≠ [] → q.head? ≠ p.head? → lookL (n' :: ns) q = lookL (n :: ns) q := by
          intro q hq he
          rw [lookL_cons, lookL_cons, if_neg, if_neg]
          · intro h; exact he (((same q hq).1 h).symm.trans hph)
          · intro h; exact he (((same' q hq).1 h).symm.trans hph)
        refine ⟨hw', hmap, ?_, ?_, ?_⟩
        · intro q hq hqp hpre
          by_cases he : q.head? = p.head?
          · rw [l1 q hq he, l2 q hq he]
            exact w3.other q hq hqp hpre
          · exact l3 q hq he
        · intro q r hq hr hpr
          have he := pre q r hq hpr
          rw [l1 q hq he, l2 q hq he]
          exact w3.above q r hq hr hpr
        · obtain ⟨b, e1, e2, e3, e4⟩ := w3.entry
          refine ⟨b, by rw [l2 p hp rfl, e1], e2, ?_, ?_⟩
          · intro d hd
            rw [l1 p hp rfl] at hd
            exact e3 d hd
          · intro hb
            rcases e4 hb with h5 | ⟨r, b', k', hr, h5⟩
            · exact .inl h5
            · refine .inr ⟨r, b', k', hr, ?_⟩
              rw [l1 (p ++ r) (by simp [hp]) ?_]
              · exact h5
              · obtain ⟨x, xs, rfl⟩ := List.exists_cons_of_ne_nil hp
                rfl
      · cases h
    · rename_i hc
      split at h
      · rename_i ms hf
        simp only [Option.some.injEq, Except.ok.injEq] at h
        subst h
        obtain ⟨w1, w2, w3⟩ := insertFirst_spec ns p ty k ms hw.tail hp hf
        have hmap : (n :: ms).map (fun n => n.comp.head?) = (n :: ns).map (fun n => n.comp.head?) := by
          simp [w2]
        have hw' : WFL (n :: ms) := by
          refine ⟨?_, ?_, ?_⟩
          · intro m hm
            rcases List.mem_cons.1 hm with rfl | hm
            · exact hw.wf _ (by simp)
            · exact w1.wf m hm
          · intro m hm
            rcases List.mem_cons.1 hm with rfl | hm
            · exact hnne
            · exact w1.ne m hm
          · unfold Heads
            rw [hmap]
            exact hw.heads
        have hph : n.comp.head? ≠ p.head? := fun h => hc ((same p hp).2 h)
        have l1 : ∀ q, q ≠ [] → q.head? = p.head? → lookL (n :: ns) q = lookL ns q := by
          intro q hq he
          rw [lookL_cons, if_neg (fun h => hph (((same q hq).1 h).trans he))]
        have l2 : ∀ q, q ≠ [] → q.head? = p.head? → lookL (n :: ms) q = lookL ms q := by
          intro q hq he
          rw [lookL_cons, if_neg (fun h => hph (((same q hq).1 h).trans he))]
        refine ⟨hw', hmap, ?_, ?_, ?_⟩
        · intro q hq hqp hpre
          rw [lookL_cons, lookL_cons]
          split
          · rfl
          · exact w3.other q hq hqp hpre
        · intro q r hq hr hpr
          have he := pre q r hq hpr
          rw [l1 q hq he, l2 q hq he]
          exact w3.above q r hq hr hpr
        · obtain ⟨b, e1, e2, e3, e4⟩ := w3.entry
          refine ⟨b, by rw [l2 p hp rfl, e1], e2, ?_, ?_⟩
          · intro d hd
            rw [l1 p hp rfl] at hd
            exact e3 d hd
          · intro hb
            rcases e4 hb with h5 | ⟨r, b', k', hr, h5⟩
            · exact .inl h5
            · refine .inr ⟨r, b', k', hr, ?_⟩
              rw [l1 (p ++ r) (by simp [hp]) ?_]
              · exact h5
              · obtain ⟨x, xs, rfl⟩ := List.exists_cons_of_ne_nil hp
                rfl
      · cases h
      · cases h

end

end Litcheck.PathTree
