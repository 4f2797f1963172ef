import Verif.Model.PathChildren
import Verif.Proofs.PathIter

/-!
# The entries below a path: proofs
-/

namespace Litcheck.PathTree

/-- Within the limit, counted from `base`. -/
def within (limit : Option Nat) (base : Nat) (e : FPath × Nat) : Bool := !tooDeep limit (e.1.length - base)

mutual

/-- Every entry emitted for a node is below its component. -/
theorem dfsNode_below (pre : FPath) (n : Node) : ∀ e ∈ dfsNode pre n, pre ++ n.comp <+: e.1 := by
  match n with
  | .leaf c ty d =>
    intro e he
    rw [dfsNode] at he
    cases d with
    | none => simp at he
    | some k => simp at he; subst he; exact List.prefix_refl _
  | .branch c ch d =>
    intro e he
    rw [dfsNode] at he
    by_cases h : ch.isEmpty = true
    · rw [if_pos h] at he; cases he
    · rw [if_neg h] at he
      rcases List.mem_append.1 he with he | he
      · cases d with
        | none => simp at he
        | some k => simp at he; subst he; exact List.prefix_refl _
      · obtain ⟨m, hm, h1⟩ := dfsList_below (pre ++ c) ch e he
        exact (List.prefix_append _ _).trans h1

/-- Every entry emitted for a list is below the component of one of the nodes. -/
theorem dfsList_below (pre : FPath) (ns : List Node) : ∀ e ∈ dfsList pre ns, ∃ n ∈ ns, pre ++ n.comp <+: e.1 := by
  match ns with
  | [] => intro e he; rw [dfsList] at he; cases he
  | n :: ns =>
    intro e he
    rw [dfsList] at he
    rcases List.mem_append.1 he with he | he
    · exact ⟨n, List.mem_cons_self, dfsNode_below pre n e he⟩
    · obtain ⟨m, hm, h⟩ := dfsList_below pre ns e he
      exact ⟨m, List.mem_cons_of_mem _ hm, h⟩

end

theorem tooDeep_mono {limit : Option Nat} {a b : Nat} (h : a ≤ b) (ht : tooDeep limit a = true) : tooDeep limit b = true := by
  cases limit with
  | none => cases ht
  | some m => simp only [tooDeep, decide_eq_true_eq] at ht ⊢; omega

mutual

/-- The walk with a limit leaves out what is too deep. -/
theorem walkNode_eq (limit : Option Nat) (pre : FPath) (depth : Nat) (n : Node) :
    walkNode limit pre depth n = (dfsNode pre n).filter fun e => !tooDeep limit (depth + (e.1.length - pre.length)) := by
  have hout : tooDeep limit (depth + n.comp.length) = true →
      ((dfsNode pre n).filter fun e => !tooDeep limit (depth + (e.1.length - pre.length))) = [] := by
    intro ht
    rw [List.filter_eq_nil_iff]
    intro e he
    have h1 := (dfsNode_below pre n e he).length_le
    rw [List.length_append] at h1
    rw [tooDeep_mono (by omega) ht]
    decide
  have hself : ∀ (d : Option Nat), tooDeep limit (depth + n.comp.length) = false →
      ((d.map fun k => (pre ++ n.comp, k)).toList.filter fun e => !tooDeep limit (depth + (e.1.length - pre.length))) = (d.map fun k => (pre ++ n.comp, k)).toList := by
    intro d ht
    rw [List.filter_eq_self]
    intro e he
    cases d with
    | none => simp at he
    | some k =>
      simp at he
      subst he
      dsimp only
      rw [List.length_append, Nat.add_sub_cancel_left, ht]
      rfl
  match n, hout, hself with
  | .leaf c ty d, hout, hself =>
    dsimp only [Node.comp] at hout hself
    rw [walkNode]
    by_cases ht : tooDeep limit (depth + c.length) = true
    · rw [if_pos ht, hout ht]
    · rw [if_neg ht, dfsNode]
      exact (hself d (by simpa using ht)).symm
  | .branch c ch d, hout, hself =>
    dsimp only [Node.comp] at hout hself
    rw [walkNode]
    by_cases ht : tooDeep limit (depth + c.length) = true
    · rw [if_pos ht, hout ht]
    · rw [if_neg ht, dfsNode]
      by_cases h : ch.isEmpty = true
      · rw [if_pos h, if_pos h]; rfl
      · rw [if_neg h, if_neg h, List.filter_append, walkList_eq limit (pre ++ c) (depth + c.length) ch]
        congr 1
        · exact (hself d (by simpa using ht)).symm
        · apply List.filter_congr
          intro e he
          obtain ⟨m, _, h1⟩ := dfsList_below _ _ e he
          have h2 := h1.length_le
          rw [List.length_append] at h2
          rw [List.length_append] at h2 ⊢
          congr 2
          omega

theorem walkList_eq (limit : Option Nat) (pre : FPath) (depth : Nat) (ns : List Node) :
    walkList limit pre depth ns = (dfsList pre ns).filter fun e => !tooDeep limit (depth + (e.1.length - pre.length)) := by
  match ns with
  | [] => rw [walkList, dfsList]; rfl
  | n :: ns => rw [walkList, dfsList, List.filter_append, walkNode_eq limit pre depth n, walkList_eq limit pre depth ns]

end

/-- A node below a prefix of its component emits the same. -/
theorem dfsNode_under (pre path rest : FPath) (n : Node) (h : n.comp = path ++ rest) : dfsNode (pre ++ path) (n.under path) = dfsNode pre n := by
  cases n with
  | leaf c ty d =>
    dsimp only [Node.comp] at h
    subst h
    simp [Node.under, strip_append, dfsNode]
  | branch c ch d =>
    dsimp only [Node.comp] at h
    subst h
    simp [Node.under, strip_append, dfsNode]

/-- What the limit is counted from is `δ` components above the path. -/
def Gives (f : Option Nat → List (FPath × Nat)) (all : List (FPath × Nat)) (path : FPath) : Prop :=
  ∃ δ, δ ≤ path.length ∧ ∀ limit, f limit = all.filter fun e => path.isPrefixOf e.1 && within limit (path.length - δ) e

theorem gives_none {f : Option Nat → List (FPath × Nat)} {all : List (FPath × Nat)} {path : FPath} (h : ∀ limit, f limit = [])
    (hn : ∀ e ∈ all, ¬ path <+: e.1) : Gives f all path := by
  refine ⟨0, Nat.zero_le _, fun limit => ?_⟩
  rw [h limit, eq_comm, List.filter_eq_nil_iff]
  intro e he
  have h1 : path.isPrefixOf e.1 = false := by
    rw [← Bool.not_eq_true, List.isPrefixOf_iff_prefix]
    exact hn e he
  rw [h1]
  simp

theorem gives_all {f : Option Nat → List (FPath × Nat)} {all : List (FPath × Nat)} {path : FPath} {δ : Nat} (hd : δ ≤ path.length)
    (h : ∀ limit, f limit = all.filter fun e => !tooDeep limit (e.1.length - (path.length - δ))) (hn : ∀ e ∈ all, path <+: e.1) : Gives f all path := by
  refine ⟨δ, hd, fun limit => ?_⟩
  rw [h limit]
  apply List.filter_congr
  intro e he
  have h1 : path.isPrefixOf e.1 = true := List.isPrefixOf_iff_prefix.2 (hn e he)
  rw [h1]
  rfl

theorem prefix_head {p q : FPath} {a b : Comp} {s as bs : FPath} (hp : p = s ++ a :: as) (hq : s ++ b :: bs <+: q) (h : p <+: q) : a = b := by
  subst hp
  obtain ⟨t, rfl⟩ := h
  obtain ⟨u, hu⟩ := hq
  rw [List.append_assoc, List.append_assoc] at hu
  have := List.append_cancel_left hu
  simp only [List.cons_append, List.cons.injEq] at this
  exact this.1.symm

mutual

/-- The descent to a path, at a node. -/
theorem atNode_gives (pre : FPath) (n : Node) (hw : WF n) (path : FPath) (hp : path ≠ []) (hc : hasCommonPrefix false n.comp path = true) :
    Gives (fun limit => atNode limit pre n path) (dfsNode pre n) (pre ++ path) := by
  have hb := dfsNode_below pre n
  have hexact : n.comp = path → Gives (fun limit => walkNode limit pre 0 n) (dfsNode pre n) (pre ++ path) := by
    intro h
    refine gives_all (δ := path.length) (by rw [List.length_append]; omega) (fun limit => ?_) (by rw [← h]; exact hb)
    rw [walkNode_eq]
    apply List.filter_congr
    intro e _
    rw [List.length_append]
    congr 2
    omega
  have hanc : ∀ r, n.comp = path ++ r → Gives (fun limit => walkNode limit (pre ++ path) 0 (n.under path)) (dfsNode pre n) (pre ++ path) := by
    intro r h
    refine gives_all (δ := 0) (Nat.zero_le _) (fun limit => ?_) ?_
    · rw [walkNode_eq, dfsNode_under pre path r n h]
      apply List.filter_congr
      intro e _
      congr 2
      omega
    · intro e he
      have h1 := hb e he
      rw [h, ← List.append_assoc] at h1
      exact (List.prefix_append _ _).trans h1
  have hpart : ∀ (f : Option Nat → List (FPath × Nat)) s a as b bs, a ≠ b → n.comp = s ++ a :: as → path = s ++ b :: bs → (∀ limit, f limit = []) →
      Gives f (dfsNode pre n) (pre ++ path) := by
    intro f s a as b bs hab h1 h2 hf
    refine gives_none hf ?_
    intro e he h3
    have h4 := hb e he
    rw [h1, ← List.append_assoc] at h4
    exact hab (prefix_head (p := pre ++ path) (s := pre ++ s) (a := b) (as := bs) (by rw [h2, List.append_assoc]) h4 h3).symm
  match n, hw with
  | .leaf c ty d, hw =>
    dsimp only [Node.comp] at hc hexact hanc hpart
    rcases commonPrefix_cases c path hc hp with ⟨h1, h2⟩ | ⟨r, hr, h1, h2⟩ | ⟨r, hr, h1, h2⟩ | ⟨s, a, as, b, bs, hs, hab, h1, h3, h2⟩
    · simp only [atNode, h2]; exact hexact h1
    · simp only [atNode, h2]
      refine gives_none (fun _ => rfl) ?_
      intro e he h3
      rw [dfsNode] at he
      cases d with
      | none => simp at he
      | some k =>
        simp at he
        subst he
        have h4 := h3.length_le
        rw [h1] at h4
        simp only [List.length_append] at h4
        have := List.length_pos_of_ne_nil hr
        omega
    · simp only [atNode, h2]; exact hanc r h1
    · simp only [atNode, h2]; exact hpart _ s a as b bs hab h1 h3 (fun _ => rfl)
  | .branch c ch d, hw =>
    dsimp only [Node.comp] at hc hexact hanc hpart
    rcases commonPrefix_cases c path hc hp with ⟨h1, h2⟩ | ⟨r, hr, h1, h2⟩ | ⟨r, hr, h1, h2⟩ | ⟨s, a, as, b, bs, hs, hab, h1, h3, h2⟩
    · simp only [atNode, h2]; exact hexact h1
    · simp only [atNode, h2]
      have ih := atFirst_gives (pre ++ c) ch hw.children r hr
      have e1 : (strip c path).getD [] = r := by rw [h1, strip_append]; rfl
      rw [e1]
      have e2 : pre ++ c ++ r = pre ++ path := by rw [h1, List.append_assoc]
      rw [e2] at ih
      obtain ⟨δ, hd, ih⟩ := ih
      refine ⟨δ, hd, fun limit => ?_⟩
      rw [ih limit, dfsNode]
      by_cases h : ch.isEmpty = true
      · have h' : ch = [] := by simpa using h
        rw [h']; rfl
      · rw [if_neg h, List.filter_append]
        have : ((d.map fun k => (pre ++ c, k)).toList.filter fun e => (pre ++ path).isPrefixOf e.1 && within limit ((pre ++ path).length - δ) e) = [] := by
          rw [List.filter_eq_nil_iff]
          intro e he
          cases d with
          | none => simp at he
          | some k =>
            simp at he
            subst he
            have h5 : (pre ++ path).isPrefixOf (pre ++ c) = false := by
              rw [← Bool.not_eq_true, List.isPrefixOf_iff_prefix]
              intro h6
              have h4 := h6.length_le
              rw [h1] at h4
              simp only [List.length_append] at h4
              have := List.length_pos_of_ne_nil hr
              omega
            dsimp only
            rw [h5]
            simp
        rw [this]; rfl
    · simp only [atNode, h2]; exact hanc r h1
    · simp only [atNode, h2]; exact hpart _ s a as b bs hab h1 h3 (fun _ => rfl)

/-- The descent to a path, in a list of nodes. -/
theorem atFirst_gives (pre : FPath) (ns : List Node) (hw : WFL ns) (path : FPath) (hp : path ≠ []) :
    Gives (fun limit => atFirst limit pre ns path) (dfsList pre ns) (pre ++ path) := by
  match ns, hw with
  | [], hw => exact gives_none (fun _ => by rw [atFirst]) (by rw [dfsList]; simp)
  | n :: ns, hw =>
    have hother : ∀ m : Node, m.comp ≠ [] → m.comp.head? ≠ path.head? → ∀ e, pre ++ m.comp <+: e → ¬ pre ++ path <+: e := by
      intro m hm hh e h1 h2
      obtain ⟨a, as, ha⟩ := List.exists_cons_of_ne_nil hm
      obtain ⟨b, bs, hb⟩ := List.exists_cons_of_ne_nil hp
      rw [ha] at h1 hh
      rw [hb] at h2 hh
      exact hh (congrArg some (prefix_head rfl h2 h1))
    by_cases hc : hasCommonPrefix false n.comp path = true
    · obtain ⟨δ, hd, h1⟩ := atNode_gives pre n (hw.wf n List.mem_cons_self) path hp hc
      refine ⟨δ, hd, fun limit => ?_⟩
      dsimp only at h1 ⊢
      rw [atFirst, if_pos hc, h1 limit, dfsList, List.filter_append]
      have hh : n.comp.head? = path.head? := by
        rcases (hasCommonPrefix_iff _ _ hp).1 hc with h | h
        · exact absurd h (hw.ne n List.mem_cons_self)
        · exact h
      have : ((dfsList pre ns).filter fun e => (pre ++ path).isPrefixOf e.1 && within limit ((pre ++ path).length - δ) e) = [] := by
        rw [List.filter_eq_nil_iff]
        intro e he
        obtain ⟨m, hm, h2⟩ := dfsList_below pre ns e he
        have h3 : m.comp.head? ≠ path.head? := by
          rw [← hh]
          have := hw.heads
          unfold Heads at this
          rw [List.map_cons, List.nodup_cons] at this
          intro h4
          exact this.1 (h4 ▸ List.mem_map_of_mem (f := fun n => n.comp.head?) hm)
        have h5 : (pre ++ path).isPrefixOf e.1 = false := by
          rw [← Bool.not_eq_true, List.isPrefixOf_iff_prefix]
          exact hother m (hw.ne m (List.mem_cons_of_mem _ hm)) h3 e.1 h2
        rw [h5]
        simp
      rw [this, List.append_nil]
    · obtain ⟨δ, hd, h1⟩ := atFirst_gives pre ns hw.tail path hp
      refine ⟨δ, hd, fun limit => ?_⟩
      dsimp only at h1 ⊢
      rw [atFirst, if_neg hc, h1 limit, dfsList, List.filter_append]
      have : ((dfsNode pre n).filter fun e => (pre ++ path).isPrefixOf e.1 && within limit ((pre ++ path).length - δ) e) = [] := by
        rw [List.filter_eq_nil_iff]
        intro e he
        have h5 : (pre ++ path).isPrefixOf e.1 = false := by
          rw [← Bool.not_eq_true, List.isPrefixOf_iff_prefix]
          refine hother n (hw.ne n List.mem_cons_self) ?_ e.1 (dfsNode_below pre n e he)
          intro h6
          exact hc ((hasCommonPrefix_iff _ _ hp).2 (.inr h6))
        rw [h5]
        simp
      rw [this, List.nil_append]

end

end Litcheck.PathTree
