import Verif.Proofs.PathTree
import Verif.Spec.PathTree

/-!
# Proofs about the roots of the path tree
-/

namespace Litcheck.PathTree

open Litcheck.PSpec (Above)

/-- The data a node has for a path. -/
def getD (n : Node) (q : FPath) : Option Nat := (look n q).bind (·.2)

theorem getD_eq (n : Node) (q : FPath) : getD n q = (getNode n q).bind Node.data := by
  unfold getD look
  cases getNode n q with
  | none => rfl
  | some m => exact view_data m

theorem getRoots_eq (roots : List Node) (q : FPath) (hq : q ≠ []) : getRoots roots q = roots.findSome? (getD · q) := by
  unfold getRoots
  congr 1
  funext r
  rw [← getD_eq]
  split
  · rfl
  · rename_i h
    unfold getD
    cases hl : look r q with
    | none => rfl
    | some v =>
      exfalso
      apply h
      obtain ⟨s, hs⟩ := look_prefix hl
      rw [hasCommonPrefix_iff _ _ hq]
      by_cases hc : r.comp = []
      · exact .inl hc
      · exact .inr (look_head hc hl)

/-- Roots begin differently, except that the first may be the empty path. -/
def Roots (rs : List Node) : Prop :=
  WFL rs ∨ ∃ r0 rs', rs = r0 :: rs' ∧ WF r0 ∧ r0.comp = [] ∧ WFL rs'

theorem findSome_wfl {rs : List Node} (h : WFL rs) {q : FPath} (hq : q ≠ []) :
    rs.findSome? (getD · q) = (lookL rs q).bind (·.2) := by
  induction rs with
  | nil => rfl
  | cons n ns ih =>
    rw [List.findSome?_cons, lookL_cons]
    by_cases hh : hasCommonPrefix false n.comp q = true
    · rw [if_pos hh]
      have hhd : n.comp.head? = q.head? := by
        rcases (hasCommonPrefix_iff _ _ hq).1 hh with h' | h'
        · exact absurd h' (h.ne n (by simp))
        · exact h'
      have : ns.findSome? (getD · q) = none := by
        rw [List.findSome?_eq_none_iff]
        intro m hm
        unfold getD
        rw [look_ne_head (h.ne m (by simp [hm])) ?_]
        · rfl
        · intro he
          have := h.heads
          unfold Heads at this
          simp only [List.map_cons, List.nodup_cons, List.mem_map, not_exists, not_and] at this
          exact this.1 m hm (he.trans hhd.symm)
      rw [this]
      change _ = getD n q
      cases getD n q <;> rfl
    · rw [if_neg hh]
      have : getD n q = none := by
        unfold getD
        rw [look_ne_head (h.ne n (by simp)) (fun he => hh ((hasCommonPrefix_iff _ _ hq).2 (.inr he)))]
        rfl
      rw [this]
      exact ih h.tail

theorem ins_dropLast (p : FPath) (hp : p ≠ []) (x : Comp) (hx : p.getLast? = some x) : p = p.dropLast ++ [x] := by
  obtain ⟨ys, rfl⟩ := List.getLast?_eq_some_iff.1 hx
  simp

theorem newRoot_spec (p : FPath) (ty : Ty) (k : Nat) (hp : p ≠ []) (hroot : p = [.root] → ty = .dir) :
    WF (newRoot p ty k) ∧ Ins (fun _ => none) (look (newRoot p ty k)) p ty k ∧
      ((newRoot p ty k).comp = [] ∨ (newRoot p ty k).comp.head? = p.head?) := by
  by_cases hty : ty = .dir
  · subst hty
    have : newRoot p .dir k = newNode p .dir k := rfl
    rw [this]
    refine ⟨newNode_wf _ _ _, ?_, .inr (by rw [newNode_comp])⟩
    have h := Ins.new .dir k p
    have e : look (newNode p .dir k) = fun q => if q = p then some (decide (Ty.dir = .dir), some k) else none := by
      funext q
      exact look_newNode p .dir k q
    rw [e]
    exact h
  · have hpr : p ≠ [.root] := fun h => hty (hroot h)
    have hlast : ∃ x, p.getLast? = some x := by
      cases h : p.getLast? with
      | none => exact absurd (List.getLast?_eq_none_iff.1 h) hp
      | some x => exact ⟨x, rfl⟩
    obtain ⟨x, hx⟩ := hlast
    have hd : newRoot p ty k = .branch p.dropLast [newNode [x] ty k] none := by
      unfold newRoot newNode
      cases ty <;> simp_all
    have hps := ins_dropLast p hp x hx
    rw [hd]
    have hwl : WFL [newNode [x] ty k] := ⟨by simp [newNode_wf], by simp [newNode_comp], by simp [Heads]⟩
    refine ⟨.branch _ _ _ hwl.wf hwl.ne hwl.heads (by simp), ?_, ?_⟩
    · have hbelow : ∀ r, r ≠ [] → look (.branch p.dropLast [newNode [x] ty k] none) (p.dropLast ++ r) =
          if r = [x] then some (decide (ty = .dir), some k) else none := by
        intro r hr
        rw [look_branch_below _ _ _ _ hr]
        refine option_ext fun v => ?_
        rw [lookL_iff hwl hr]
        simp [look_newNode]
      refine ⟨?_, ?_, ?_⟩
      · intro q hq hqp hpre
        by_cases h : ∃ r, q = p.dropLast ++ r
        · obtain ⟨r, rfl⟩ := h
          have hr : r ≠ [] := by
            rintro rfl
            exact hpre [x] (by rw [List.append_nil]; exact hps)
          rw [hbelow r hr, if_neg]
          rintro rfl
          exact hqp hps.symm
        · exact look_branch_none _ _ _ _ (fun r hr => h ⟨r, hr⟩)
      · intro q r hq hr hpr
        by_cases h : ∃ s, q = p.dropLast ++ s
        · obtain ⟨s, rfl⟩ := h
          by_cases hs : s = []
          · subst hs
            right
            rw [List.append_nil]
            exact ⟨rfl, look_branch_self _ _ _⟩
          · left
            rw [hbelow s hs, if_neg]
            · rfl
            · rintro rfl
              rw [← hps] at hpr
              have := congrArg List.length hpr
              simp only [List.length_append] at this
              have := List.length_pos_of_ne_nil hr
              omega
        · left
          rw [look_branch_none _ _ _ _ (fun r hr => h ⟨r, hr⟩)]
          rfl
      · refine ⟨decide (ty = .dir), ?_, by simp, by simp, fun h => .inl (by simpa using h)⟩
        have h1 := hbelow [x] (by simp)
        rw [← hps, if_pos rfl] at h1
        exact h1
    · show p.dropLast = [] ∨ p.dropLast.head? = p.head?
      cases hdl : p.dropLast with
      | nil => exact .inl rfl
      | cons a as =>
        right
        rw [hps, hdl]
        rfl

theorem nodeLe_total (a b : Node) : nodeLe a b ∨ nodeLe b a := le_total _ _

theorem nodeLe_trans {a b c : Node} (h : nodeLe a b) (g : nodeLe b c) : nodeLe a c := le_trans h g

instance : Std.Total nodeLe := ⟨nodeLe_total⟩
instance : IsTrans Node nodeLe := ⟨fun _ _ _ h g => nodeLe_trans h g⟩

theorem sortNodes_sorted (l : List Node) : (sortNodes l).Pairwise nodeLe := List.pairwise_insertionSort _ _

/-- The root with the empty path comes first. -/
theorem sortNodes_empty_first {r0 : Node} {l rs : List Node} (h0 : r0.comp = []) (hp : l.Perm (r0 :: rs))
    (hne : ∀ n ∈ rs, n.comp ≠ []) : ∃ rs', sortNodes l = r0 :: rs' ∧ rs'.Perm rs := by
  have hperm : (sortNodes l).Perm (r0 :: rs) := (sortNodes_perm l).trans hp
  have hs := sortNodes_sorted l
  cases hl : sortNodes l with
  | nil =>
    rw [hl] at hperm
    exact absurd hperm.length_eq (by simp)
  | cons m ms =>
    rw [hl] at hperm hs
    have hm0 : m.comp = [] := by
      have hmem : r0 ∈ m :: ms := hperm.mem_iff.2 (by simp)
      rcases List.mem_cons.1 hmem with h | h
      · rw [← h]; exact h0
      · have hle := (List.pairwise_cons.1 hs).1 r0 h
        unfold nodeLe at hle
        rw [h0] at hle
        cases hc : m.comp with
        | nil => rfl
        | cons a as =>
          rw [hc] at hle
          exact absurd hle (not_le_of_gt (List.nil_lt_cons _ _))
    have hmr : m = r0 := by
      have : m ∈ r0 :: rs := hperm.mem_iff.1 (by simp)
      rcases List.mem_cons.1 this with h | h
      · exact h
      · exact absurd hm0 (hne m h)
    subst hmr
    exact ⟨ms, rfl, (List.perm_cons _).1 hperm⟩

/-- What a successful insertion does to the roots. -/
theorem insertRoots_spec (rs : List Node) (p : FPath) (ty : Ty) (k : Nat) (rs' : List Node) (hr : Roots rs)
    (hroot : p = [.root] → ty = .dir) (h : insertRoots rs p ty k = .ok (.ok rs')) :
    Roots rs' ∧ ∀ q, q ≠ [] → getRoots rs' q = if q = p then some k else getRoots rs q := by
  unfold insertRoots at h
  by_cases hp : p = []
  · rw [if_pos hp] at h; cases h
  rw [if_neg hp] at h
  rcases hr with hr | ⟨r0, rt, rfl, hw0, h0, hwt⟩
  · cases hf : insertFirst rs p ty k with
    | none =>
      rw [hf] at h
      simp only [Except.ok.injEq] at h
      have hno := insertFirst_none rs p ty k hf
      obtain ⟨hw, hi, hc⟩ := newRoot_spec p ty k hp hroot
      by_cases hc0 : (newRoot p ty k).comp = []
      · have hperm : (rs ++ [newRoot p ty k]).Perm (newRoot p ty k :: rs) := List.perm_append_singleton _ _
        obtain ⟨rt, e, hpt⟩ := sortNodes_empty_first hc0 hperm hr.ne
        rw [e] at h
        subst h
        have hwt : WFL rt := hr.perm hpt.symm
        refine ⟨.inr ⟨_, rt, rfl, hw, hc0, hwt⟩, ?_⟩
        intro q hq
        rw [getRoots_eq _ _ hq, getRoots_eq _ _ hq, List.findSome?_cons, findSome_wfl hwt hq, findSome_wfl hr hq,
          lookL_perm hwt hpt hq]
        have hd := hi.data q hq
        simp only [Option.bind_none] at hd
        have : getD (newRoot p ty k) q = if q = p then some k else none := hd
        rw [this]
        by_cases hqp : q = p
        · simp [hqp]
        · simp [hqp]
      · have hhd : (newRoot p ty k).comp.head? = p.head? := by
          rcases hc with h | h
          · exact absurd h hc0
          · exact h
        have hwl0 : WFL (newRoot p ty k :: rs) := by
          refine ⟨?_, ?_, ?_⟩
          · intro n hm
            rcases List.mem_cons.1 hm with rfl | hm
            · exact hw
            · exact hr.wf n hm
          · intro n hm
            rcases List.mem_cons.1 hm with rfl | hm
            · exact hc0
            · exact hr.ne n hm
          · unfold Heads
            simp only [List.map_cons, List.nodup_cons]
            refine ⟨?_, hr.heads⟩
            intro hm
            obtain ⟨n, hm, he⟩ := List.mem_map.1 hm
            have := hno n hm
            rw [(hasCommonPrefix_iff _ _ hp).2 (.inr (he.trans hhd))] at this
            cases this
        have hperm : (newRoot p ty k :: rs).Perm rs' := by
          rw [← h]
          exact (List.perm_append_singleton _ _).symm.trans (sortNodes_perm _).symm
        refine ⟨.inl (hwl0.perm hperm), ?_⟩
        intro q hq
        rw [getRoots_eq _ _ hq, getRoots_eq _ _ hq, findSome_wfl (hwl0.perm hperm) hq, ← lookL_perm hwl0 hperm hq,
          ← findSome_wfl hwl0 hq, List.findSome?_cons]
        have hd := hi.data q hq
        simp only [Option.bind_none] at hd
        have : getD (newRoot p ty k) q = if q = p then some k else none := hd
        rw [this]
        by_cases hqp : q = p
        · simp [hqp]
        · simp [hqp]
    | some x =>
      rw [hf] at h
      cases x with
      | error e => simp only [Except.ok.injEq, reduceCtorEq] at h
      | ok ns' =>
        simp only [Except.ok.injEq] at h
        obtain ⟨w1, _, w3⟩ := insertFirst_spec rs p ty k ns' hr hp hf
        have hperm : ns'.Perm rs' := by
          rw [← h]
          split
          · exact (sortNodes_perm _).symm
          · exact .refl _
        refine ⟨.inl (w1.perm hperm), ?_⟩
        intro q hq
        rw [getRoots_eq _ _ hq, getRoots_eq _ _ hq, findSome_wfl (w1.perm hperm) hq, ← lookL_perm w1 hperm hq,
          findSome_wfl hr hq]
        exact w3.data q hq
  · have hc : hasCommonPrefix false r0.comp p = true := by rw [h0]; rfl
    rw [insertFirst, if_pos hc] at h
    have hz : depthZero (r0 :: rt) p = false := by
      unfold depthZero
      rw [List.find?_cons_of_pos (p := fun r : Node => hasCommonPrefix false r.comp p) hc]
      simp only
      rw [h0]
      cases p with
      | nil => exact absurd rfl hp
      | cons a as => rfl
    cases hn : insertNode r0 p ty k with
    | error e => rw [hn] at h; simp only [Except.ok.injEq, reduceCtorEq] at h
    | ok r0' =>
      rw [hn] at h
      simp only [hz, Except.ok.injEq] at h
      have h : r0' :: rt = rs' := by simpa using h
      subst h
      obtain ⟨w1, w2, w3⟩ := insertNode_spec r0 p ty k r0' hw0 hp hc hn
      have hc' : r0'.comp = [] := by
        rw [h0] at w2
        cases hx : r0'.comp with
        | nil => rfl
        | cons a as => rw [hx] at w2; cases w2
      refine ⟨.inr ⟨r0', rt, rfl, w1, hc', hwt⟩, ?_⟩
      intro q hq
      rw [getRoots_eq _ _ hq, getRoots_eq _ _ hq, List.findSome?_cons, List.findSome?_cons]
      have hd : getD r0' q = if q = p then some k else getD r0 q := w3.data q hq
      rw [hd]
      by_cases hqp : q = p
      · simp [hqp]
      · simp [hqp]

/-- Without a root of the empty path, the effect on all answers. -/
theorem insertRoots_ins (rs : List Node) (p : FPath) (ty : Ty) (k : Nat) (rs' : List Node) (hr : WFL rs)
    (hroot : p = [.root] → ty = .dir) (h : insertRoots rs p ty k = .ok (.ok rs')) (hr' : WFL rs') :
    Ins (lookL rs) (lookL rs') p ty k := by
  unfold insertRoots at h
  by_cases hp : p = []
  · rw [if_pos hp] at h; cases h
  rw [if_neg hp] at h
  have transfer : ∀ ns, WFL ns → ns.Perm rs' → Ins (lookL rs) (lookL ns) p ty k → Ins (lookL rs) (lookL rs') p ty k := by
    intro ns hw hperm hi
    refine ⟨?_, ?_, ?_⟩
    · intro q hq hqp hpre
      rw [← lookL_perm hw hperm hq]
      exact hi.other q hq hqp hpre
    · intro q r hq hrn hpr
      rw [← lookL_perm hw hperm hq]
      exact hi.above q r hq hrn hpr
    · obtain ⟨b, e1, e2⟩ := hi.entry
      exact ⟨b, by rw [← lookL_perm hw hperm hp, e1], e2⟩
  cases hf : insertFirst rs p ty k with
  | none =>
    rw [hf] at h
    simp only [Except.ok.injEq] at h
    have hno := insertFirst_none rs p ty k hf
    obtain ⟨hw, hi, hc⟩ := newRoot_spec p ty k hp hroot
    have hperm : (newRoot p ty k :: rs).Perm rs' := by
      rw [← h]
      exact (List.perm_append_singleton _ _).symm.trans (sortNodes_perm _).symm
    have hwl0 : WFL (newRoot p ty k :: rs) := hr'.perm hperm.symm
    have hc0 : (newRoot p ty k).comp ≠ [] := hwl0.ne _ (by simp)
    have hhd : (newRoot p ty k).comp.head? = p.head? := by
      rcases hc with h | h
      · exact absurd h hc0
      · exact h
    refine transfer _ hwl0 hperm ?_
    have hl : ∀ q, q ≠ [] → lookL (newRoot p ty k :: rs) q =
        if q.head? = p.head? then look (newRoot p ty k) q else lookL rs q := by
      intro q hq
      rw [lookL_cons]
      by_cases he : q.head? = p.head?
      · rw [if_pos he, if_pos ((hasCommonPrefix_iff _ _ hq).2 (.inr (hhd.trans he.symm)))]
      · rw [if_neg he, if_neg]
        intro hh
        rcases (hasCommonPrefix_iff _ _ hq).1 hh with h | h
        · exact hc0 h
        · exact he (h.symm.trans hhd)
    have hnone : ∀ q, q ≠ [] → q.head? = p.head? → lookL rs q = none := by
      intro q hq he
      cases hx : lookL rs q with
      | none => rfl
      | some v =>
        obtain ⟨n, hm, hv⟩ := (lookL_iff hr hq v).1 hx
        have h1 := look_head (hr.ne n hm) hv
        have h2 := hno n hm
        rw [(hasCommonPrefix_iff _ _ hp).2 (.inr (h1.trans he))] at h2
        cases h2
    refine ⟨?_, ?_, ?_⟩
    · intro q hq hqp hpre
      rw [hl q hq]
      by_cases he : q.head? = p.head?
      · rw [if_pos he, hnone q hq he]
        exact hi.other q hq hqp hpre
      · rw [if_neg he]
    · intro q r hq hrn hpr
      have he : q.head? = p.head? := by
        obtain ⟨x, xs, rfl⟩ := List.exists_cons_of_ne_nil hq
        rw [hpr]; rfl
      rw [hl q hq, if_pos he, hnone q hq he]
      exact hi.above q r hq hrn hpr
    · obtain ⟨b, e1, e2, e3, e4⟩ := hi.entry
      refine ⟨b, by rw [hl p hp, if_pos rfl, e1], e2, ?_, ?_⟩
      · intro d hd
        rw [hnone p hp rfl] at hd
        cases hd
      · intro hb
        rcases e4 hb with h5 | ⟨_, _, _, _, h5⟩
        · exact .inl h5
        · cases h5
  | some x =>
    rw [hf] at h
    cases x with
    | error e => simp only [Except.ok.injEq, reduceCtorEq] at h
    | ok ns' =>
      simp only [Except.ok.injEq] at h
      obtain ⟨w1, _, w3⟩ := insertFirst_spec rs p ty k ns' hr hp hf
      have hperm : ns'.Perm rs' := by
        rw [← h]
        split
        · exact (sortNodes_perm _).symm
        · exact .refl _
      exact transfer _ w1 hperm w3

/-! ## Containment -/

mutual

theorem containsNode_eq (n : Node) (q : FPath) : containsNode n q = ((getNode n q).bind Node.data).isSome := by
  match n with
  | .leaf c ty d =>
    rw [containsNode, getNode]
    by_cases h : q = c
    · simp [h, Node.data]
    · simp [h]
  | .branch c ch d =>
    rw [containsNode, getNode]
    cases strip c q with
    | none => rfl
    | some r =>
      simp only
      by_cases h : r = []
      · simp [h, Node.data]
      · simp only [h, if_false]
        exact containsFirst_eq ch r

theorem containsFirst_eq (ns : List Node) (q : FPath) :
    containsFirst ns q = ((getFirst ns q).bind Node.data).isSome := by
  match ns with
  | [] => rfl
  | n :: ns =>
    rw [containsFirst, getFirst]
    split
    · exact containsNode_eq n q
    · exact containsFirst_eq ns q

end

theorem containsRoots_eq (rs : List Node) (q : FPath) (hq : q ≠ []) :
    containsRoots rs q = (getRoots rs q).isSome := by
  rw [getRoots_eq _ _ hq]
  unfold containsRoots
  induction rs with
  | nil => rfl
  | cons n ns ih =>
    rw [List.any_cons, List.findSome?_cons, ih, containsNode_eq, ← getD_eq]
    cases getD n q <;> rfl

/-! ## Leaves have nothing below them -/

mutual

theorem leaf_below (n : Node) (hw : WF n) (q r : FPath) (d : Option Nat) (hr : r ≠ []) (h : look n q = some (false, d)) :
    look n (q ++ r) = none := by
  match n, hw, h with
  | .leaf c ty d', _, h =>
    rw [look_leaf] at h ⊢
    split at h
    · rename_i hq
      rw [if_neg]
      rw [hq]
      intro he
      simp at he
      exact hr he
    · cases h
  | .branch c ch d', hw, h =>
    rw [look_branch] at h
    split at h
    · cases h
    · rename_i s hs
      split at h
      · cases h
      · rename_i hsn
        have := (strip_iff _ _ _).1 hs
        rw [this, List.append_assoc, look_branch_below _ _ _ _ (by simp [hsn])]
        exact leafL_below ch hw.children s r d hsn hr h

theorem leafL_below (ns : List Node) (hw : WFL ns) (q r : FPath) (d : Option Nat) (hq : q ≠ []) (hr : r ≠ [])
    (h : lookL ns q = some (false, d)) : lookL ns (q ++ r) = none := by
  match ns, hw, h with
  | [], _, h => simp [lookL, getFirst] at h
  | n :: ns, hw, h =>
    rw [lookL_cons] at h ⊢
    have hiff : hasCommonPrefix false n.comp (q ++ r) = true ↔ hasCommonPrefix false n.comp q = true := by
      rw [hasCommonPrefix_iff _ _ hq, hasCommonPrefix_iff _ _ (by simp [hq])]
      obtain ⟨x, xs, rfl⟩ := List.exists_cons_of_ne_nil hq
      rfl
    split at h
    · rename_i hh
      rw [if_pos (hiff.2 hh)]
      exact leaf_below n (hw.wf n (by simp)) q r d hr h
    · rename_i hh
      rw [if_neg (fun h => hh (hiff.1 h))]
      exact leafL_below ns hw.tail q r d hq hr h

end

/-! ## Nearest ancestor -/

/-- The longest proper prefix of `q` that is a directory with data, or else the fallback. -/
def Near (f : FPath → Option (Bool × Option Nat)) (q above : FPath) (best res : Option (FPath × Nat)) : Prop :=
  (∃ s k, Above s q ∧ f s = some (true, some k) ∧
    (∀ s' k', Above s' q → f s' = some (true, some k') → s' <+: s) ∧ res = some (above ++ s, k)) ∨
  ((∀ s k, Above s q → f s ≠ some (true, some k)) ∧ res = best)

mutual

theorem nearestNode_spec (n : Node) (q above : FPath) (best : Option (FPath × Nat)) (hw : WF n) (hc : n.comp ≠ []) :
    Near (look n) q above best (nearestNode n q above best) := by
  match n, hw, hc with
  | .leaf c ty d, _, _ =>
    right
    refine ⟨?_, rfl⟩
    intro s k _ h
    rw [look_leaf] at h
    split at h <;> cases h
  | .branch c ch d, hw, hc =>
    simp only [nearestNode]
    simp only [Node.comp] at hc
    cases hs : strip c q with
    | none =>
      right
      refine ⟨?_, rfl⟩
      rintro s k ⟨_, r, _, hr⟩ h
      obtain ⟨x, hx⟩ := look_prefix h
      simp only [Node.comp] at hx
      exact (strip_none c q).1 hs (x ++ r) (by rw [hr, hx]; simp)
    | some rest =>
      simp only
      have hq := (strip_iff _ _ _).1 hs
      by_cases hrest : rest = []
      · rw [if_pos hrest]
        right
        refine ⟨?_, rfl⟩
        rintro s k ⟨_, r, hrn, hr⟩ h
        obtain ⟨x, hx⟩ := look_prefix h
        simp only [Node.comp] at hx
        rw [hr, hx, hrest] at hq
        have := congrArg List.length hq
        simp only [List.length_append, List.length_nil] at this
        have := List.length_pos_of_ne_nil hrn
        omega
      · rw [if_neg hrest]
        have habove : Above c q := ⟨hc, rest, hrest, hq⟩
        have hdec : ∀ s k, Above s q → look (.branch c ch d) s = some (true, some k) →
            (s = c ∧ d = some k) ∨ ∃ t, s = c ++ t ∧ Above t rest ∧ lookL ch t = some (true, some k) := by
          rintro s k ⟨hsn, r, hrn, hr⟩ h
          obtain ⟨x, hx⟩ := look_prefix h
          simp only [Node.comp] at hx
          by_cases hxn : x = []
          · left
            rw [hxn, List.append_nil] at hx
            refine ⟨hx, ?_⟩
            rw [hx, look_branch_self] at h
            simpa using h
          · right
            refine ⟨x, hx, ⟨hxn, r, hrn, ?_⟩, ?_⟩
            · rw [hr, hx, List.append_assoc] at hq
              exact (List.append_cancel_left hq).symm
            · rw [hx, look_branch_below _ _ _ _ hxn] at h
              exact h
        rcases nearestFirst_spec ch rest (above ++ c)
            ((d.map fun k => (above ++ c, k)).or best) hw.children hrest with
          ⟨s, k, h1, h2, h3, h4⟩ | ⟨h1, h2⟩
        · left
          refine ⟨c ++ s, k, ?_, ?_, ?_, ?_⟩
          · obtain ⟨a, r, b, e⟩ := h1
            exact ⟨by simp [a], r, b, by rw [hq, e]; simp⟩
          · rw [look_branch_below _ _ _ _ h1.1]; exact h2
          · intro s' k' ha hl
            rcases hdec s' k' ha hl with ⟨e, _⟩ | ⟨t, e, ht, hlt⟩
            · rw [e]; exact List.prefix_append _ _
            · rw [e]
              obtain ⟨z, hz⟩ := h3 t k' ht hlt
              exact ⟨z, by rw [← hz]; simp⟩
          · rw [h4]; simp
        · rw [h2]
          cases d with
          | some k =>
            left
            refine ⟨c, k, habove, look_branch_self _ _ _, ?_, rfl⟩
            intro s' k' ha hl
            rcases hdec s' k' ha hl with ⟨e, _⟩ | ⟨t, e, ht, hlt⟩
            · rw [e]; exact List.prefix_refl _
            · exact absurd hlt (h1 t k' ht)
          | none =>
            right
            refine ⟨?_, rfl⟩
            intro s k ha hl
            rcases hdec s k ha hl with ⟨_, e⟩ | ⟨t, e, ht, hlt⟩
            · cases e
            · exact h1 t k ht hlt

theorem nearestFirst_spec (ns : List Node) (q above : FPath) (best : Option (FPath × Nat)) (hw : WFL ns) (hq : q ≠ []) :
    Near (lookL ns) q above best (nearestFirst ns q above best) := by
  match ns, hw with
  | [], _ =>
    right
    refine ⟨?_, rfl⟩
    intro s k _ h
    simp [lookL, getFirst] at h
  | n :: ns, hw =>
    have hne := hw.ne n (by simp)
    have hiff : ∀ s, Above s q → (hasCommonPrefix false n.comp s = true ↔ hasCommonPrefix false n.comp q = true) := by
      rintro s ⟨hs, r, _, rfl⟩
      rw [hasCommonPrefix_iff _ _ hs, hasCommonPrefix_iff _ _ (by simp [hs])]
      obtain ⟨x, xs, rfl⟩ := List.exists_cons_of_ne_nil hs
      rfl
    rw [nearestFirst]
    by_cases hh : hasCommonPrefix false n.comp q = true
    · rw [if_pos hh]
      have e : ∀ s, Above s q → lookL (n :: ns) s = look n s := by
        intro s hs
        rw [lookL_cons, if_pos ((hiff s hs).2 hh)]
      rcases nearestNode_spec n q above best (hw.wf n (by simp)) hne with ⟨s, k, h1, h2, h3, h4⟩ | ⟨h1, h2⟩
      · left
        refine ⟨s, k, h1, by rw [e s h1]; exact h2, ?_, h4⟩
        intro s' k' ha hl
        rw [e s' ha] at hl
        exact h3 s' k' ha hl
      · right
        refine ⟨?_, h2⟩
        intro s k ha hl
        rw [e s ha] at hl
        exact h1 s k ha hl
    · rw [if_neg hh]
      have e : ∀ s, Above s q → lookL (n :: ns) s = lookL ns s := by
        intro s hs
        rw [lookL_cons, if_neg (fun h => hh ((hiff s hs).1 h))]
      rcases nearestFirst_spec ns q above best hw.tail hq with ⟨s, k, h1, h2, h3, h4⟩ | ⟨h1, h2⟩
      · left
        refine ⟨s, k, h1, by rw [e s h1]; exact h2, ?_, h4⟩
        intro s' k' ha hl
        rw [e s' ha] at hl
        exact h3 s' k' ha hl
      · right
        refine ⟨?_, h2⟩
        intro s k ha hl
        rw [e s ha] at hl
        exact h1 s k ha hl

end

theorem nearestRoots_eq (rs : List Node) (q : FPath) (hw : WFL rs) (hq : q ≠ []) :
    nearestRoots rs q = nearestFirst rs q [] none := by
  induction rs with
  | nil => rfl
  | cons n ns ih =>
    unfold nearestRoots at ih ⊢
    rw [List.findSome?_cons, nearestFirst]
    by_cases hh : hasCommonPrefix false n.comp q = true
    · simp only [if_pos hh]
      cases hx : nearestNode n q [] none with
      | some v => rfl
      | none =>
        simp only
        rw [List.findSome?_eq_none_iff]
        intro m hm
        rw [if_neg]
        intro hm2
        have h1 := (hasCommonPrefix_iff _ _ hq).1 hh
        have h2 := (hasCommonPrefix_iff _ _ hq).1 hm2
        have h1 : n.comp.head? = q.head? := h1.resolve_left (hw.ne n (by simp))
        have h2 : m.comp.head? = q.head? := h2.resolve_left (hw.ne m (by simp [hm]))
        have := hw.heads
        unfold Heads at this
        simp only [List.map_cons, List.nodup_cons, List.mem_map, not_exists, not_and] at this
        exact this.1 m hm (h2.trans h1.symm)
    · simp only [hh]
      exact ih hw.tail

end Litcheck.PathTree
