import Verif.Proofs.TameText
import Verif.Proofs.NonEmpty

/-!
# A test for `PlainFile`
-/

namespace Litcheck.Sets
open Litcheck.Smart Litcheck.Spec Litcheck.PatternSpec Litcheck.Pattern
open Litcheck.Lex (Part Match CPat CLine)

/-! ## Orders of directives -/

def nextB : List Kind → Bool
  | [] => true
  | k :: ks => ((k != .next && k != .empty) || !ks.contains .label) && nextB ks

theorem nextB_sound : ∀ {ks : List Kind}, nextB ks = true → ∀ a k c, ks = a ++ k :: c → k = .next ∨ k = .empty → Kind.label ∉ c
  | ks, h, x :: a, k, c, he, hk => by
    subst he
    simp only [List.cons_append, nextB, Bool.and_eq_true] at h
    exact nextB_sound h.2 a k c rfl hk
  | ks, h, [], k, c, he, hk => by
    subst he
    simp only [List.nil_append, nextB, Bool.and_eq_true] at h
    intro hl
    have h1 := h.1
    rcases hk with rfl | rfl <;> simp [hl] at h1

/-- No `CHECK-SAME` before the first label. -/
def sameB (ks : List Kind) : Bool := !ks.contains .label || !(ks.takeWhile (· != .label)).contains .same

theorem sameB_sound {ks : List Kind} (h : sameB ks = true) (a c : List Kind) (he : ks = a ++ Kind.same :: c) : Kind.label ∈ a ∨ Kind.label ∉ c := by
  by_cases ha : Kind.label ∈ a
  · exact .inl ha
  · right
    intro hc
    subst he
    unfold sameB at h
    rw [List.takeWhile_append_of_pos (by intro y hy; simp; intro hy'; exact ha (hy' ▸ hy)), List.takeWhile_cons_of_pos (by decide)] at h
    simp [hc] at h

/-- Only `CHECK-NOT` up to the next label. -/
def onlyNots (ks : List Kind) : Bool := (ks.takeWhile (· != .label)).all (· == .not)

def afterDag : List Kind → Bool
  | .not :: post => onlyNots post
  | .plain :: .not :: post => onlyNots post
  | .count _ :: .not :: post => onlyNots post
  | _ => true

def dagNotB : List Kind → Bool
  | [] => true
  | k :: ks => (k != .dag || afterDag ks) && dagNotB ks

theorem dagNotB_sound : ∀ {ks : List Kind}, dagNotB ks = true → ∀ pre opt post, ks = pre ++ Kind.dag :: (opt ++ Kind.not :: post) →
    (opt = [] ∨ opt = [.plain] ∨ ∃ n, opt = [.count n]) → ∀ a k c, post = a ++ k :: c → Kind.label ∉ a ++ [k] → k = .not
  | ks, h, x :: pre, opt, post, he, ho => by
    subst he
    simp only [List.cons_append, dagNotB, Bool.and_eq_true] at h
    exact dagNotB_sound h.2 pre opt post rfl ho
  | ks, h, [], opt, post, he, ho => by
    subst he
    simp only [List.nil_append, dagNotB, Bool.and_eq_true] at h
    intro a k c hp hl
    have h1 := h.1
    have h2 : onlyNots post = true := by
      rcases ho with rfl | rfl | ⟨n, rfl⟩ <;> simpa [afterDag] using h1
    subst hp
    unfold onlyNots at h2
    rw [List.mem_append, not_or] at hl
    rw [List.takeWhile_append_of_pos (by intro y hy; simp; intro hy'; exact hl.1 (hy' ▸ hy)),
      List.takeWhile_cons_of_pos (by simp; intro hk; exact hl.2 (by simp [hk])), List.all_eq_true] at h2
    simpa using h2 k (by simp)

def orderlyB (imp : Bool) (ks : List Kind) : Bool :=
  nextB ks && sameB ks && dagNotB ks && (!imp || !ks.contains .dag) && !ks.contains (.count 0)

theorem orderlyB_sound {imp : Bool} {ks : List Kind} (h : orderlyB imp ks = true) : OrderlyFile imp ks := by
  simp only [orderlyB, Bool.and_eq_true] at h
  obtain ⟨⟨⟨⟨h1, h2⟩, h3⟩, h4⟩, h5⟩ := h
  refine ⟨nextB_sound h1, sameB_sound h2, dagNotB_sound h3, ?_, by simpa using h5⟩
  rintro rfl
  simpa using h4

/-! ## Patterns -/

def plainPart : Part → Bool
  | .match_ _ => false
  | _ => true

def plainB (p : CPat) : Bool := (partsOf p).all plainPart

theorem plainB_sound {p : CPat} (h : plainB p = true) : Plain p := by
  intro x hx m hm
  have := List.all_eq_true.1 h x hx
  rw [hm] at this
  simp [plainPart] at this

def usesB : Part → Bool
  | .match_ (.substitution _ none) => true
  | .match_ (.numeric _ _ (some _)) => true
  | _ => false

theorem usesB_iff {x : Part} : usesB x = true ↔ Uses x := by
  unfold usesB Uses
  split <;> simp

def plainGroupB (o : Opts) (ps : List CPat) : Bool :=
  staticGroupB o ps && decide (ps.map srcText).Nodup

theorem plainGroupB_sound {o : Opts} {ps : List CPat} (h : plainGroupB o ps = true) : PlainGroup o ps := by
  simp only [plainGroupB, Bool.and_eq_true, decide_eq_true_eq] at h
  exact ⟨staticGroupB_sound h.1, h.2⟩

/-- The runs of consecutive lines of the kind `k`, each after `extra`, are groups. -/
def runsB (o : Opts) (k : Kind) (extra : List CPat) : List CLine → Bool
  | [] => plainGroupB o extra
  | l :: ls => plainGroupB o (extra ++ ((l :: ls).takeWhile fun l => l.kind == k).map CLine.pattern) && runsB o k extra ls

theorem runsB_sound {o : Opts} {k : Kind} {extra : List CPat} : ∀ {ls : List CLine}, runsB o k extra ls = true → ∀ a b c, ls = a ++ b ++ c →
    (∀ l ∈ b, l.kind = k) → PlainGroup o (extra ++ b.map CLine.pattern)
  | ls, h, l :: a, b, c, he, hk => by
    subst he
    simp only [List.cons_append, runsB, Bool.and_eq_true] at h
    exact runsB_sound h.2 a b c (by simp) hk
  | ls, h, [], [], c, he, hk => by
    cases ls with
    | nil => simpa using plainGroupB_sound h
    | cons l ls =>
      simp only [runsB, Bool.and_eq_true] at h
      exact (plainGroupB_sound h.1).mono (by simp)
  | ls, h, [], l :: b, c, he, hk => by
    subst he
    simp only [List.nil_append, List.cons_append, runsB, Bool.and_eq_true] at h
    refine (plainGroupB_sound h.1).mono ?_
    rw [← List.cons_append, List.takeWhile_append_of_pos (by intro x hx; simp [hk x hx]), List.map_append, ← List.append_assoc]
    exact List.sublist_append_left _ _

/-- A test for `Safe`. -/
def safeB (ck : Bool) : Lex.Expr → Bool
  | .bin op l r => safeB ck l && safeB ck r && op != .div && (!ck || op == .min || op == .max)
  | _ => true

theorem safeB_sound {ck : Bool} {line : Nat} : ∀ {e : Lex.Expr}, safeB ck e = true → Safe ck line e
  | .num _, _ => trivial
  | .var _, _ => trivial
  | .bin op l r, h => by
    simp only [safeB, Bool.and_eq_true, bne_iff_ne, ne_eq, Bool.or_eq_true, Bool.not_eq_true', beq_iff_eq] at h
    obtain ⟨⟨⟨h1, h2⟩, h3⟩, h4⟩ := h
    refine ⟨safeB_sound h1, safeB_sound h2, h3, ?_⟩
    intro hc k1 k2
    rcases h4 with (h4 | h4) | h4
    · rw [hc] at h4; cases h4
    · exact absurd h4 k1
    · exact absurd h4 k2

def safePartB (ck : Bool) : Part → Bool
  | .match_ (.numeric _ _ (some e)) => safeB ck e
  | _ => true

/-- A test for `Calm`. -/
def calmB (run : Run) (p : CPat) : Bool :=
  wellFormedB p && (partsOf p).all (safePartB run.checked) && (partsOf p).head?.all solidPart

theorem calmB_sound {run : Run} {p : CPat} (h : calmB run p = true) : Calm run p := by
  simp only [calmB, Bool.and_eq_true, List.all_eq_true] at h
  obtain ⟨⟨h1, h2⟩, h3⟩ := h
  refine ⟨wellFormedB_sound h1, ?_, ?_⟩
  · intro line x hx
    have := h2 x hx
    unfold safePartB at this
    unfold SafePart
    split
    · exact safeB_sound this
    · trivial
  · intro x hx
    rw [hx] at h3
    exact solidPat_sound (by simpa [solidPat, partsOf] using h3)

def plainLineB (run : Run) (l : CLine) : Bool :=
  ((partsOf l.pattern).all (fun x => !usesB x) || (l.kind != .label && (l.kind == .not || l.kind == .dag || l.kind == .empty || calmB run l.pattern))) &&
  (!l.literal || l.kind == .empty || (match l.pattern with | .literal s => !s.isEmpty | _ => false)) &&
  (match l.kind with
    | .label => partsOkB l.pattern && linePat run.opts.ignoreCase l.pattern
    | .same => wellFormedB l.pattern && solidPat l.pattern
    | _ => true)

/-- `PlainFile`. -/
def plainFileB (run : Run) (imp : List Str) (ls : List CLine) : Bool :=
  ls.all (plainLineB run) && runsB run.opts .not (if imp.isEmpty then [] else [.regex (implicitSrc imp)]) ls && runsB run.opts .dag [] ls &&
  orderlyB (!imp.isEmpty) (ls.map CLine.kind)

theorem plainFileB_sound {run : Run} {imp : List Str} {ls : List CLine} (h : plainFileB run imp ls = true) : PlainFile run imp ls := by
  simp only [plainFileB, Bool.and_eq_true] at h
  obtain ⟨⟨⟨h1, h2⟩, h3⟩, h4⟩ := h
  rw [List.all_eq_true] at h1
  simp only [plainLineB, Bool.and_eq_true] at h1
  have hun : ∀ {l : CLine}, (partsOf l.pattern).all (fun x => !usesB x) = true → ∀ x ∈ partsOf l.pattern, ¬ Uses x := by
    intro l h x hx hu
    have := List.all_eq_true.1 h x hx
    rw [usesB_iff.2 hu] at this
    simp at this
  refine ⟨?_, ?_, ?_, ?_, ?_, runsB_sound h2, ?_, orderlyB_sound h4⟩
  · intro l hl hk
    have := (h1 l hl).1.1
    rw [hk] at this
    simp only [bne_self_eq_false, Bool.false_and, Bool.or_false] at this
    exact hun this
  · intro l hl k1 k2 k3 k4
    have := (h1 l hl).1.1
    rw [Bool.or_eq_true] at this
    rcases this with h | h
    · exact .inl (hun h)
    · simp only [Bool.and_eq_true, Bool.or_eq_true, beq_iff_eq] at h
      rcases h.2 with ((h | h) | h) | h
      · exact absurd h k2
      · exact absurd h k3
      · exact absurd h k4
      · exact .inr (calmB_sound h)
  · intro l hl hlit hk
    have := (h1 l hl).1.2
    rw [hlit, show (l.kind == Kind.empty) = false by simpa using hk] at this
    simp only [Bool.not_true, Bool.false_or] at this
    split at this
    · exact ⟨_, ‹_›, by simpa using this⟩
    · simp at this
  · intro l hl hk
    have := (h1 l hl).2
    rw [hk] at this
    simp only [Bool.and_eq_true] at this
    exact ⟨partsOkB_sound this.1, linePat_sound this.2⟩
  · intro l hl hk
    have := (h1 l hl).2
    rw [hk] at this
    simp only [Bool.and_eq_true] at this
    exact ⟨wellFormedB_sound this.1, solidPat_sound this.2⟩
  · intro a b c he hk
    simpa using runsB_sound h3 a b c he hk

end Litcheck.Sets
