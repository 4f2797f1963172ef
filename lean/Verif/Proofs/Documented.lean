import Verif.Proofs.StaticComplete
import Verif.Props.Number

/-!
# When the guarantee of the program is that of the documentation
-/

namespace Litcheck.Pattern
open Litcheck.Smart Litcheck.Spec Litcheck.RegexSpec Litcheck.PatternSpec
open Litcheck.Regex hiding Items
open Litcheck.Lex (Part Match CPat VarName Expr Op)

/-- The characters which are special in a regular expression. -/
def specials : List Char := "\\.+*?()|[]{}^$".toList

/-- Strings of the environment have no special characters. -/
def PlainVars (env : Vars) : Prop := ∀ k s, env.get k = .ok (some (.str s)) → plainText s = true

/-- The input has no special characters. -/
def PlainInput (b : Buf) : Prop := ∀ c ∈ specials, c.toNat.toUInt8 ∉ b

/-- The part captures a number and compares it. -/
def Constrains : Part → Prop
  | .match_ (.numeric _ (some _) (some _)) => True
  | _ => False

theorem plain_iff {t : Str} : plainText t = true ↔ ∀ c ∈ t, c ∉ specials := by
  unfold plainText
  rw [List.all_eq_true]
  refine forall_congr' fun c => forall_congr' fun _ => ?_
  rw [Bool.not_eq_true', ← Bool.not_eq_true, List.contains_iff_mem]
  rfl

theorem plain_digit (up : Bool) (d : Nat) : Num.digitChar up d ∉ specials := by
  by_cases h : d < 16
  · interval_cases d <;> cases up <;> decide
  · have : Num.digitChar up d = '0' := by
      unfold Num.digitChar
      cases up <;> simp only [if_true, if_false, Bool.false_eq_true, List.getD_eq_getElem?_getD] <;>
        rw [List.getElem?_eq_none (Nat.le_trans (by decide : _ ≤ 16) (by omega))] <;> rfl
    rw [this]; decide

theorem plain_show (base : Nat) (up : Bool) (n : Nat) : ∀ c ∈ Num.showNat base up n, c ∉ specials := by
  unfold Num.showNat
  split
  · intro c hc; simp only [List.mem_singleton] at hc; subst hc; decide
  · intro c hc
    obtain ⟨d, _, rfl⟩ := List.mem_map.1 hc
    exact plain_digit up d

theorem plain_pad {sign digits : List Char} {w : Nat} (h1 : ∀ c ∈ sign, c ∉ specials) (h2 : ∀ c ∈ digits, c ∉ specials) :
    ∀ c ∈ Num.padZero sign digits w, c ∉ specials := by
  intro c hc
  unfold Num.padZero at hc
  simp only [List.mem_append, List.mem_replicate] at hc
  rcases hc with (hc | ⟨_, rfl⟩) | hc
  · exact h1 c hc
  · decide
  · exact h2 c hc

theorem plain_display (v : Int) (f : NumFmt) : plainText (Num.display v f) = true := by
  rw [plain_iff]
  have hs : ∀ c ∈ (if v < 0 then ['-'] else []), c ∉ specials := by
    intro c hc
    split at hc
    · simp only [List.mem_singleton] at hc; subst hc; decide
    · simp at hc
  have hx : ∀ c ∈ ['0', 'x'], c ∉ specials := by decide
  unfold Num.display
  split
  · exact plain_show _ _ _
  · exact plain_pad (by simp) (plain_show _ _ _)
  · intro c hc
    rcases List.mem_append.1 hc with hc | hc
    · exact hs c hc
    · exact plain_show _ _ _ c hc
  · exact plain_pad hs (plain_show _ _ _)
  · intro c hc
    rcases List.mem_append.1 hc with hc | hc
    · exact hx c hc
    · exact plain_show _ _ _ c hc
  · exact plain_show _ _ _
  · exact plain_pad hx (plain_show _ _ _)
  · exact plain_pad (by simp) (plain_show _ _ _)

theorem plain_text {line : Nat} {env : Vars} {f : Option NumFmt} {e : Expr} {t : Str} (he : PlainVars env) (h : Text line env f e t) :
    plainText t = true := by
  cases h with
  | str h => exact he _ _ h
  | num _ => exact plain_display _ _

theorem plain_slice {b : Buf} {t : Str} {i j : Nat} (hb : PlainInput b) (h : utf8 t = sliceOf b i j) : plainText t = true := by
  rw [plain_iff]
  intro c hc hs
  refine hb c hs ?_
  have h1 : encode c.toNat = [c.toNat.toUInt8] := by
    have : c.toNat < 128 := by
      have : ∀ c ∈ specials, c.toNat < 128 := by decide
      exact this c hs
    exact if_pos this
  have h2 : c.toNat.toUInt8 ∈ utf8 t := by
    unfold utf8
    rw [List.mem_flatMap]
    exact ⟨c, hc, by rw [h1]; simp⟩
  rw [h] at h2
  unfold sliceOf at h2
  exact List.mem_of_mem_take (List.mem_of_mem_drop h2)

theorem plain_insert {env : Vars} {k : VName} {v : Val} (he : PlainVars env) (hv : ∀ s, v = .str s → plainText s = true) :
    PlainVars (env.insert k v) := by
  intro k' s h
  have key : ∀ {K : Type} [DecidableEq K] (m : Map K Val) (a c : K), (m.insert a v) c = some v ∨ (m.insert a v) c = m c := by
    intro K _ m a c
    unfold Map.insert
    split
    · exact .inl rfl
    · exact .inr rfl
  cases k' with
  | pseudo x => simp [Bindings.get] at h
  | user x =>
    cases k with
    | global y => exact he (.user x) s h
    | user y =>
      simp only [Bindings.insert, Bindings.get, Except.ok.injEq] at h
      rcases key env.bound (.user y) (.user x) with h1 | h1
      · rw [h1] at h
        exact hv s (by simpa using h)
      · rw [h1] at h
        exact he (.user x) s (by simpa [Bindings.get] using h)
    | pseudo y =>
      simp only [Bindings.insert, Bindings.get, Except.ok.injEq] at h
      rcases key env.bound (.pseudo y) (.user x) with h1 | h1
      · rw [h1] at h
        exact hv s (by simpa using h)
      · rw [h1] at h
        exact he (.user x) s (by simpa [Bindings.get] using h)
  | global x =>
    cases k with
    | user y => exact he (.global x) s h
    | pseudo y => exact he (.global x) s h
    | global y =>
      simp only [Bindings.insert, Bindings.get, Except.ok.injEq] at h
      rcases key env.global y x with h1 | h1
      · rw [h1] at h
        exact hv s (by simpa using h)
      · rw [h1] at h
        exact he (.global x) s (by simpa [Bindings.get] using h)

theorem part_documented {cx : PatternSpec.Ctx} (hr : cx.rd = weak) {b : Buf} (hb : PlainInput b) {p : Part} (hp : ¬ Constrains p)
    {env env' : Vars} (he : PlainVars env) {i j : Nat} (h : PartMatches cx b env i j env' p) :
    PartMatches { cx with rd := documented } b env i j env' p ∧ PlainVars env' := by
  have hst : ∀ {t}, plainText t = true → Stands cx.rd cx.ic b t i j → Stands documented cx.ic b t i j := by
    intro t ht h
    rw [hr] at h
    unfold Stands at h ⊢
    rw [if_pos (by exact ht)] at h
    rw [if_pos (by rfl)]
    exact h
  cases p with
  | literal s => exact ⟨h, by rw [h.1]; exact he⟩
  | regex s => exact ⟨h, by rw [h.1]; exact he⟩
  | match_ m =>
    cases m with
    | substitution x pt =>
      cases pt with
      | none =>
        obtain ⟨rfl, t, h1, h2⟩ := h
        exact ⟨⟨rfl, t, h1, hst (plain_text he h1) h2⟩, he⟩
      | some s =>
        refine ⟨h, ?_⟩
        obtain ⟨_, t, h1, rfl⟩ := h
        exact plain_insert he (fun s hs => by cases hs; exact plain_slice hb h1)
    | numeric f cap e =>
      cases cap with
      | none =>
        cases e with
        | none => exact ⟨h, by rw [h.1]; exact he⟩
        | some e =>
          obtain ⟨rfl, t, h1, h2⟩ := h
          exact ⟨⟨rfl, t, h1, hst (plain_text he h1) h2⟩, he⟩
      | some x =>
        cases e with
        | some e => exact absurd trivial hp
        | none =>
          obtain ⟨t, v, f', h1, h2, h3, h4, rfl, _⟩ := h
          exact ⟨⟨t, v, f', h1, h2, h3, h4, rfl, fun e he => (by cases he)⟩, plain_insert he (fun s hs => by cases hs)⟩

theorem parts_documented {cx : PatternSpec.Ctx} (hr : cx.rd = weak) {b : Buf} (hb : PlainInput b) {ps : List Part} {env env' : Vars} {i j : Nat}
    (h : PartsMatch cx b env ps i j env') (hp : ∀ p ∈ ps, ¬ Constrains p) (he : PlainVars env) :
    PartsMatch { cx with rd := documented } b env ps i j env' := by
  induction h with
  | nil => exact .nil
  | cons h1 _ ih =>
    obtain ⟨h3, h4⟩ := part_documented hr hb (hp _ (by simp)) he h1
    exact .cons h3 (ih (fun p hq => hp p (by simp [hq])) h4)

end Litcheck.Pattern
