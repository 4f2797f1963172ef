import Verif.Proofs.LineNumbers
import Verif.Props.CheckFile
import Verif.Props.CheckText
import Verif.Props.CheckFileCases

/-!
# C85: the value of `@LINE`

`Spec/LineNumbers.lean` says on which line of a text a directive is.
-/

namespace Litcheck

open Lex LexSpec

/-- A directive is on the line whose number it has, -/
theorem RecognisedAt.line {cs ms k fresh ls ds} (h : RecognisedAt cs ms k fresh ls ds) :
    ∀ n d, (n, d) ∈ ds → k ≤ n ∧ ∃ a b, ls[n - k]? = some (a ++ b) ∧ (a = [] ∨ ∃ a' c, a = a' ++ [c] ∧ ws c) ∧ Begins cs ms b d := by
  have step : ∀ {k : Nat} {x : Str} {ls : List Str} {n : Nat} {d : Directive},
      (k + 1 ≤ n ∧ ∃ a b, ls[n - (k + 1)]? = some (a ++ b) ∧ (a = [] ∨ ∃ a' c, a = a' ++ [c] ∧ ws c) ∧ Begins cs ms b d) →
      k ≤ n ∧ ∃ a b, (x :: ls)[n - k]? = some (a ++ b) ∧ (a = [] ∨ ∃ a' c, a = a' ++ [c] ∧ ws c) ∧ Begins cs ms b d := by
    rintro k x ls n d ⟨h1, a, b, h2, h3⟩
    refine ⟨by omega, a, b, ?_, h3⟩
    rw [show n - k = (n - (k + 1)) + 1 by omega, List.getElem?_cons_succ]
    exact h2
  induction h with
  | nil => intro n d hd; cases hd
  | blank _ _ ih => intro n d hd; exact step (ih n d hd)
  | none _ _ _ ih => intro n d hd; exact step (ih n d hd)
  | @some k fresh a b ls d' ds _ hp hb _ _ ih =>
    intro n d hd
    obtain hd | hd := List.mem_cons.1 hd
    · cases hd
      refine ⟨Nat.le_refl _, a, b, by simp, ?_, hb⟩
      obtain rfl | ⟨h, -⟩ := hp
      · exact .inl rfl
      · exact .inr h
    · exact step (ih n d hd)

/-- and no two directives are on the same line. -/
theorem RecognisedAt.sorted {cs ms k fresh ls ds} (h : RecognisedAt cs ms k fresh ls ds) : ds.Pairwise fun x y => x.1 < y.1 := by
  induction h with
  | nil => exact .nil
  | blank _ _ ih => exact ih
  | none _ _ _ ih => exact ih
  | some _ _ _ _ h ih =>
    refine .cons (fun y hy => ?_) ih
    have := (RecognisedAt.line h y.1 y.2 hy).1
    show _ < y.1
    omega

/-- **C85.** The value of `@LINE` in a check line is the number of the line of the check file on which its directive is written; lines are
counted from 1, whatever they contain. -/
theorem C85_lines {cfg : Cfg} {text : Str} (hr : Readable cfg text) {allow : Bool} {ls : List CLine} (h : parse cfg allow text = .ok ls) :
    ∃ ds, RecognisedAt (checkPfx cfg) (commentPfx cfg) 1 true (lines text) ds ∧
      List.Forall₂ (Reads (strictWs cfg)) (checkDirectives (ds.map (·.2))) ls ∧
      checkLines cfg text = (ds.filter fun x => x.2.head != .comment).map (·.1) := by
  obtain ⟨ds, h1, h0, h2, h3⟩ := parse_spec_at hr.clean allow text hr.mods hr.nul
  refine ⟨ds, h1, ?_, h2⟩
  have hw := Recognised.written h0
  rw [← readAll_iff cfg hw]
  rw [h3] at h
  cases ha : readAll cfg (ds.map (·.2)) with
  | error e => rw [ha] at h; simp [bind, Except.bind] at h
  | ok ls' =>
    rw [ha] at h
    simp only [bind, Except.bind] at h
    split at h
    · cases h
    · exact h

/-- **C85**, of one check line: the directive of the check line `i` is on the line with that number. -/
theorem C85_number {cfg : Cfg} {text : Str} (hr : Readable cfg text) {allow : Bool} {ls : List CLine} (h : parse cfg allow text = .ok ls)
    {i : Nat} {l : CLine} (hi : ls[i]? = some l) :
    ∃ n a b d, (checkLines cfg text)[i]? = some n ∧ 0 < n ∧ (lines text)[n - 1]? = some (a ++ b) ∧
      (a = [] ∨ ∃ a' c, a = a' ++ [c] ∧ ws c) ∧ Begins (checkPfx cfg) (commentPfx cfg) b d ∧ Reads (strictWs cfg) d l := by
  obtain ⟨ds, h1, h2, h3⟩ := C85_lines hr h
  have he : checkDirectives (ds.map (·.2)) = (ds.filter fun x => x.2.head != .comment).map (·.2) := by
    unfold checkDirectives
    rw [List.filter_map]
    rfl
  rw [he] at h2
  have hlen := h2.length_eq
  obtain ⟨hlt, hli⟩ := List.getElem?_eq_some_iff.1 hi
  rw [List.length_map] at hlen
  have hx : (ds.filter fun x => x.2.head != .comment)[i]? = some (ds.filter fun x => x.2.head != .comment)[i] :=
    List.getElem?_eq_getElem (by omega)
  generalize (ds.filter fun x => x.2.head != .comment)[i] = x at hx
  have hm := (List.mem_filter.1 (List.mem_of_getElem? hx)).1
  obtain ⟨h4, a, b, h5, h6, h7⟩ := RecognisedAt.line h1 x.1 x.2 hm
  refine ⟨x.1, a, b, x.2, by rw [h3, List.getElem?_map, hx]; rfl, h4, h5, h6, h7, ?_⟩
  have := (List.forall₂_iff_get.1 h2).2 i (by rw [List.length_map]; omega) hlt
  simp only [List.get_eq_getElem, List.getElem_map] at this
  rw [hli] at this
  rw [List.getElem?_eq_getElem (by omega)] at hx
  simp only [Option.some.injEq] at hx
  rw [hx] at this
  exact this

/-- **C85**, later checks have greater numbers. -/
theorem C85_increasing {cfg : Cfg} {text : Str} (hr : Readable cfg text) {allow : Bool} {ls : List CLine} (h : parse cfg allow text = .ok ls) :
    (checkLines cfg text).length = ls.length ∧ (checkLines cfg text).Pairwise (· < ·) := by
  obtain ⟨ds, h1, h2, h3⟩ := C85_lines hr h
  constructor
  · rw [h3, List.length_map, ← h2.length_eq]
    unfold checkDirectives
    rw [List.filter_map, List.length_map]
    rfl
  · rw [h3, List.pairwise_map]
    exact (RecognisedAt.sorted h1).sublist List.filter_sublist

/-- **C85**, at any place of the pattern: wherever in the rest of the line a name begins, its `@LINE` has the same value. -/
theorem C85_anywhere {cfg : Cfg} {text : Str} {i : Nat} {a t : Str} (h : (rests cfg (text.length + 1) true text)[i]? = some (a ++ t)) (ha : '\n' ∉ a) :
    (checkLines cfg text)[i]? = some (pseudoLine text (text.length - t.length)) := by
  obtain ⟨p, hp⟩ := rests_suffix _ (List.mem_of_getElem? h)
  have h1 := pseudoLine_append p (a ++ t)
  have h2 := pseudoLine_append (p ++ a) t
  rw [List.append_assoc, List.count_append, List.count_eq_zero_of_not_mem ha, Nat.add_zero] at h2
  rw [hp] at h1 h2
  unfold checkLines
  rw [List.getElem?_map, h, Option.map_some, h1, h2]

/-! ## A check file with empty lines, comments and two checks with `@LINE` -/

def lineText : Str := "RUN: x\n\nCHECK: a\nCOM: CHECK: b\n\n  ; CHECK-NEXT: b[[#@LINE]]\n; CHECK: c[[#@LINE - 1]]".toList

/-- It is readable and accepted. -/
example : Readable CheckFileEx.cfg lineText := CheckFileEx.readable (by decide +kernel) (by decide +kernel)

example : ∃ ls, parse CheckFileEx.cfg false lineText = .ok ls ∧ ls.length = 3 := by
  have h : ((parse CheckFileEx.cfg false lineText).toOption.map List.length) = some 3 := by decide +kernel
  cases hp : parse CheckFileEx.cfg false lineText with
  | error e => rw [hp] at h; simp [Except.toOption] at h
  | ok ls => rw [hp] at h; exact ⟨ls, rfl, by simpa [Except.toOption] using h⟩

example : checkLines Sets.exCfg lineText = [3, 6, 7] := by decide +kernel

/-- `Sets.exRun`, with the numbers of the lines of the text. -/
def lineRun (text : Str) : Sets.Run := { Sets.exRun with lineOf := fun i => (checkLines Sets.exCfg text)[i]?.getD 0 }

example : Sets.TextPasses (lineRun lineText) [] Sets.exCfg false lineText Bindings.empty (Regex.utf8 "a\nb6\nc6\n".toList) :=
  Sets.textPasses_of (by decide +kernel)

example : ¬ Sets.TextPasses (lineRun lineText) [] Sets.exCfg false lineText Bindings.empty (Regex.utf8 "a\nb2\nc2\n".toList) :=
  Sets.not_textPasses_of (by decide +kernel)

end Litcheck
