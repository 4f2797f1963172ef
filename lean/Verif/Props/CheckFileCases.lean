import Verif.Props.CheckFile

/-!
# C64–C66: concrete check files, and what goes wrong
-/

namespace Litcheck

open Lex LexSpec

/-- A text without the word `LITERAL` has no modifiers. -/
theorem mods_of_noLiteral {text : Str} (h : ¬ "LITERAL".toList <:+: text) : ModsOnOneLine text := by
  intro a m b n he hm
  cases hm with
  | none => simp
  | @some n w t hw ht =>
    exfalso
    apply h
    rw [he]
    exact ⟨a ++ '{' :: w, t ++ ['}'] ++ b, by simp⟩

namespace CheckFileEx

/-- No options. -/
def cfg : Cfg := ⟨[], [], false, false⟩

theorem checks : NoSpace (checkPfx cfg) := by
  intro p hp
  obtain rfl : p = "CHECK".toList := by simpa [orElse, cfg] using hp
  decide

theorem comments : NoSpace (commentPfx cfg) := by
  intro p hp
  have : p = "COM".toList ∨ p = "RUN".toList := by simpa [orElse, cfg] using hp
  obtain rfl | rfl := this <;> decide

theorem readable {text : Str} (h : ¬ "LITERAL".toList <:+: text) (h0 : text.head? ≠ some '\x00') : Readable cfg text :=
  ⟨checks, comments, mods_of_noLiteral h, h0⟩

theorem unambiguous : Unambiguous (checkPfx cfg) (commentPfx cfg) := by
  constructor
  · intro p hp
    obtain rfl : p = "CHECK".toList := by simpa [orElse, cfg] using hp
    decide
  · intro p q x hp hq he hx
    exfalso
    have hp : p = "CHECK".toList ∨ p = "COM".toList ∨ p = "RUN".toList := by simpa [orElse, cfg] using hp
    have hq : q = "CHECK".toList ∨ q = "COM".toList ∨ q = "RUN".toList := by simpa [orElse, cfg] using hq
    obtain rfl | rfl | rfl := hp <;> obtain rfl | rfl | rfl := hq <;> simp at he <;> exact hx he

/-- A check file. -/
def text : Str := "RUN: foo\nCHECK: a[[X:b+]] c\n// CHECK-NEXT: {{ d* }}\nint x; // CHECK-NOT: e\nCHECK-COUNT-12: f\n".toList

theorem text_ok : parse cfg false text = .ok
    [⟨.plain, false, .match_ [.literal "a".toList, .match_ (.substitution (.user "X".toList) (some "b+".toList)), .literal " c".toList]⟩,
     ⟨.next, false, .regex "d*".toList⟩, ⟨.not, false, .literal "e".toList⟩, ⟨.count 12, false, .literal "f".toList⟩] := by
  rfl

/-- `C64_parse_iff` applies to it. -/
example : ∃ ds, Recognised (checkPfx cfg) (commentPfx cfg) true (lines text) ds ∧ (checkDirectives ds).length = 4 ∧
    List.Forall₂ (Reads (strictWs cfg)) (checkDirectives ds)
    [⟨.plain, false, .match_ [.literal "a".toList, .match_ (.substitution (.user "X".toList) (some "b+".toList)), .literal " c".toList]⟩,
     ⟨.next, false, .regex "d*".toList⟩, ⟨.not, false, .literal "e".toList⟩, ⟨.count 12, false, .literal "f".toList⟩] := by
  obtain ⟨ds, h1, h2, -⟩ := (C64_parse_iff (readable (text := text) (by decide +kernel) (by decide)) unambiguous false _).1 text_ok
  exact ⟨ds, h1, h2.length_eq, h2⟩

/-- Lines that are not indented have no indented directives. -/
theorem notIndented {ls : List Str} (h : ∀ l ∈ ls, ∀ c ∈ l.head?, asciiWs c = false) {cs cm : List Str} :
    ∀ l ∈ ls, ∀ a b, l = a ++ b → a ≠ [] → a.all asciiWs → ∀ d, ¬ Begins cs cm b d := by
  intro l hl a b he ha hall d _
  cases a with
  | nil => exact ha rfl
  | cons c a =>
    have h1 := h l hl c (by rw [he]; simp)
    have h2 := List.all_eq_true.1 hall c (by simp)
    rw [h1] at h2
    cases h2

/-- `C64_documented_partial` applies to it. -/
example : ∃ ds, Documented (checkPfx cfg) (commentPfx cfg) (lines text) ds ∧ (checkDirectives ds).length = 4 := by
  obtain ⟨ds, h1, h2, -⟩ := C64_documented_partial (readable (text := text) (by decide +kernel) (by decide)) (notIndented (by decide +kernel)) text_ok
  exact ⟨ds, h1, h2.length_eq⟩

/-- `C66_rejected_iff` and `C66_readable_iff` apply: a block that is not closed. -/
example : ∃ ds, Recognised (checkPfx cfg) (commentPfx cfg) true (lines "CHECK: a [[X\n".toList) ds ∧
    ∃ d ∈ checkDirectives ds, ∀ l, ¬ Reads (strictWs cfg) d l := by
  have hr : Readable cfg "CHECK: a [[X\n".toList := readable (by decide +kernel) (by decide)
  obtain ⟨ds, h1, -⟩ := parse_ok_iff hr true
  refine ⟨ds, h1, ?_⟩
  obtain h | ⟨h, -⟩ := (C66_rejected_iff hr unambiguous true h1).1 ⟨.unclosedSubstitution, rfl⟩
  · exact h
  · cases h

/-- `C65_split_unique`, `C65_split_concat`: a pattern with a set of characters in a block. -/
example : Split "a[[X:[^]]+]]b".toList [.text "a".toList, .block false "X:[^]]+".toList, .text "b".toList] none := by
  obtain ⟨segs, u, h1, h2⟩ := scan_line "a[[X:[^]]+]]b".toList
  have hp : parse cfg true "CHECK: a[[X:[^]]+]]b".toList = .ok [⟨.plain, false, .match_ [.literal "a".toList,
      .match_ (.substitution (.user "X".toList) (some "[^]]+".toList)), .literal "b".toList]⟩] := rfl
  refine .text (s := "a".toList) (rest := "[[X:[^]]+]]b".toList) (by simp) ?_ (.inr (opens_block (r := "X:[^]]+]]b".toList) (fun t h => absurd (List.cons.inj h).1 (by decide)))) ?_
  · intro a b he hb
    have : b = "a".toList := by
      cases a with
      | nil => exact he.symm
      | cons c a => simp at he; exact absurd he.2.2 hb
    subst this
    exact opens_not (by decide) (by decide)
  · refine .block (s := "X:[^]]+".toList) (rest := "b".toList) (by simp) (by simp) ⟨⟨⟨_, rfl⟩, ?_⟩, ?_⟩ ?_
    · rw [← falseEnd_iff]
      decide
    · intro a1 a2 he hne ⟨⟨r, hr⟩, hs⟩
      rw [← falseEnd_iff] at hs
      have hlen : a1.length < 7 := by
        have := congrArg List.length he
        simp at this
        have : a2.length ≠ 0 := by simpa using hne
        omega
      have h1 : a1 = "X:[^]]+".toList.take a1.length := by rw [he]; simp
      have h2 : a2 ++ "]]b".toList = "X:[^]]+]]b".toList.drop a1.length := by
        have : "X:[^]]+]]b".toList = a1 ++ (a2 ++ "]]b".toList) := by rw [← List.append_assoc, ← he]; rfl
        rw [this]
        simp
      rw [h1] at hs
      have h3 : a2 ++ ']' :: ']' :: "b".toList = ']' :: ']' :: r := hr
      have h4 : "X:[^]]+]]b".toList.drop a1.length = ']' :: ']' :: r := h2.symm.trans h3
      revert hs h4
      generalize a1.length = n at hlen
      intro hs h4
      have : n = 0 ∨ n = 1 ∨ n = 2 ∨ n = 3 ∨ n = 4 ∨ n = 5 ∨ n = 6 := by omega
      rcases this with rfl | rfl | rfl | rfl | rfl | rfl | rfl <;> first | (exact absurd (hs (by decide)) id) | (simp at h4)
    · have := Split.text (s := "b".toList) (rest := []) (segs := []) (u := none) (by simp) (by
        intro a b he hb
        have : b = "b".toList := by
          cases a with
          | nil => exact he.symm
          | cons c a => simp at he; exact absurd he.2.2 hb
        subst this
        exact opens_not (by decide) (by decide)) (.inl rfl) .nil
      exact this

end CheckFileEx

open CheckFileEx

/-- **C64 refuted** as documented: a directive that is the first thing on an indented line is passed over, at the beginning of the file and after a
line with a directive, without any error; it is read if a line without directive stands before it. -/
theorem C64_indented_refuted :
    parse cfg true "  CHECK: a\n".toList = .ok [] ∧
    parse cfg true "CHECK: a\n  CHECK: b\n".toList = .ok [⟨.plain, false, .literal "a".toList⟩] ∧
    parse cfg true "x\n  CHECK: a\n".toList = .ok [⟨.plain, false, .literal "a".toList⟩] ∧
    Documented ["CHECK".toList] ["COM".toList, "RUN".toList] (lines "  CHECK: a".toList) [⟨"CHECK".toList, .kind .plain, 0, " a".toList⟩] := by
  refine ⟨rfl, rfl, rfl, ?_⟩
  have hc : lines "  CHECK: a".toList = ["  ".toList ++ "CHECK: a".toList] := rfl
  rw [hc]
  refine .some (.inr ⟨⟨" ".toList, ' ', rfl, by decide⟩, by simp⟩) ?_ ?_ .nil
  · exact .kind (p := "CHECK".toList) (w := []) (m := []) (t := " a".toList) (by simp) rfl .none
  · intro a' b' he hlt _ d' hb'
    have hlt : a'.length < 2 := hlt
    have h1 : b' = "  CHECK: a".toList.drop a'.length := by
      have : "  CHECK: a".toList = a' ++ b' := he
      rw [this]; simp
    have hb : ∃ r, b' = ' ' :: r := by
      have : a'.length = 0 ∨ a'.length = 1 := by omega
      rcases this with h | h <;> rw [h] at h1 <;> exact ⟨_, h1⟩
    obtain ⟨r, rfl⟩ := hb
    exact absurd (begins_head (readable (text := []) (by decide) (by simp)).clean hb') (by decide)

/-- **C66 refuted** for misspelt directives: an unknown modifier and a missing count are not reported, the line is ignored; and a file that begins with the
character NUL is ignored altogether. -/
theorem C66_misspelt_refuted :
    parse cfg true "CHECK{FOO}: a\n".toList = .ok [] ∧ parse cfg true "CHECK-COUNT-: a\n".toList = .ok [] ∧
    parse cfg true "\x00\nCHECK: a\n".toList = .ok [] := ⟨rfl, rfl, rfl⟩

/-- Further facts of **C65** and **C66**: the carriage return of a line ending stays in the pattern; with strict white space two spaces are dropped at the
front, and all space before a block; an empty literal is accepted. -/
theorem C65_whitespace_facts :
    parse cfg true "CHECK: a\r\n".toList = .ok [⟨.plain, false, .literal "a\r".toList⟩] ∧
    parse ⟨[], [], true, false⟩ true "CHECK:   a\n".toList = .ok [⟨.plain, false, .literal " a".toList⟩] ∧
    parse ⟨[], [], true, false⟩ true "CHECK:   {{a}}\n".toList = .ok [⟨.plain, false, .regex "a".toList⟩] ∧
    parse cfg true "CHECK{LITERAL}:\n".toList = .ok [⟨.plain, true, .literal []⟩] ∧
    parse cfg true "CHECK:\n".toList = .error .emptyPattern := ⟨rfl, rfl, rfl, rfl, rfl⟩

end Litcheck
