import Verif.Model.Walk
import Verif.Props.Execute

/-!
# Property C84: files below an input
-/

namespace Litcheck.Registry

/-- What C84 asks for: after some depth of calls there is a result, the files below which are to be kept, each once. -/
def ListsFiles (keep : DPath → Bool) (at' : DPath) (n : FNode) : Prop :=
  ∃ depth l, filesOf keep depth at' n = some l ∧ l.Nodup ∧
    ∀ p, p ∈ l ↔ ∃ name, (p, FNode.file name) ∈ entriesOf (fun _ => true) at' n ∧ keep p = true

/-- **C84** (part): for an input which is a file. -/
theorem C84_file_partial (keep : DPath → Bool) (at' : DPath) (name : Str) : ListsFiles keep at' (.file name) := by
  refine ⟨1, if keep at' then [at'] else [], ?_, ?_, ?_⟩
  · unfold filesOf entriesOf
    split <;> rfl
  · split <;> simp
  · intro p
    unfold entriesOf
    cases hk : keep at' with
    | true =>
      simp only [if_true, List.mem_singleton, Prod.mk.injEq, FNode.file.injEq]
      constructor
      · rintro rfl; exact ⟨name, ⟨rfl, rfl⟩, hk⟩
      · rintro ⟨_, ⟨rfl, _⟩, _⟩; rfl
    | false =>
      simp only [Bool.false_eq_true, if_false, List.not_mem_nil, if_true, List.mem_singleton, Prod.mk.injEq, FNode.file.injEq, false_iff]
      rintro ⟨_, ⟨rfl, _⟩, h⟩
      rw [hk] at h; cases h

/-- However deep the calls are, there is no result for a directory, whatever is in it: the directory is the first of its own
entries. -/
theorem C84_directory_refuted (keep : DPath → Bool) (depth : Nat) (at' : DPath) (name : Str) (ch : List FNode) :
    filesOf keep depth at' (.dir name ch) = none := by
  induction depth with
  | zero => rfl
  | succ d ih =>
    unfold filesOf entriesOf
    rw [List.foldl_cons]
    simp only [ih, Option.map_none]
    generalize entriesBelow keep at' ch = l
    induction l with
    | nil => rfl
    | cons x l ih' => rw [List.foldl_cons]; exact ih'

/-- So the property fails for every directory. -/
theorem C84_refuted (keep : DPath → Bool) (at' : DPath) (name : Str) (ch : List FNode) : ¬ ListsFiles keep at' (.dir name ch) := by
  rintro ⟨depth, l, h, _⟩
  rw [C84_directory_refuted] at h
  cases h

/-- Searching for a glob pattern never gives a result. -/
theorem C84_glob_refuted (matches_ : DPath → Bool) (depth : Nat) (at' : DPath) (n : FNode) (l : List DPath) :
    globFiles matches_ depth at' n ≠ .ok (some l) := by
  cases n with
  | file => simp [globFiles]
  | dir name ch =>
    unfold globFiles
    dsimp only
    rw [C84_directory_refuted]
    simp

/-- **C84** (part): which files are of one of the types: those whose name is something, a dot, and a type in which there is no dot. -/
theorem C84_types_partial (types : List Str) (p : DPath) : hasType types p = true ↔
    ∃ dir stem ext, p = dir ++ [stem ++ ['.'] ++ ext] ∧ stem ≠ [] ∧ '.' ∉ ext ∧ stem ++ ['.'] ++ ext ≠ "..".toList ∧ ext ∈ types := by
  unfold hasType
  cases hl : p.getLast? with
  | none =>
    rw [List.getLast?_eq_none_iff] at hl
    subst hl
    simp
  | some name =>
    obtain ⟨dir, rfl⟩ := List.getLast?_eq_some_iff.1 hl
    dsimp only
    constructor
    · intro h
      cases he : stemExt name with
      | mk stem e =>
        rw [he] at h
        cases e with
        | none => cases h
        | some ext =>
          obtain ⟨h1, h2, h3, h4⟩ := (stemExt_iff _ _ _).1 he
          subst h1
          exact ⟨dir, stem, ext, rfl, h3, h2, h4, by simpa using h⟩
    · rintro ⟨dir', stem, ext, h1, h2, h3, h4, h5⟩
      obtain ⟨_, h1⟩ := List.append_inj' h1 rfl
      injection h1 with h1
      rw [(stemExt_iff name stem ext).2 ⟨h1, h3, h2, h1 ▸ h4⟩]
      simpa using h5

/-- A file of a type which is asked for. -/
example : filesOf (hasType ["txt".toList]) 1 ["a.txt".toList] (.file "a.txt".toList) = some [["a.txt".toList]] := by decide +kernel

/-- The type is that of the file, not of the directory it is in. -/
example : hasType ["txt".toList] ["a.txt".toList, "b.c".toList] = false ∧ hasType ["c".toList] ["a.txt".toList, "b.c".toList] = true := by decide +kernel

/-- A file of another type. -/
example : filesOf (hasType ["txt".toList]) 1 ["a.c".toList] (.file "a.c".toList) = some [] := by decide +kernel

/-- The entries of a directory are what C84 speaks about. -/
example : (entriesOf (fun _ => true) ["d".toList] (.dir "d".toList [.file "a.txt".toList, .dir "e".toList [.file "b.txt".toList]])).map (·.1) =
    [["d".toList], ["d".toList, "a.txt".toList], ["d".toList, "e".toList], ["d".toList, "e".toList, "b.txt".toList]] := by decide +kernel

end Litcheck.Registry
