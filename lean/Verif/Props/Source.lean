import Verif.Proofs.Source
import Verif.Model.Base

/-!
# Source files: C26, C27, C28 and what diagnostics show (C56)
-/

namespace Litcheck

open Spec

/-! ## C26 -/

theorem noCont_text {a b : Buf} (ha : TextOk a) (hb : TextOk b) : TextOk (a ++ b) := by
  constructor
  · intro x hx
    cases a with
    | nil => exact hb.first x hx
    | cons y ys => exact ha.first x hx
  · intro i x y hx hlt hy
    by_cases h1 : i + 1 < a.length
    · rw [List.getElem?_append_left (by omega)] at hx
      rw [List.getElem?_append_left h1] at hy
      exact ha.ascii i x y hx hlt hy
    · by_cases h2 : i + 1 = a.length
      · rw [List.getElem?_append_right (by omega), show i + 1 - a.length = 0 by omega] at hy
        exact hb.first y hy
      · rw [List.getElem?_append_right (by omega)] at hx hy
        rw [show i + 1 - a.length = i - a.length + 1 by omega] at hy
        exact hb.ascii _ x y hx hlt hy

theorem textOk_take {b : Buf} (h : TextOk b) (n : Nat) : TextOk (b.take n) := by
  constructor
  · intro x hx
    rw [List.getElem?_take] at hx
    split at hx
    · exact h.first x hx
    · exact absurd hx (by simp)
  · intro i x y hx hlt hy
    rw [List.getElem?_take] at hx hy
    split at hy
    · rw [if_pos (by omega)] at hx
      exact h.ascii i x y hx hlt hy
    · exact absurd hy (by simp)

theorem textOk_drop {b : Buf} {n : Nat} (h : TextOk b) (hn : AtChar b n) : TextOk (b.drop n) := by
  constructor
  · intro x hx
    rw [List.getElem?_drop, Nat.add_zero] at hx
    exact hn.2 x hx
  · intro i x y hx hlt hy
    rw [List.getElem?_drop] at hx hy
    exact h.ascii (n + i) x y hx hlt hy

theorem asI32_small {n : Nat} (h : n < 2 ^ 31) : asI32 n = n := by
  unfold asI32
  rw [Int.bmod_def]
  split <;> omega

theorem drop_length {α} (a b : List α) (n : Nat) (h : n = a.length) : (a ++ b).drop n = b := by
  subst h; exact List.drop_left

theorem take_length_eq {α} (a b : List α) (n : Nat) (h : n = a.length) : (a ++ b).take n = a := by
  subst h; exact List.take_left

/-- **C26**, one edit: replacing the text between two positions (given by line and column, not inside a character)
yields the text with these bytes replaced, and the line table of that text. Files are below 4 GiB, and less than 2 GiB are inserted and at most 2 GiB deleted at a time. -/
theorem C26_edit {s : Source} {lo hi l₁ c₁ l₂ c₂ : Nat} {text : Buf} {v : Int} (ht : TextOk s.content)
    (hL : LineTable s.content s.lineStarts) (hlo : AtChar s.content lo) (hhi : AtChar s.content hi) (hle : lo ≤ hi)
    (h₁ : IsPos s.content lo l₁ c₁) (h₂ : IsPos s.content hi l₂ c₂) (hs0 : text.length < 2 ^ 31) (hs1 : hi - lo ≤ 2 ^ 31)
    (hs2 : (replaced s.content lo hi text).length < 2 ^ 32) :
    ∃ t, s.update text (some ⟨⟨l₁, c₁⟩, ⟨l₂, c₂⟩⟩) v = .ok (.ok ⟨replaced s.content lo hi text, t, v⟩) ∧
      LineTable (replaced s.content lo hi text) t := by
  have hp1 := lineColumnToOffset_pos ht hL hlo h₁
  have hp2 := lineColumnToOffset_pos ht hL hhi h₂
  have hhl := hhi.1
  -- the three parts of the text
  have hT : s.lineStarts = computeLineStarts (s.content.take lo) none ++
      (computeLineStarts ((s.content.take hi).drop lo) (some lo) ++ computeLineStarts (s.content.drop hi) (some hi)) := by
    rw [lineTable_iff.1 hL]
    conv_lhs => rw [← List.take_append_drop hi s.content]
    rw [starts_append, List.length_take_of_le hhl]
    conv_lhs => rw [← List.take_append_drop lo (s.content.take hi)]
    rw [starts_append, List.take_take, Nat.min_eq_left hle, List.length_take_of_le (by omega), List.append_assoc]
  have hlen1 : (computeLineStarts (s.content.take lo) none).length = l₁ + 1 := by
    rw [starts_length, lfCount_take, h₁.1]
  have hlen2 : (computeLineStarts ((s.content.take hi).drop lo) (some lo)).length + l₁ = l₂ := by
    rw [starts_some_length]
    have h2 := h₂.1
    have h1 := h₁.1
    rw [← lfCount_take] at h1 h2
    have : (s.content.take hi) = s.content.take lo ++ (s.content.take hi).drop lo := by
      conv_lhs => rw [← List.take_append_drop lo (s.content.take hi)]
      rw [List.take_take, Nat.min_eq_left hle]
    rw [this, List.count_append] at h2
    omega
  have hdel : Source.deletion s.lineStarts ⟨⟨l₁, c₁⟩, ⟨l₂, c₂⟩⟩ = l₂ - l₁ := by
    have htl : s.lineStarts.length > l₂ := by
      rw [hT]; simp only [List.length_append]; omega
    unfold Source.deletion
    dsimp only
    by_cases he : l₁ = l₂
    · subst he
      simp
    · rw [if_neg (by simpa using he)]
      have hne : s.lineStarts.isEmpty = false := by
        cases hh : s.lineStarts with
        | nil => rw [hh] at htl; simp at htl
        | cons _ _ => rfl
      rw [hne]
      simp only [Bool.false_eq_true, if_false]
      rw [Nat.min_eq_left (by omega), if_pos (by omega)]
      omega
  have hres : replaced s.content lo hi text = s.content.take lo ++ text ++ s.content.drop hi := rfl
  have hsz : text.length ≤ (replaced s.content lo hi text).length := by
    rw [hres]; simp only [List.length_append]; omega
  have hfinal : computeLineStarts (replaced s.content lo hi text) none =
      computeLineStarts (s.content.take lo) none ++ (computeLineStarts text (some lo) ++
        computeLineStarts (s.content.drop hi) (some (lo + text.length))) := by
    rw [hres, starts_append, starts_append, List.length_append, List.length_take_of_le (by omega), List.append_assoc]
  refine ⟨computeLineStarts (replaced s.content lo hi text) none, ?_, lineTable_iff.2 rfl⟩
  unfold Source.update Source.updateRange
  simp only [hp1, hp2, bind, Except.bind]
  rw [if_neg (by omega), if_neg (by rw [hT]; simp only [List.length_append]; omega), hdel]
  have htake : s.lineStarts.take (l₁ + 1) = computeLineStarts (s.content.take lo) none := by
    rw [hT, take_length_eq _ _ _ hlen1.symm]
  have hdrop : s.lineStarts.drop (l₁ + 1 + (l₂ - l₁)) = computeLineStarts (s.content.drop hi) (some hi) := by
    rw [hT, ← List.append_assoc, drop_length]
    rw [List.length_append]; omega
  rw [htake, hdrop, asI32_small (by omega)]
  have hk : l₁ + 1 + (computeLineStarts text (some lo)).length =
      (computeLineStarts (s.content.take lo) none ++ computeLineStarts text (some lo)).length := by
    rw [List.length_append, hlen1]
  rw [take_length_eq _ _ _ hk, drop_length _ _ _ hk, hfinal]
  congr 3
  have hmem : ∀ i, i ∈ memchrIter LF (s.content.drop hi) → hi + i < s.content.length ∧
      i + (lo + text.length) + 1 < 2 ^ 32 := by
    intro i hi'
    rw [mem_memchrIter] at hi'
    have := isLF_lt (b := s.content.drop hi) (i := i) hi'
    rw [List.length_drop] at this
    rw [hres] at hs2
    simp only [List.length_append, List.length_take, List.length_drop] at hs2
    omega
  have hd : satSubUnsigned (text.length : Int) (hi - lo) = (text.length : Int) - ((hi - lo : Nat) : Int) := by
    unfold satSubUnsigned
    omega
  rw [hd]
  by_cases hz : (text.length : Int) - ((hi - lo : Nat) : Int) = 0
  · rw [if_neg (by simpa using hz), List.append_assoc, show lo + text.length = hi by omega]
  · rw [if_pos hz, List.append_assoc]
    congr 2
    unfold computeLineStarts
    simp only [Option.getD_some, List.nil_append, List.map_map]
    apply List.map_congr_left
    intro i hi'
    obtain ⟨hm1, hm2⟩ := hmem i hi'
    simp only [Function.comp]
    unfold satAddSigned
    omega

/-- An edit as the user gives it: the new text, the selection it replaces (the whole text if absent) and a version. -/
abbrev EditCmd := Buf × Option Selection × Int

/-- `b'` is the text after the edits, each of which selects by positions of the text it is applied to. -/
inductive History : Buf → List EditCmd → Buf → Prop where
  | nil (b : Buf) : History b [] b
  | whole {b b' text : Buf} {v : Int} {es : List EditCmd} : TextOk text → text.length < 2 ^ 32 →
      History text es b' → History b ((text, none, v) :: es) b'
  | replace {b b' text : Buf} {v : Int} {es : List EditCmd} {lo hi l₁ c₁ l₂ c₂ : Nat} : TextOk text → lo ≤ hi →
      AtChar b lo → AtChar b hi → IsPos b lo l₁ c₁ → IsPos b hi l₂ c₂ → text.length < 2 ^ 31 → hi - lo ≤ 2 ^ 31 →
      (replaced b lo hi text).length < 2 ^ 32 →
      History (replaced b lo hi text) es b' → History b ((text, some ⟨⟨l₁, c₁⟩, ⟨l₂, c₂⟩⟩, v) :: es) b'

/-- Apply edits one after the other. -/
def applyEdits (s : Source) : List EditCmd → P (Except UpdateError Source)
  | [] => .ok (.ok s)
  | (text, sel, v) :: es => do
    match ← s.update text sel v with
    | .ok s' => applyEdits s' es
    | .error e => .ok (.error e)

theorem textOk_replaced {b text : Buf} {lo hi : Nat} (hb : TextOk b) (ht : TextOk text) (hh : AtChar b hi) :
    TextOk (replaced b lo hi text) :=
  noCont_text (noCont_text (textOk_take hb lo) ht) (textOk_drop hb hh)

theorem history_ok {b b' : Buf} {es : List EditCmd} (h : History b es b') : ∀ s : Source, s.content = b → TextOk b →
    LineTable b s.lineStarts →
    ∃ s' : Source, applyEdits s es = .ok (.ok s') ∧ s'.content = b' ∧ LineTable b' s'.lineStarts := by
  induction h with
  | nil b =>
    intro s hs _ hL
    exact ⟨s, rfl, hs, hL⟩
  | @whole b b' text v es ht hlen hh ih =>
    intro s _ _ _
    obtain ⟨s', h1, h2, h3⟩ := ih ⟨text, computeLineStarts text none, v⟩ rfl ht (lineTable_iff.2 rfl)
    exact ⟨s', by rw [← h1]; rfl, h2, h3⟩
  | @replace b b' text v es lo hi l₁ c₁ l₂ c₂ ht hle hlo hhi hp1 hp2 hl0 hl1 hlen hh ih =>
    intro s hs hb hL
    subst hs
    obtain ⟨t, hu, htab⟩ := C26_edit (v := v) hb hL hlo hhi hle hp1 hp2 hl0 hl1 hlen
    obtain ⟨s', h1, h2, h3⟩ := ih ⟨_, t, v⟩ rfl (textOk_replaced hb ht hhi) htab
    refine ⟨s', ?_, h2, h3⟩
    rw [← h1]
    show (s.update text _ v >>= _) = _
    rw [hu]
    rfl

/-- **C26**: after loading a text and any sequence of edits, the content is the edited text and the line table is the
line table of it. -/
theorem C26_history_partial {b b' : Buf} {es : List EditCmd} (hb : TextOk b) (hlen : b.length < 2 ^ 32 - 1) (h : History b es b') :
    ∃ s s' : Source, Source.new b = .ok s ∧ applyEdits s es = .ok (.ok s') ∧ s'.content = b' ∧
      LineTable b' s'.lineStarts := by
  have hnew : Source.new b = .ok ⟨b, computeLineStarts b none, 0⟩ := by
    unfold Source.new
    rw [if_pos (by omega)]
  obtain ⟨s', h1, h2, h3⟩ := history_ok h ⟨b, computeLineStarts b none, 0⟩ rfl hb (lineTable_iff.2 rfl)
  exact ⟨_, s', hnew, h1, h2, h3⟩

/-- **C26**, loading: a text is loaded exactly if its length is below 2³² - 1; then the content is the text, and the line table that of the text. -/
theorem C26_new (b : Buf) : (∃ s, Source.new b = .ok s) ↔ b.length < 2 ^ 32 - 1 := by
  unfold Source.new
  split <;> simp_all

theorem C26_new_ok {b : Buf} {s : Source} (h : Source.new b = .ok s) : s.content = b ∧ LineTable b s.lineStarts ∧ s.version = 0 := by
  unfold Source.new at h
  split at h
  · simp only [Except.ok.injEq] at h
    subst h
    exact ⟨rfl, lineTable_iff.2 rfl, rfl⟩
  · cases h

/-- `n` letters. -/
def letters (n : Nat) : Buf := List.replicate n 97

theorem letters_lines (n : Nat) : memchrIter LF (letters n) = [] := by
  rw [List.eq_nil_iff_forall_not_mem]
  intro i hi
  rw [mem_memchrIter] at hi
  have := List.mem_of_getElem? hi
  unfold letters at this
  rw [List.mem_replicate] at this
  exact absurd this.2 (by decide)

/-- Inserting 2 GiB at once at the beginning of a file with two lines: the second line seems to begin where the first one does. (The length of the
new text is converted to a signed 32-bit number.) -/
theorem C26_huge_refuted : ∃ s s' : Source, Source.new [97, 10, 98] = .ok s ∧
    s.update (letters (2 ^ 31)) (some ⟨⟨0, 0⟩, ⟨0, 0⟩⟩) 1 = .ok (.ok s') ∧ s'.content = letters (2 ^ 31) ++ [97, 10, 98] ∧
    s'.lineStarts = [0, 0] ∧ ¬ LineTable s'.content s'.lineStarts := by
  have hl : computeLineStarts (letters (2 ^ 31)) (some 0) = [] := by
    unfold computeLineStarts
    rw [letters_lines]
    rfl
  have hn : (letters (2 ^ 31)).length = 2 ^ 31 := List.length_replicate
  refine ⟨⟨[97, 10, 98], [0, 2], 0⟩, ⟨letters (2 ^ 31) ++ [97, 10, 98], [0, 0], 1⟩, rfl, ?_, rfl, rfl, ?_⟩
  · have h1 : (⟨[97, 10, 98], [0, 2], 0⟩ : Source).lineColumnToOffset 0 0 = .ok (some 0) := by rfl
    unfold Source.update Source.updateRange
    dsimp only
    simp only [h1, bind, Except.bind]
    rw [if_neg (by omega), if_neg (by decide), hl, hn]
    rfl
  · intro h
    have h2 := lineTable_iff.1 h
    dsimp only at h2
    rw [starts_append, hn] at h2
    have h3 := congrArg (fun l => l.getLast?) h2
    simp only [show computeLineStarts [97, 10, 98] (some (2 ^ 31)) = [2 ^ 31 + 2] from rfl, List.getLast?_append] at h3
    simp at h3

/-- The full statement also covers positions given by the column just after the line feed of a line (an offset the
program accepts, and which is the beginning of the next line). There the line table is wrong: inserting `x` there. -/
theorem C26_after_newline_refuted : ∃ s s' : Source, Source.new (bytes "a\nb") = .ok s ∧
    s.update (bytes "x") (some ⟨⟨0, 2⟩, ⟨0, 2⟩⟩) 1 = .ok (.ok s') ∧ s'.content = bytes "a\nxb" ∧
    s'.lineStarts = [0, 3] ∧ ¬ LineTable s'.content s'.lineStarts := by
  refine ⟨_, ⟨bytes "a\nxb", [0, 3], 1⟩, rfl, by decide +kernel, rfl, rfl, ?_⟩
  intro h
  have := lineTable_iff.1 h
  exact absurd this (by decide)

/-- Deleting a whole line, its line feed included, by columns of that line leaves a line start too many. -/
theorem C26_delete_line_refuted : ∃ s s' : Source, Source.new (bytes "a\nb") = .ok s ∧
    s.update [] (some ⟨⟨0, 0⟩, ⟨0, 2⟩⟩) 1 = .ok (.ok s') ∧ s'.content = bytes "b" ∧
    s'.lineStarts = [0, 0] ∧ ¬ LineTable s'.content s'.lineStarts := by
  refine ⟨_, ⟨bytes "b", [0, 0], 1⟩, rfl, rfl, rfl, rfl, ?_⟩
  intro h
  have := lineTable_iff.1 h
  exact absurd this (by decide)

theorem textOk_ascii {b : Buf} (h : ∀ x ∈ b, x < 128) : TextOk b := by
  constructor
  · intro x hx hc
    have := h x (List.mem_of_getElem? hx)
    exact absurd hc.1 (by simpa using this)
  · intro i x y hx hlt hy hc
    have := h y (List.mem_of_getElem? hy)
    exact absurd hc.1 (by simpa using this)

theorem atChar_ascii {b : Buf} (h : ∀ x ∈ b, x < 128) {o : Nat} (ho : o ≤ b.length) : AtChar b o := by
  refine ⟨ho, ?_⟩
  intro x hx hc
  have := h x (List.mem_of_getElem? hx)
  exact absurd hc.1 (by simpa using this)

/-- A history with a multi-line replacement meets the hypotheses. -/
example : History (bytes "a\nb\nc") [(bytes "x\ny", some ⟨⟨0, 1⟩, ⟨2, 0⟩⟩, 1)] (bytes "ax\nyc") := by
  have h : ∀ x ∈ bytes "a\nb\nc", x < 128 := by decide
  refine .replace (lo := 1) (hi := 4) (textOk_ascii (by decide)) (by omega) (atChar_ascii h (by decide))
    (atChar_ascii h (by decide)) ⟨by decide, by omega, .inl rfl, ?_⟩ ⟨by decide, by omega, .inr rfl, ?_⟩ (by decide) (by decide)
    (by decide) (.nil _)
  · intro i h1 h2
    have : i = 0 := by omega
    subst this
    exact (by decide : ¬ (bytes "a\nb\nc")[0]? = some 10)
  · intro i h1 h2
    omega

/-! ## C27 -/

theorem findIdx?_split {A B : List Nat} {a o : Nat} (hs : (A ++ [a] ++ B).Pairwise (· < ·)) (ha : a ≤ o)
    (hB : ∀ x ∈ B, o < x) :
    (match binarySearch (A ++ [a] ++ B) o with
      | .ok line => .ok line
      | .error next => if next = 0 then .error Panic.assertFailed else .ok (next - 1)) = (.ok A.length : P Nat) := by
  have hA : ∀ x ∈ A, x < a := by
    intro x hx
    rw [List.append_assoc, List.pairwise_append] at hs
    exact hs.2.2 x hx a (by simp)
  have hAn : A.findIdx? (· == o) = none := by
    rw [List.findIdx?_eq_none_iff]
    intro x hx
    have := hA x hx
    simp; omega
  have hBn : B.findIdx? (· == o) = none := by
    rw [List.findIdx?_eq_none_iff]
    intro x hx
    have := hB x hx
    simp; omega
  unfold binarySearch
  rw [List.append_assoc, List.findIdx?_append, hAn, List.findIdx?_append, hBn]
  by_cases he : a = o
  · subst he
    simp [List.findIdx?_cons]
  · have h1 : A.countP (· < o) = A.length := by
      rw [List.countP_eq_length]
      intro x hx
      have := hA x hx
      simp; omega
    have h2 : B.countP (· < o) = 0 := by
      rw [List.countP_eq_zero]
      intro x hx
      have := hB x hx
      simp; omega
    have h3 : a < o := by omega
    simp [List.findIdx?_cons, he, List.countP_append, h1, h2, List.countP_cons, h3]

/-- **C27**: the line (from 0) of any offset is the number of line feeds before it. -/
theorem C27_line {s : Source} (hL : LineTable s.content s.lineStarts) (o : Nat) :
    s.lineIndex o = .ok (lfCount s.content 0 o) := by
  have hsort := hL.1
  have hT := lineTable_iff.1 hL
  unfold Source.lineIndex
  rw [hT] at hsort ⊢
  have hsplit : computeLineStarts s.content none =
      computeLineStarts (s.content.take o) none ++ computeLineStarts (s.content.drop o) (some o) := by
    by_cases h : o ≤ s.content.length
    · exact starts_split h
    · rw [List.take_of_length_le (by omega), List.drop_of_length_le (by omega)]
      simp [computeLineStarts, memchrIter]
  rw [hsplit] at hsort ⊢
  have hne : computeLineStarts (s.content.take o) none ≠ [] := by
    intro h
    have := congrArg List.length h
    rw [starts_length] at this
    simp at this
  obtain ⟨A, a, hA⟩ : ∃ A a, computeLineStarts (s.content.take o) none = A ++ [a] :=
    ⟨_, _, (List.dropLast_append_getLast hne).symm⟩
  have hlen : A.length = lfCount s.content 0 o := by
    have := congrArg List.length hA
    rw [starts_length, lfCount_take, List.length_append, List.length_singleton] at this
    omega
  have ha : a ≤ o := by
    have : a ∈ computeLineStarts (s.content.take o) none := by rw [hA]; simp
    rcases mem_starts.1 this with h | ⟨i, hi, h⟩
    · omega
    · have := isLF_lt hi
      rw [List.length_take] at this
      omega
  rw [hA] at hsort ⊢
  rw [← hlen]
  refine findIdx?_split hsort ha ?_
  intro x hx
  unfold computeLineStarts at hx
  simp only [Option.getD_some, List.nil_append, List.mem_map] at hx
  obtain ⟨i, _, rfl⟩ := hx
  omega

/-- Every offset has a line and a column. -/
theorem exists_pos {b : Buf} : ∀ {o : Nat}, o ≤ b.length → ∃ c, IsPos b o (lfCount b 0 o) c := by
  intro o
  induction o with
  | zero => exact fun _ => ⟨0, rfl, by omega, .inl rfl, fun i h1 h2 => by omega⟩
  | succ o ih =>
    intro h
    obtain ⟨c, -, h2, h3, h4⟩ := ih (by omega)
    by_cases hlf : IsLF b o
    · exact ⟨0, rfl, by omega, .inr hlf, fun i h1 h2 => by omega⟩
    · refine ⟨c + 1, rfl, by omega, ?_, ?_⟩
      · rwa [show o + 1 - (c + 1) = o - c by omega]
      · intro i h5 h6
        by_cases hi : i = o
        · subst hi
          exact hlf
        · exact h4 i (by omega) (by omega)

/-- A position has one line and one column. -/
theorem pos_unique {b : Buf} {o l c l' c' : Nat} (h : IsPos b o l c) (h' : IsPos b o l' c') : l = l' ∧ c = c' := by
  obtain ⟨h1, h2, h3, h4⟩ := h
  obtain ⟨k1, k2, k3, k4⟩ := h'
  refine ⟨by omega, ?_⟩
  by_contra hne
  rcases Nat.lt_or_ge c c' with hlt | hge
  · rcases h3 with h3 | h3
    · omega
    · exact k4 (o - c - 1) (by omega) (by omega) h3
  · rcases k3 with k3 | k3
    · omega
    · exact h4 (o - c' - 1) (by omega) (by omega) k3

/-- **C27**: line and byte column of an offset lead back to the offset. -/
theorem C27_round_trip {s : Source} (ht : TextOk s.content) (hL : LineTable s.content s.lineStarts) {o : Nat}
    (ho : AtChar s.content o) : ∃ line column, IsPos s.content o line column ∧ s.lineIndex o = .ok line ∧
      s.lineColumnToOffset line column = .ok (some o) := by
  obtain ⟨c, hc⟩ := exists_pos ho.1
  exact ⟨_, c, hc, C27_line hL o, lineColumnToOffset_pos ht hL ho hc⟩

/-- **C27**: the reported location: one more than the line feeds before, and one more than the characters since the
beginning of the line. -/
theorem C27_location {s : Source} (ht : TextOk s.content) (hL : LineTable s.content s.lineStarts) {o line column : Nat}
    (ho : AtChar s.content o) (h : IsPos s.content o line column) :
    ∃ chars, s.location o = .ok (some (line + 1, chars + 1)) ∧
      chars = ((between s.content (o - column) o).filter fun x => ¬ (128 ≤ x ∧ x < 192)).length := by
  obtain ⟨e, hr, -, ha, -, -⟩ := lineRange_pos ht hL ho.1 h
  have hst : s.lineStart line = some (o - column) := by
    unfold Source.lineStart
    rw [lineTable_iff.1 hL]
    exact lineStart_pos ho.1 h
  unfold Source.location
  rw [C27_line hL o, h.1]
  simp only [bind, Except.bind, hst]
  rw [strGet_atChar ha ho (by omega)]
  refine ⟨_, rfl, ?_⟩
  unfold charCount
  rw [List.countP_eq_length_filter]
  show _ = (List.filter _ (between s.content (o - column) o)).length
  congr 1
  apply List.filter_congr
  intro x _
  unfold isCont
  by_cases h1 : (128 : UInt8) ≤ x <;> by_cases h2 : x < 192 <;> simp [h1, h2] <;> simpa using h2

/-- Line and column lead to no other offset: an accepted line and column name an offset `column` bytes after the
beginning of that line, with no line feed before its last byte. -/
theorem C27_back {s : Source} (ht : TextOk s.content) (hL : LineTable s.content s.lineStarts) {a line column o : Nat}
    (ha : a ≤ s.content.length) (h : IsPos s.content a line 0) (hok : s.lineColumnToOffset line column = .ok (some o)) :
    o = a + column ∧ o ≤ s.content.length ∧ NoLF s.content a (o - 1) := by
  obtain ⟨e, hr, hae, hca, hce, he⟩ := lineRange_pos ht hL ha h
  have hcl := hce.1
  rw [Nat.sub_zero] at hr hca
  unfold Source.lineColumnToOffset at hok
  rw [hr] at hok
  simp only [strGet_atChar hca hce hae] at hok
  have hlen : (sliceOf s.content a e).length = e - a := by
    unfold sliceOf
    rw [List.length_drop, List.length_take]
    omega
  split at hok
  · exact absurd hok (by simp)
  · rename_i hcol
    split at hok
    · have := Option.some.inj (Except.ok.inj hok)
      rw [List.length_take, hlen, Nat.min_eq_left (by omega)] at this
      refine ⟨this.symm, by omega, ?_⟩
      intro i h1 h2 h3
      rcases he with ⟨_, _, hn⟩ | ⟨_, _, _, hn⟩
      · exact hn i h1 (by omega) h3
      · exact hn i h1 (by omega) h3
    · exact absurd hok (by simp)

/-- The bytes of `é x`. -/
abbrev eAcute : Buf := [0xC3, 0xA9, 0x20, 0x78]

/-- A location counts characters while a position is looked up by bytes (`file_line_col_to_span` of `file_line_col`):
the location of the blank after `é` does not lead back to it, the lookup panics. -/
theorem C27_characters_refuted : ∃ s : Source, Source.new eAcute = .ok s ∧ s.location 2 = .ok (some (1, 2)) ∧
    s.lineColumnToOffset 0 1 = .error .indexOutOfBounds ∧ s.location 3 = .ok (some (1, 3)) ∧
    s.lineColumnToOffset 0 2 = .ok (some 2) :=
  ⟨_, rfl, rfl, rfl, rfl, rfl⟩

example : TextOk eAcute := by
  constructor
  · intro x hx
    simp only [eAcute, List.getElem?_cons_zero, Option.some.injEq] at hx
    subst hx
    exact fun h => absurd h.2 (by decide)
  · intro i x y hx hlt hy
    match i with
    | 0 => simp [eAcute] at hx; subst hx; exact absurd hlt (by decide)
    | 1 => simp [eAcute] at hx; subst hx; exact absurd hlt (by decide)
    | 2 => simp [eAcute] at hy; subst hy; exact fun h => absurd h.1 (by decide)
    | i + 3 => simp [eAcute] at hy

/-! ## C28 -/

/-- **C28**: there are as many lines as line feeds and one more; the first line begins at 0; a line which is not the
last one ends just after its only line feed, where the next line begins; the last line ends with the text and contains
no line feed. -/
theorem C28_partition {s : Source} (ht : TextOk s.content) (hL : LineTable s.content s.lineStarts) :
    s.lineStarts.length = lfCount s.content 0 s.content.length + 1 ∧
    (∀ i, s.lineStarts.length ≤ i → s.lineRange i = none) ∧
    (∃ e, s.lineRange 0 = some (0, e)) ∧
    (∀ i, i + 1 < s.lineStarts.length → ∃ a e e', s.lineRange i = some (a, e) ∧ a < e ∧ IsLF s.content (e - 1) ∧
      NoLF s.content a (e - 1) ∧ s.lineRange (i + 1) = some (e, e')) ∧
    (∀ i, i + 1 = s.lineStarts.length → ∃ a, s.lineRange i = some (a, s.content.length) ∧
      a ≤ s.content.length ∧ NoLF s.content a s.content.length) := by
  have hT := lineTable_iff.1 hL
  have hlen : s.lineStarts.length = lfCount s.content 0 s.content.length + 1 := by
    rw [hT, starts_length, ← lfCount_take, List.take_length]
  have key : ∀ i, i < s.lineStarts.length → ∃ a, a ≤ s.content.length ∧ s.lineStart i = some a ∧ IsPos s.content a i 0 := by
    intro i hi
    obtain ⟨a, ha⟩ : ∃ a, s.lineStarts[i]? = some a := ⟨_, List.getElem?_eq_getElem hi⟩
    have hm : a ∈ computeLineStarts s.content none := by rw [← hT]; exact List.mem_of_getElem? ha
    have hle : a ≤ s.content.length := by
      rcases mem_starts.1 hm with h | ⟨j, hj, h⟩
      · omega
      · have := isLF_lt hj
        omega
    have hp : IsPos s.content a (lfCount s.content 0 a) 0 := by
      refine ⟨rfl, by omega, ?_, fun j h1 h2 => by omega⟩
      rcases mem_starts.1 hm with h | ⟨j, hj, h⟩
      · exact .inl (by omega)
      · refine .inr ?_
        rw [h, Nat.sub_zero, Nat.add_sub_cancel]
        exact hj
    have h2 := lineStart_pos hle hp
    rw [← hT, Nat.sub_zero] at h2
    have hli : lfCount s.content 0 a < s.lineStarts.length := by
      by_contra hn
      rw [List.getElem?_eq_none (by omega)] at h2
      exact absurd h2 (by simp)
    have hnd : s.lineStarts.Nodup := hL.1.imp (fun h => Nat.ne_of_lt h)
    have : i = lfCount s.content 0 a := by
      rw [List.getElem?_eq_getElem hi] at ha
      rw [List.getElem?_eq_getElem hli] at h2
      exact (hnd.getElem_inj_iff).1 ((Option.some.inj ha).trans (Option.some.inj h2).symm)
    exact ⟨a, hle, ha, by rw [← this] at hp; exact hp⟩
  refine ⟨hlen, ?_, ?_, ?_, ?_⟩
  · intro i hi
    unfold Source.lineRange Source.lineStart
    rw [List.getElem?_eq_none hi]
  · obtain ⟨a, ha, h0, hp⟩ := key 0 (by omega)
    obtain ⟨e, he, -⟩ := lineRange_pos ht hL ha hp
    have : a = 0 := by
      unfold Source.lineStart at h0
      rw [hT] at h0
      exact (Option.some.inj h0).symm
    subst this
    exact ⟨e, he⟩
  · intro i hi
    obtain ⟨a, ha, h0, hp⟩ := key i (by omega)
    obtain ⟨e, he, -, -, -, hc⟩ := lineRange_pos ht hL ha hp
    obtain ⟨a', ha', h0', hp'⟩ := key (i + 1) hi
    obtain ⟨e', he', -⟩ := lineRange_pos ht hL ha' hp'
    rcases hc with ⟨-, hn, -⟩ | ⟨h1, hn, h2, h3⟩
    · rw [hn] at h0'
      exact absurd h0' (by simp)
    · rw [hn] at h0'
      have := Option.some.inj h0'
      subst this
      exact ⟨a, e, e', he, h1, h2, h3, he'⟩
  · intro i hi
    obtain ⟨a, ha, h0, hp⟩ := key i (by omega)
    obtain ⟨e, he, -, -, -, hc⟩ := lineRange_pos ht hL ha hp
    rcases hc with ⟨h1, -, h2⟩ | ⟨-, hn, -, -⟩
    · subst h1
      exact ⟨a, he, ha, h2⟩
    · unfold Source.lineStart at hn
      rw [List.getElem?_eq_none (by omega)] at hn
      exact absurd hn (by simp)

/-- A text with three lines, the last one empty. -/
example : ∃ s : Source, Source.new (bytes "a\nbc\n") = .ok s ∧ s.lineRange 0 = some (0, 2) ∧
    s.lineRange 1 = some (2, 5) ∧ s.lineRange 2 = some (5, 5) ∧ s.lineRange 3 = none ∧ TextOk s.content ∧
    LineTable s.content s.lineStarts :=
  ⟨_, rfl, rfl, rfl, rfl, rfl, textOk_ascii (by decide), lineTable_iff.2 rfl⟩

/-! ## C56: what a diagnostic shows -/

/-- **C56**: the excerpt shown for a span of the text contains the span and lies within the text; with context lines
it begins at the beginning of the line `before` lines above (of the text, if there are fewer) and ends at the end of the
line `after` lines below (of the text, if there are fewer). -/
theorem C56_excerpt {s : Source} (ht : TextOk s.content) (hL : LineTable s.content s.lineStarts)
    {offset len before after : Nat} (hin : offset + len ≤ s.content.length) :
    ∃ start n, s.readSpan offset len before after = .ok (start, n) ∧ start ≤ offset ∧ offset + len ≤ start + n ∧
      start + n ≤ s.content.length ∧
      (before = 0 → start = offset) ∧ (after = 0 → start + n = offset + len) ∧
      (0 < before → IsPos s.content start (lfCount s.content 0 offset - before) 0) ∧
      (0 < after → start + n = s.content.length ∨ IsPos s.content (start + n)
        (lfCount s.content 0 (offset + len) + after + 1) 0) := by
  obtain ⟨p1, p2, p3, p4, p5⟩ := C28_partition ht hL
  have hT := lineTable_iff.1 hL
  have hcount : ∀ o, lfCount s.content 0 o < s.lineStarts.length := by
    intro o
    rw [hT, starts_length, ← lfCount_take]
    have : (s.content.take o).count LF ≤ s.content.count LF := (List.take_sublist o s.content).count_le LF
    omega
  -- the start of line `k` is at most the offset of anything in that line or below
  have hstart : ∀ k, k < s.lineStarts.length → ∃ a, s.lineStart k = some a ∧ IsPos s.content a k 0 ∧
      a ≤ s.content.length ∧ ∀ o, k ≤ lfCount s.content 0 o → a ≤ o := by
    intro k hk
    obtain ⟨a, ha⟩ : ∃ a, s.lineStarts[k]? = some a := ⟨_, List.getElem?_eq_getElem hk⟩
    have hm : a ∈ computeLineStarts s.content none := by rw [← hT]; exact List.mem_of_getElem? ha
    have hle : a ≤ s.content.length := by
      rcases mem_starts.1 hm with h | ⟨j, hj, h⟩
      · omega
      · have := isLF_lt hj
        omega
    have hp : IsPos s.content a (lfCount s.content 0 a) 0 := by
      refine ⟨rfl, by omega, ?_, fun j h1 h2 => by omega⟩
      rcases mem_starts.1 hm with h | ⟨j, hj, h⟩
      · exact .inl (by omega)
      · refine .inr ?_
        rw [h, Nat.sub_zero, Nat.add_sub_cancel]
        exact hj
    have h2 := lineStart_pos hle hp
    rw [← hT, Nat.sub_zero] at h2
    have hnd : s.lineStarts.Nodup := hL.1.imp (fun h => Nat.ne_of_lt h)
    have hk' : k = lfCount s.content 0 a := by
      rw [List.getElem?_eq_getElem hk] at ha
      rw [List.getElem?_eq_getElem (hcount a)] at h2
      exact (hnd.getElem_inj_iff).1 ((Option.some.inj ha).trans (Option.some.inj h2).symm)
    refine ⟨a, ha, by rw [← hk'] at hp; exact hp, hle, ?_⟩
    intro o ho
    by_contra hlt
    rcases mem_starts.1 hm with h | ⟨j, hj, h⟩
    · omega
    · subst h
      have h3 : lfCount s.content 0 o ≤ (s.content.take j).count LF := by
        rw [← lfCount_take]
        have : s.content.take o = (s.content.take j).take o := by rw [List.take_take, Nat.min_eq_left (by omega)]
        rw [this]
        exact (List.take_sublist o _).count_le LF
      have h4 : lfCount s.content 0 (j + 1) = (s.content.take j).count LF + 1 := by
        rw [← lfCount_take, List.take_add_one, hj, List.count_append]
        rfl
      omega
  have hbefore : ∃ start, s.readStart offset before = .ok start ∧ start ≤ offset ∧ (before = 0 → start = offset) ∧
      (0 < before → IsPos s.content start (lfCount s.content 0 offset - before) 0) := by
    by_cases hb : before > 0
    · obtain ⟨a, h1, h2, h3, h4⟩ := hstart (lfCount s.content 0 offset - before) (by have := hcount offset; omega)
      refine ⟨a, ?_, h4 offset (by omega), by omega, fun _ => h2⟩
      unfold Source.readStart
      rw [if_pos hb, C27_line hL]
      show Except.ok ((s.lineStart (lfCount s.content 0 offset - before)).getD 0) = _
      rw [h1]
      rfl
    · exact ⟨offset, by unfold Source.readStart; rw [if_neg hb]; rfl, by omega, fun _ => rfl, fun h => absurd h hb⟩
  have hafter : ∃ stop, s.readStop (offset + len) after = .ok stop ∧ offset + len ≤ stop ∧ stop ≤ s.content.length ∧
      (after = 0 → stop = offset + len) ∧
      (0 < after → stop = s.content.length ∨ IsPos s.content stop (lfCount s.content 0 (offset + len) + after + 1) 0) := by
    by_cases hb : after > 0
    · refine ⟨_, by unfold Source.readStop; rw [if_pos hb, C27_line hL]; rfl, ?_⟩
      set k := lfCount s.content 0 (offset + len) + after with hk
      by_cases hin' : k < s.lineStarts.length
      · by_cases hlast : k + 1 < s.lineStarts.length
        · obtain ⟨a, e, e', h1, h2, h3, h4, h5⟩ := p4 k hlast
          obtain ⟨a', h1', h2', h3', h4'⟩ := hstart (k + 1) hlast
          have hae : a' = e := by
            unfold Source.lineRange at h5
            rw [h1'] at h5
            dsimp only at h5
            split at h5 <;> exact congrArg Prod.fst (Option.some.inj h5)
          subst hae
          rw [h1]
          refine ⟨?_, h3', by omega, fun _ => .inr h2'⟩
          dsimp only
          by_contra hlt
          have h6 : lfCount s.content 0 a' = k + 1 := h2'.1
          have h7 : lfCount s.content 0 a' ≤ lfCount s.content 0 (offset + len) := by
            rw [← lfCount_take, ← lfCount_take]
            have : s.content.take a' = (s.content.take (offset + len)).take a' := by
              rw [List.take_take, Nat.min_eq_left (by omega)]
            rw [this]
            exact (List.take_sublist a' _).count_le LF
          omega
        · obtain ⟨a, h1, h2, h3⟩ := p5 k (by omega)
          rw [h1]
          exact ⟨hin, Nat.le_refl _, by omega, fun _ => .inl rfl⟩
      · rw [p2 k (by omega)]
        exact ⟨hin, Nat.le_refl _, by omega, fun _ => .inl rfl⟩
    · exact ⟨offset + len, by unfold Source.readStop; rw [if_neg hb]; rfl, Nat.le_refl _, hin, fun _ => rfl, fun h => absurd h hb⟩
  obtain ⟨start, hs1, hs2, hs3, hs4⟩ := hbefore
  obtain ⟨stop, he1, he2, he3, he4, he5⟩ := hafter
  refine ⟨start, stop - start, ?_, hs2, by omega, by omega, hs3, by omega, hs4, ?_⟩
  · unfold Source.readSpan
    rw [hs1, he1]
    show Except.ok (start, if start ≤ stop then stop - start else start - stop) = _
    rw [if_pos (by omega)]
  · intro h
    rw [show start + (stop - start) = stop by omega]
    exact he5 h

example : ∃ s : Source, Source.new (bytes "a\nb\nc\nd\ne") = .ok s ∧ s.readSpan 4 1 1 1 = .ok (2, 6) :=
  ⟨_, rfl, rfl⟩

end Litcheck
