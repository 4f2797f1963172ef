import Verif.Spec.Command
import Verif.Proofs.Mentions
import Verif.Props.Options
import Verif.Props.CheckText
import Mathlib.Data.Char

/-!
# C91, C92: the `filecheck` command
-/

namespace Litcheck
open Spec CommandSpec Command
open Litcheck.Smart Litcheck.Pattern Litcheck.Sets
open Litcheck.Regex (utf8)

/-! ## Sorting and removing repetitions -/

namespace Command

theorem leStr_total : ∀ a b : Str, (leStr a b || leStr b a) = true
  | [], b => by simp [leStr]
  | a :: x, [] => by simp [leStr]
  | a :: x, b :: y => by
    unfold leStr
    by_cases h : a = b
    · subst h; simpa using leStr_total x y
    · have h' : b ≠ a := fun e => h e.symm
      simp only [h, h', if_false, Bool.or_eq_true, decide_eq_true_eq]
      exact lt_or_gt_of_ne h

theorem leStr_trans : ∀ a b c : Str, leStr a b = true → leStr b c = true → leStr a c = true
  | [], _, _, _, _ => by simp [leStr]
  | _ :: _, [], _, h, _ => by simp [leStr] at h
  | _ :: _, _ :: _, [], _, h => by simp [leStr] at h
  | a :: x, b :: y, c :: z, h1, h2 => by
    unfold leStr at h1 h2 ⊢
    by_cases hab : a = b
    · subst hab
      by_cases hac : a = c
      · subst hac
        simp only [if_true] at h1 h2 ⊢
        exact leStr_trans x y z h1 h2
      · simpa [hac] using h2
    · simp only [hab, if_false, decide_eq_true_eq] at h1
      by_cases hbc : b = c
      · subst hbc
        simp [hab, h1]
      · simp only [hbc, if_false, decide_eq_true_eq] at h2
        have h3 : a < c := lt_trans h1 h2
        simp [ne_of_lt h3, h3]

theorem leStr_antisymm : ∀ a b : Str, leStr a b = true → leStr b a = true → a = b
  | [], [], _, _ => rfl
  | [], _ :: _, _, h => by simp [leStr] at h
  | _ :: _, [], h, _ => by simp [leStr] at h
  | a :: x, b :: y, h1, h2 => by
    unfold leStr at h1 h2
    by_cases hab : a = b
    · subst hab
      simp only [if_true] at h1 h2
      rw [leStr_antisymm x y h1 h2]
    · have hba : b ≠ a := fun e => hab e.symm
      simp only [hab, hba, if_false, decide_eq_true_eq] at h1 h2
      exact absurd (lt_trans h1 h2) (lt_irrefl _)

/-- The strict order of texts. -/
def ltStr (a b : Str) : Prop := leStr a b = true ∧ a ≠ b

instance : Std.Irrefl ltStr := ⟨fun _ h => h.2 rfl⟩
instance : Std.Antisymm ltStr := ⟨fun a b h1 h2 => leStr_antisymm a b h1.1 h2.1⟩

theorem mem_dedup (p : Str) : ∀ ps : List Str, p ∈ dedup ps ↔ p ∈ ps
  | [] => Iff.rfl
  | [a] => Iff.rfl
  | a :: b :: r => by
    unfold dedup
    split_ifs with h
    · subst h
      rw [mem_dedup p (a :: r)]
      simp
    · rw [List.mem_cons, mem_dedup p (b :: r), List.mem_cons (b := a)]

theorem dedup_sorted : ∀ ps : List Str, ps.Pairwise (fun a b => leStr a b = true) → (dedup ps).Pairwise ltStr
  | [], _ => List.Pairwise.nil
  | [a], _ => List.pairwise_singleton _ _
  | a :: b :: r, h => by
    unfold dedup
    obtain ⟨h1, h2⟩ := List.pairwise_cons.1 h
    split_ifs with hab
    · exact dedup_sorted (b :: r) h2
    · refine List.pairwise_cons.2 ⟨?_, dedup_sorted (b :: r) h2⟩
      intro c hc
      rw [mem_dedup] at hc
      refine ⟨h1 c hc, ?_⟩
      rintro rfl
      rcases List.mem_cons.1 hc with e | hc
      · exact hab e
      · exact hab (leStr_antisymm _ _ (h1 b List.mem_cons_self) ((List.pairwise_cons.1 h2).1 _ hc))

theorem mem_tidy (p : Str) (ps : List Str) : p ∈ tidy ps ↔ p ∈ ps := by
  unfold tidy
  rw [mem_dedup, List.mem_mergeSort]

theorem tidy_sorted (ps : List Str) : (tidy ps).Pairwise ltStr :=
  dedup_sorted _ (List.pairwise_mergeSort leStr_trans leStr_total ps)

theorem tidy_nodup (ps : List Str) : (tidy ps).Nodup := (tidy_sorted ps).imp fun h => h.2

theorem tidy_same {ps qs : List Str} (h : ∀ p, p ∈ qs ↔ p ∈ ps) : tidy qs = tidy ps :=
  (tidy_sorted qs).eq_of_mem_iff (tidy_sorted ps) fun p => by rw [mem_tidy, mem_tidy, h]

end Command

/-- The verification passes. -/
def Command.Passes (checked : Bool) (o : Options) (check input : Str) : Prop := ∃ ms, Command.verify checked o check input = .ok (.ok (.pass ms))

theorem code_zero {r : Except Lex.PErr (P Verdict)} : code r = 0 ↔ ∃ ms, r = .ok (.ok (.pass ms)) := by
  constructor
  · intro h
    unfold code at h
    split at h
    · exact ⟨_, rfl⟩
    · simp at h
    · simp at h
  · rintro ⟨ms, rfl⟩; rfl

/-! ## C92: the order of prefixes -/

theorem accepted_usable {alnum : Char → Bool} (ha : alnum ':' = false ∧ alnum '{' = false) {p : Str} (h : Accepted alnum p) : Lex.Usable p := by
  constructor
  · intro hm
    have := h.2 _ hm
    rw [ha.1] at this
    simp at this
  · intro hm
    have := h.2 _ hm
    rw [ha.2] at this
    simp at this

/-- **C92**: the prefixes which the command line admits are those which begin with an ASCII letter and consist of letters and digits (of any script), `_` and `-`. -/
theorem C92_prefixes (alnum : Char → Bool) (p : Str) : prefixOk alnum p = true ↔ Accepted alnum p := by
  unfold prefixOk Accepted
  cases p with
  | nil => simp
  | cons c r =>
    rw [Bool.and_eq_true, List.all_eq_true]
    simp only [Bool.or_eq_true, beq_iff_eq, or_assoc]
    exact and_congr_left' ⟨fun h => ⟨c, r, rfl, h⟩, fun ⟨c', r', e, h⟩ => by cases e; exact h⟩

/-- **C92**: a check file is read the same way whatever the order of the prefixes: the same check lines, on the same lines of the file, or it is rejected. -/
theorem C92_parse (alnum : Char → Bool) (ha : alnum ':' = false ∧ alnum '{' = false) {o o' : Options} (hs : SameUpToOrder o o')
    (h : OptionsOk alnum o) (h' : OptionsOk alnum o') (text : Str) :
    Lex.checkLines (cfgOf o') text = Lex.checkLines (cfgOf o) text ∧
      ((∃ e, Lex.parse (cfgOf o) o.allowUnusedPrefixes text = .error e ∧ ∃ e', Lex.parse (cfgOf o') o'.allowUnusedPrefixes text = .error e') ∨
       ∃ ls, Lex.parse (cfgOf o) o.allowUnusedPrefixes text = .ok ls ∧ Lex.parse (cfgOf o') o'.allowUnusedPrefixes text = .ok ls) := by
  have hr := hs.rest
  have hsp : Lex.SamePrefixes (cfgOf o) (cfgOf o') := ⟨hs.check, hs.comment, by rw [cfgOf, hr]; rfl, by rw [cfgOf, hr]; rfl⟩
  have hu : Lex.UsableAll (cfgOf o) := ⟨fun p hp => accepted_usable ha (h.check p hp), fun p hp => accepted_usable ha (h.comment p hp)⟩
  refine ⟨Lex.checkLines_same hu hsp text, ?_⟩
  have hall : o'.allowUnusedPrefixes = o.allowUnusedPrefixes := by rw [hr]
  unfold Lex.parse
  rw [Lex.lex_same hu hsp, hall]
  generalize Lex.lex (cfgOf o) text = x
  obtain ⟨ts, seen⟩ := x
  dsimp only
  have hun : Lex.unusedPrefixes seen [] (cfgOf o').checkPrefixes = [] ↔ Lex.unusedPrefixes seen [] (cfgOf o).checkPrefixes = [] := by
    rw [Lex.unused_nil (cfgOf o').checkPrefixes [] h'.once (by simp), Lex.unused_nil (cfgOf o).checkPrefixes [] h.once (by simp)]
    exact forall_congr' fun p => by rw [hsp.check]
  cases Lex.parseLoop ts.length [] ts with
  | error e => exact .inl ⟨e, rfl, e, rfl⟩
  | ok ls =>
    simp only [bind, Except.bind]
    by_cases hc : Lex.unusedPrefixes seen [] (cfgOf o).checkPrefixes ≠ [] ∧ o.allowUnusedPrefixes = false
    · rw [if_pos hc, if_pos ⟨fun e => hc.1 (hun.1 e), hc.2⟩]
      exact .inl ⟨_, rfl, _, rfl⟩
    · rw [if_neg hc, if_neg (fun e => hc ⟨fun e' => e.1 (hun.2 e'), e.2⟩)]
      exact .inr ⟨ls, rfl, rfl⟩

/-- **C92**, of the library (where prefixes are not sorted): the verdict does not depend on the order of the prefixes. -/
theorem C92_verify (alnum : Char → Bool) (ha : alnum ':' = false ∧ alnum '{' = false) {o o' : Options} (hs : SameUpToOrder o o')
    (h : OptionsOk alnum o) (h' : OptionsOk alnum o') (checked : Bool) (check input : Str) :
    code (Command.verify checked o' check input) = code (Command.verify checked o check input) := by
  obtain ⟨h1, h2⟩ := C92_parse alnum ha hs h h' check
  have hr := hs.rest
  have e1 : runOf checked o' = runOf checked o := by rw [hr]; rfl
  have e2 : o'.implicitCheckNot = o.implicitCheckNot := by rw [hr]
  have e3 : startEnv o' = startEnv o := by rw [hr]; rfl
  unfold Command.verify verifyCheckFile verifyText
  rw [e1, e2, e3, h1]
  rcases h2 with ⟨e, h3, e', h4⟩ | ⟨ls, h3, h4⟩
  · rw [h3, h4]; rfl
  · rw [h3, h4]

/-- **C92**, of the command: neither the order of the prefixes nor giving one of them several times changes the exit code. -/
theorem C92_command {o o' : Options} (hs : SameUpToOrder o o') (checked : Bool) (w : World) (checkFile inputFile : Str) :
    Command.filecheck checked w o' checkFile inputFile = Command.filecheck checked w o checkFile inputFile := by
  have e : { o' with checkPrefixes := tidy o'.checkPrefixes, commentPrefixes := tidy o'.commentPrefixes } =
      { o with checkPrefixes := tidy o.checkPrefixes, commentPrefixes := tidy o.commentPrefixes } := by
    rw [tidy_same hs.check, tidy_same hs.comment, hs.rest]
  unfold Command.filecheck
  rw [e]

/-! ## C91: the exit code -/

theorem read_given {w : World} {path text : Str} : (Command.read w path).1 = some text ↔ Given w path text := by
  unfold Command.read Given
  by_cases h : path = ['-'] <;> simp [h]

theorem read_both {w : World} {p q a b : Str} : (Command.read w p).1 = some a ∧ (Command.read (Command.read w p).2 q).1 = some b ↔ GivenBoth w p q a b := by
  unfold GivenBoth
  rw [read_given]
  refine and_congr_right fun _ => ?_
  by_cases hp : p = ['-']
  · by_cases hq : q = ['-']
    · simp [Command.read, hp, hq, eq_comm]
    · simp [Command.read, hp, hq, Given]
  · by_cases hq : q = ['-']
    · simp [Command.read, hp, hq, Given]
    · simp [Command.read, hp, hq, Given]

/-- The exit code with prefixes which need no tidying. -/
theorem filecheck_zero (checked : Bool) (w : World) (o : Options) (checkFile inputFile : Str) :
    Command.filecheck checked w o checkFile inputFile = 0 ↔ checkFile ≠ "help".toList ∧ (∀ p ∈ o.checkPrefixes, p ∉ o.commentPrefixes) ∧
      (o.dumpHelp = true ∨ ∃ check input, GivenBoth w checkFile inputFile check input ∧
        Command.Passes checked { o with checkPrefixes := tidy o.checkPrefixes, commentPrefixes := tidy o.commentPrefixes } check input) := by
  have hd : (∀ p ∈ (tidy o.checkPrefixes).map String.ofList, p ∉ (tidy o.commentPrefixes).map String.ofList) ↔
      ∀ p ∈ o.checkPrefixes, p ∉ o.commentPrefixes := by
    constructor
    · intro h p hp hc
      exact h (String.ofList p) (List.mem_map_of_mem ((mem_tidy _ _).2 hp)) (List.mem_map_of_mem ((mem_tidy _ _).2 hc))
    · intro h s hs hc
      obtain ⟨p, hp, rfl⟩ := List.mem_map.1 hs
      obtain ⟨q, hq, e⟩ := List.mem_map.1 hc
      have : q = p := String.ofList_injective e
      subst this
      exact h q ((mem_tidy _ _).1 hp) ((mem_tidy _ _).1 hq)
  unfold Command.filecheck
  dsimp only
  by_cases hh : checkFile = "help".toList
  · rw [if_pos hh]; simp [hh]
  rw [if_neg hh]
  cases hv : validateOptions ((tidy o.checkPrefixes).map String.ofList) ((tidy o.commentPrefixes).map String.ofList) with
  | error e =>
    have : ¬ ∀ p ∈ o.checkPrefixes, p ∉ o.commentPrefixes := by
      rw [← hd, ← C24_disjoint_iff, hv]
      simp
    simp [this]
  | ok u =>
    have hdis : ∀ p ∈ o.checkPrefixes, p ∉ o.commentPrefixes := by
      rw [← hd, ← C24_disjoint_iff, hv]
    dsimp only
    by_cases hhelp : o.dumpHelp = true
    · rw [if_pos hhelp]; exact ⟨fun _ => ⟨hh, hdis, .inl hhelp⟩, fun _ => rfl⟩
    rw [if_neg hhelp]
    have key : ∀ check input, GivenBoth w checkFile inputFile check input ↔ (Command.read w checkFile).1 = some check ∧ (Command.read (Command.read w checkFile).2 inputFile).1 = some input :=
      fun _ _ => read_both.symm
    simp only [key]
    generalize Command.read w checkFile = r1
    obtain ⟨c, w'⟩ := r1
    cases c with
    | none => simp [hhelp]
    | some check =>
      dsimp only
      generalize Command.read w' inputFile = r2
      obtain ⟨i, w''⟩ := r2
      cases i with
      | none => simp [hhelp]
      | some input =>
        dsimp only
        rw [code_zero]
        constructor
        · rintro ⟨ms, h⟩
          exact ⟨hh, hdis, .inr ⟨check, input, ⟨rfl, rfl⟩, ms, h⟩⟩
        · rintro ⟨-, -, h | ⟨check', input', ⟨h1, h2⟩, ms, h⟩⟩
          · exact absurd h hhelp
          · cases h1; cases h2; exact ⟨ms, h⟩

/-- **C91**: the command succeeds exactly if the prefixes for checks and comments are different and either only the help on dumps was asked for, or the check file and the input can be read
and the input passes the test, with the prefixes as they were given. `help` is not read as a file. -/
theorem C91_exit (alnum : Char → Bool) (ha : alnum ':' = false ∧ alnum '{' = false) (checked : Bool) (w : World) (o : Options) (ho : OptionsOk alnum o) (checkFile inputFile : Str) :
    Command.filecheck checked w o checkFile inputFile = 0 ↔ checkFile ≠ "help".toList ∧ (∀ p ∈ o.checkPrefixes, p ∉ o.commentPrefixes) ∧
      (o.dumpHelp = true ∨ ∃ check input, GivenBoth w checkFile inputFile check input ∧ Command.Passes checked o check input) := by
  rw [filecheck_zero]
  have hs : SameUpToOrder o { o with checkPrefixes := tidy o.checkPrefixes, commentPrefixes := tidy o.commentPrefixes } :=
    ⟨fun p => mem_tidy p _, fun p => mem_tidy p _, rfl⟩
  have ho' : OptionsOk alnum { o with checkPrefixes := tidy o.checkPrefixes, commentPrefixes := tidy o.commentPrefixes } :=
    ⟨fun p hp => ho.check p ((mem_tidy p _).1 hp), fun p hp => ho.comment p ((mem_tidy p _).1 hp), tidy_nodup _⟩
  have hc := fun check input => C92_verify alnum ha hs ho ho' checked check input
  have hp : ∀ check input, Command.Passes checked { o with checkPrefixes := tidy o.checkPrefixes, commentPrefixes := tidy o.commentPrefixes } check input ↔ Command.Passes checked o check input := by
    intro check input
    unfold Command.Passes
    rw [← code_zero, ← code_zero, hc]
  simp only [hp]

/-- **C91**, with C79: if the command succeeds (and was not only asked for help), the check file and the input could be read, the check file is read as check lines, and for check files
and inputs as in C79 there are places in the input for all of them, as the documentation requires. -/
theorem C91_satisfied_partial (alnum : Char → Bool) (ha : alnum ':' = false ∧ alnum '{' = false) {checked : Bool} {w : World} {o : Options} (ho : OptionsOk alnum o)
    {checkFile inputFile : Str} (h : Command.filecheck checked w o checkFile inputFile = 0) (hd : o.dumpHelp = false) :
    ∃ check input ls, GivenBoth w checkFile inputFile check input ∧ Lex.parse (cfgOf o) o.allowUnusedPrefixes check = .ok ls ∧
      ∃ run : Run, run.opts = ⟨o.ignoreCase, o.strictWhitespace⟩ ∧ run.check = ⟨o.allowEmpty, o.enableVarScope⟩ ∧
        (∀ i n, (Lex.checkLines (cfgOf o) check)[i]? = some n → run.lineOf i = n) ∧
        (GoodFile run o.implicitCheckNot ls → Readable (ls.map Lex.CLine.kind) (utf8 input) →
          ∃ lines, Numbered ls lines ∧ ∃ region lab place envs,
            Satisfies (lineMean run (patsOf ls o.implicitCheckNot)) (utf8 input) (enterEnv run.check Bindings.clear) (startEnv o)
              (fileBlocks (implicitLine ls o.implicitCheckNot) lines) region lab place envs) := by
  obtain ⟨-, -, h1⟩ := (C91_exit alnum ha checked w o ho checkFile inputFile).1 h
  rcases h1 with h1 | ⟨check, input, h1, h2⟩
  · rw [hd] at h1; cases h1
  · obtain ⟨ls, h3, h4⟩ := C79_text_partial h2
    refine ⟨check, input, ls, h1, h3, _, rfl, rfl, ?_, h4⟩
    intro i n hi
    show (Lex.checkLines (cfgOf o) check)[i]?.getD 0 = n
    rw [hi]; rfl

/-- **C25**, of the command, where a prefix may be given several times: if it succeeds, every check prefix is used by a directive of the check file, unless unused ones are allowed. -/
theorem C25_command {checked : Bool} {w : World} {o : Options} {checkFile inputFile : Str} (h : Command.filecheck checked w o checkFile inputFile = 0)
    (hd : o.dumpHelp = false) (hu : o.allowUnusedPrefixes = false) : ∃ check, Given w checkFile check ∧ ∀ p ∈ o.checkPrefixes, Mentions check p := by
  obtain ⟨-, -, h1⟩ := (filecheck_zero checked w o checkFile inputFile).1 h
  rcases h1 with h1 | ⟨check, input, h1, ms, h2⟩
  · rw [hd] at h1; cases h1
  · refine ⟨check, h1.1, fun p hp => ?_⟩
    unfold Command.verify verifyCheckFile verifyText at h2
    cases hl : Lex.parse (cfgOf { o with checkPrefixes := tidy o.checkPrefixes, commentPrefixes := tidy o.commentPrefixes }) o.allowUnusedPrefixes check with
    | error e => rw [hl] at h2; simp [Except.map] at h2
    | ok ls =>
      unfold Lex.parse at hl
      dsimp only at hl
      have hn : Lex.unusedPrefixes (Lex.lex (cfgOf { o with checkPrefixes := tidy o.checkPrefixes, commentPrefixes := tidy o.commentPrefixes }) check).2 []
          (tidy o.checkPrefixes) = [] := by
        by_contra hne
        generalize Lex.lex (cfgOf { o with checkPrefixes := tidy o.checkPrefixes, commentPrefixes := tidy o.commentPrefixes }) check = x at hl hne
        cases hx : Lex.parseLoop x.1.length [] x.1 with
        | error e => rw [hx] at hl; cases hl
        | ok ls' =>
          rw [hx] at hl
          simp only [bind, Except.bind] at hl
          rw [if_pos ⟨hne, hu⟩] at hl
          cases hl
      have := (Lex.unused_nil _ _ (tidy_nodup _) (by simp)).1 hn p ((mem_tidy _ _).2 hp)
      obtain ⟨a, c, b, h5, h6, h7⟩ := Lex.tokens_mentions _ _ _ this
      exact ⟨a, c, b, h5, h6, h7.imp (fun x => x.1) id⟩

/-! ## A run with two prefixes -/

namespace CommandEx

def options (ps : List String) : Options := { checkPrefixes := ps.map String.toList, definitions := [("X".toList, .str "f".toList)] }

/-- A check file, and an input on the standard input. -/
def world : World where
  file p := if p = "a.txt".toList then some "RUN: x\nFOO: a[[X]]\nCHECK-NEXT: b\n".toList else none
  stdin := some "af\nb\n".toList

def isAlnum (c : Char) : Bool := c.isAlphanum

theorem ok : OptionsOk isAlnum (options ["FOO", "CHECK"]) := by
  refine ⟨?_, ?_, by decide⟩
  · intro p hp
    simp only [options, List.map_cons, List.map_nil, List.mem_cons, List.not_mem_nil, or_false] at hp
    rcases hp with rfl | rfl
    · exact ⟨⟨'F', _, rfl, by decide⟩, by decide⟩
    · exact ⟨⟨'C', _, rfl, by decide⟩, by decide⟩
  · intro p hp
    simp only [options, List.mem_cons, List.not_mem_nil, or_false] at hp
    rcases hp with rfl | rfl
    · exact ⟨⟨'C', _, rfl, by decide⟩, by decide⟩
    · exact ⟨⟨'R', _, rfl, by decide⟩, by decide⟩

theorem ok1 : OptionsOk isAlnum (options ["CHECK"]) :=
  ⟨fun p hp => ok.check p (List.mem_cons_of_mem _ hp), ok.comment, by decide⟩

theorem code_of {r : Except Lex.PErr (P Verdict)} (h : passed r = true) : code r = 0 := by
  unfold passed at h
  split at h
  · rfl
  · simp at h

/-- The command succeeds on it … -/
theorem passes : Command.filecheck true world (options ["FOO", "CHECK"]) "a.txt".toList ['-'] = 0 := by
  rw [C91_exit isAlnum ⟨by decide, by decide⟩ _ _ _ ok]
  refine ⟨by decide, by decide, .inr ⟨_, _, ⟨.inr ⟨by decide, rfl⟩, .inr ⟨by decide, .inl ⟨rfl, rfl⟩⟩⟩, code_zero.1 (code_of ?_)⟩⟩
  decide +kernel

/-- … and with the prefixes in another order, and one of them twice; -/
example : Command.filecheck true world (options ["CHECK", "FOO", "CHECK"]) "a.txt".toList ['-'] = 0 := by
  rw [← passes]
  refine C92_command (o := options ["FOO", "CHECK"]) (o' := options ["CHECK", "FOO", "CHECK"]) ⟨fun p => ?_, fun _ => Iff.rfl, rfl⟩ _ _ _ _
  simp only [options, List.map_cons, List.map_nil, List.mem_cons, List.not_mem_nil, or_false]
  tauto

/-- … it fails if a prefix is not used, -/
example : Command.filecheck true world (options ["FOO", "CHECK", "BAR"]) "a.txt".toList ['-'] ≠ 0 := by
  intro h
  obtain ⟨check, h1, h2⟩ := C25_command h rfl rfl
  rcases h1 with ⟨h1, -⟩ | ⟨-, h1⟩
  · exact absurd h1 (by decide)
  · simp only [world, if_true, Option.some.injEq] at h1
    subst h1
    obtain ⟨a, c, b, h3, -, -⟩ := h2 "BAR".toList (by decide)
    have h4 : 'B' ∈ "RUN: x\nFOO: a[[X]]\nCHECK-NEXT: b\n".toList := by
      rw [h3]
      exact List.mem_append_right _ (List.mem_append_left _ (by decide))
    exact absurd h4 (by decide)

/-- … or if the standard input is to be both: there is nothing left of it. -/
example : Command.filecheck true { world with stdin := some "CHECK: a".toList } (options ["CHECK"]) ['-'] ['-'] ≠ 0 := by
  intro h
  obtain ⟨-, -, h | ⟨check, input, ⟨h1, h2⟩, h3⟩⟩ := (C91_exit isAlnum ⟨by decide, by decide⟩ _ _ _ ok1 _ _).1 h
  · cases h
  · rcases h1 with ⟨-, h1⟩ | ⟨h1, -⟩
    · rcases h2 with ⟨-, -, h2⟩ | ⟨h2, -⟩
      · cases h1
        subst h2
        have h4 : passed (Command.verify true (options ["CHECK"]) "CHECK: a".toList []) = false := by decide +kernel
        obtain ⟨ms, h3⟩ := h3
        rw [h3] at h4
        cases h4
      · exact h2 ⟨rfl, rfl⟩
    · exact h1 rfl

end CommandEx

end Litcheck
