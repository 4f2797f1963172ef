import Verif.Props.FirstMatch
import Verif.Props.CheckText
import Verif.Proofs.ExactText
import Verif.Proofs.TameCheck

/-!
# Property C83, from the text of a check file
-/

namespace Litcheck.Sets
open Spec Pattern Smart Regex PatternSpec
open Litcheck.Lex (Part Match CPat CLine VarName Expr Op)

section
variable {run : Run} {imp : List Str} {ls : List CLine} {lines : List (Line Vars)}

theorem headLines_mem {imp : Option (Line Vars)} {lines : List (Line Vars)} {x : Line Vars} (hx : x ∈ headLines imp lines) :
    x ∈ lines ∨ imp = some x := by
  unfold headLines withImplicit at hx
  rcases List.mem_append.1 hx with hx | hx
  · exact .inr (by simpa using hx)
  · obtain ⟨l, hl, hx⟩ := List.mem_flatMap.1 hx
    have hm := ((splitLabels_mem (l := l)).1 hl).1
    split at hx
    · simp only [List.mem_singleton] at hx
      subst hx; exact .inl hm
    · rcases List.mem_cons.1 hx with rfl | hx
      · exact .inl hm
      · exact .inr (by simpa using hx)

theorem file_sequential (hf : FirstFile run imp ls) (hcount : ∀ l ∈ ls, l.kind ≠ .count 0) (h : compileAll run ls 0 = .ok (some lines)) :
    Sequential (fileSet run (patsOf ls imp)) (lineFirst run (patsOf ls imp)) (lineMean run (patsOf ls imp)) (implicitLine ls imp) lines := by
  have hn := compileAll_numbered h
  have hset := file_setting (b := []) hf.good hcount h (.inl (by intro n hn; simp [FirstLF, IsLF] at hn))
  refine ⟨⟨_, file_exactly hf h, fun x hx => headLines_mem hx, ?_⟩, hset.implicit, hset.count, ?_, ?_, ?_⟩
  · intro x hx y hy
    rcases List.mem_append.1 hy with hy | hy
    · exact .inr (by simpa using hy)
    · exact .inl (((splitLabels_mem (l := x.1)).2 x hx).2 y hy).1
  · intro l hl
    obtain ⟨l', h3, h4, _⟩ := hn.mem (imp := imp) hl
    rw [h4]; exact hf.dag l' h3
  · intro l hl hk
    have hlm := line_leftmost hf h hl (by rw [hk]; simp) (by rw [hk]; simp)
    obtain ⟨l', h3, h4, h5⟩ := hn.mem (imp := imp) hl
    have hone := (hf.good.label l' h3 (by rw [← h4]; exact hk)).2
    rw [← h5] at hone
    refine ⟨hlm.finds, hlm.info, lineFirst_solid hone.neverEmpty, ?_⟩
    rintro env b lo hi s e env' ⟨⟨_, _, _, h6, _⟩, _⟩
    exact (hone _ rfl rfl _ _ _ _ _ h6).2
  · intro hne l hl k1 k2 env b lo hi s e env' hF
    exact hset.nonEmpty hne l hl k1 k2 env b s e env' hF.1.2.2.2.1

/-- **C83**, from the text of the check file, for inputs with LF line endings (or any inputs, if no directive looks at lines): let the text be read as the lines `ls`, without
uses of variables, numeric blocks and `CHECK-DAG` lines, and with captures `[[X:..]]` at most outside of `CHECK-NOT` (`FirstFile`), and compile.  Then there is a rule which picks, for each check, one of
the matches of its pattern which start first, such that every input passes exactly if the checks succeed one after the other, each
one taking the first match which is picked.  (The rule is that of the library of regular expressions.) -/
theorem C83_text_partial {cfg : Lex.Cfg} {allowUnused : Bool} {text : Str} (hp : Lex.parse cfg allowUnused text = .ok ls)
    (hf : FirstFile run imp ls) (h : compileAll run ls 0 = .ok (some lines)) {prog : List (Section Vars)}
    (hc : compile (fileSet run (patsOf ls imp)) (implicitLine ls imp) lines = .ok (.ok prog)) :
    ∃ pick : Line Vars → Choice Vars,
      (∀ l ∈ lines, l.kind ≠ .empty → l.kind ≠ .not → Picks (lineMean run (patsOf ls imp) l) (pick l)) ∧
      ∀ env b, Readable (ls.map CLine.kind) b → (TextPasses run imp cfg allowUnused text env b ↔ (run.check.allowEmpty = true ∨ b ≠ []) ∧
        PassesByFirst (fun l => FirstBy (lineMean run (patsOf ls imp) l) (pick l)) (lineMean run (patsOf ls imp))
          (enterEnv run.check Bindings.clear) env (implicitLine ls imp) lines b) := by
  refine ⟨fun l => pickOf l.pat, fun l hl k1 k2 => (line_leftmost hf h hl k1 k2).picks, ?_⟩
  intro env b hlf
  have key := C83_first_match_any_partial (file_sequential hf (Lex.parse_count hp) h) (o := run.check) (clear := Bindings.clear) (env := env)
    ((compileAll_numbered h).kinds.symm ▸ hlf)
  have heq : TextPasses run imp cfg allowUnused text env b ↔
      Passes (fileSet run (patsOf ls imp)) run.check Bindings.clear (implicitLine ls imp) lines env b := by
    unfold TextPasses verifyText
    rw [hp]
    simp only [Except.map, Except.ok.injEq]
    unfold verifyLines
    simp only [h, bind, Except.bind]
    rfl
  rw [heq, key]
  simp only [hc]
  constructor
  · rintro ⟨_, h1⟩; exact h1
  · intro h1; exact ⟨⟨prog, rfl⟩, h1⟩

end

/-! ## An example -/

/-- Text, `{{..}}`, or `[[X:..]]`. -/
def solePart : Part → Bool
  | .match_ (.substitution _ (some _)) => true
  | .match_ _ => false
  | _ => true

def soleB (p : CPat) : Bool := (partsOf p).all solePart

theorem soleB_sound {p : CPat} (h : soleB p = true) : Sole p where
  unused := by
    intro x hx hu
    have := List.all_eq_true.1 h x hx
    unfold Uses at hu
    split at hu
    · simp [solePart] at this
    · simp [solePart] at this
    · exact hu
  noNumber := by
    rintro x hx f y e rfl
    have := List.all_eq_true.1 h _ hx
    simp [solePart] at this

/-- A decision procedure for `FirstFile`. -/
def firstFileB (run : Run) (imp : List Str) (ls : List CLine) : Bool :=
  goodFile run imp ls && ls.all fun l =>
    l.kind != .dag && (l.kind == .empty || (if l.kind == .not then plainB l.pattern else
      soleB l.pattern && (wellFormedB l.pattern && (partsOf l.pattern).all (canonicalB run.opts.strictWs)))) &&
    (!(l.kind == .next || l.kind == .same) || solidPat l.pattern)

theorem firstFileB_sound {run : Run} {imp : List Str} {ls : List CLine} (h : firstFileB run imp ls = true) : FirstFile run imp ls := by
  simp only [firstFileB, Bool.and_eq_true, List.all_eq_true] at h
  obtain ⟨h1, h2⟩ := h
  have key : ∀ l ∈ ls, l.kind ≠ .empty → l.kind ≠ .not → soleB l.pattern = true ∧
      wellFormedB l.pattern = true ∧ ∀ x ∈ partsOf l.pattern, canonicalB run.opts.strictWs x = true := by
    intro l hl hk hn
    have := (h2 l hl).1.2
    rw [if_neg (by simpa using hn)] at this
    simp only [Bool.or_eq_true, Bool.and_eq_true, beq_iff_eq, List.all_eq_true] at this
    rcases this with this | this
    · exact absurd this hk
    · exact this
  refine ⟨goodFile_sound h1, ?_, ?_, ?_, ?_, ?_, ?_⟩
  · intro l hl
    simpa using (h2 l hl).1.1
  · intro l hl hk
    have := (h2 l hl).1.2
    rw [hk] at this
    exact plainB_sound (by simpa using this)
  · intro l hl hk hn
    exact soleB_sound (key l hl hk hn).1
  · intro l hl hk hn
    exact wellFormedB_sound (key l hl hk hn).2.1
  · intro l hl hk hn
    rintro x hx s rfl
    have := (key l hl hk hn).2.2 _ hx
    simp only [canonicalB, Bool.or_eq_true, List.all_eq_true, Bool.not_eq_true'] at this
    exact this
  · intro l hl hk
    have := (h2 l hl).2
    simp only [Bool.or_eq_true, Bool.not_eq_true', Bool.or_eq_false_iff, beq_eq_false_iff_ne] at this
    rcases this with this | this
    · rcases hk with hk | hk
      · exact absurd hk this.1
      · exact absurd hk this.2
    · exact solidPat_sound this

/-- Is a text read as such lines which compile? -/
def firstText (run : Run) (imp : List Str) (cfg : Lex.Cfg) (allow : Bool) (text : Str) : Bool :=
  match Lex.parse cfg allow text with
  | .ok ls => firstFileB run imp ls && (match compileAll run ls 0 with
    | .ok (some lines) => (match compile (fileSet run (patsOf ls imp)) (implicitLine ls imp) lines with | .ok (.ok _) => true | _ => false)
    | _ => false)
  | .error _ => false

theorem firstText_of {run : Run} {imp : List Str} {cfg : Lex.Cfg} {allow : Bool} {text : Str} (h : firstText run imp cfg allow text = true) :
    ∃ ls lines prog, Lex.parse cfg allow text = .ok ls ∧ FirstFile run imp ls ∧ compileAll run ls 0 = .ok (some lines) ∧
      compile (fileSet run (patsOf ls imp)) (implicitLine ls imp) lines = .ok (.ok prog) := by
  unfold firstText at h
  split at h
  · rw [Bool.and_eq_true] at h
    obtain ⟨h1, h2⟩ := h
    split at h2
    · split at h2
      · exact ⟨_, _, _, ‹_›, firstFileB_sound h1, ‹_›, ‹_›⟩
      · simp at h2
    · simp at h2
  · simp at h

def firstEx : String := "CHECK: begin
CHECK-LABEL: {{fn [a-z]+}}
CHECK: %[[X:[0-9]+]] = load
CHECK-NOT: {{bad[0-9]}}
CHECK-NOT: worse
CHECK: ret
CHECK-EMPTY:
CHECK-NEXT: x{{y?}}
CHECK-COUNT-2: z
CHECK-SAME: w
CHECK-LABEL: fn last
CHECK: ret
CHECK-NOT: tail
"

def firstIn : String := "begin
fn main
%12 = load
ret

xy
z z w
fn last
ret
"

/-- The hypotheses of C83 are met by a check file with all other kinds of lines. -/
example : ∃ ls lines prog, Lex.parse exCfg false firstEx.toList = .ok ls ∧ FirstFile exRun ["error".toList] ls ∧
    compileAll exRun ls 0 = .ok (some lines) ∧
    compile (fileSet exRun (patsOf ls ["error".toList])) (implicitLine ls ["error".toList]) lines = .ok (.ok prog) :=
  firstText_of (by decide +kernel)

example : TextPasses exRun ["error".toList] exCfg false firstEx.toList Bindings.empty (Regex.utf8 firstIn.toList) :=
  textPasses_of (by decide +kernel)

/-- The checks take the first match: with another `load` before, `bad1` lies between the matches, and the test fails, although a
later match of `load` would satisfy the checks. -/
example : ¬ TextPasses exRun ["error".toList] exCfg false firstEx.toList Bindings.empty
    (Regex.utf8 "begin\nfn main\n%11 = load\nbad1\n%12 = load\nret\n\nxy\nz z w\nfn last\nret\n".toList) :=
  not_textPasses_of (by decide +kernel)

example : LFMode (Regex.utf8 firstIn.toList) := lfMode_of_noCR (by decide +kernel)

/-- The kinds of the lines of a check file. -/
def kindsOf (cfg : Lex.Cfg) (allow : Bool) (text : Str) : List Kind :=
  match Lex.parse cfg allow text with | .ok ls => ls.map CLine.kind | .error _ => []

theorem kindsOf_eq {cfg : Lex.Cfg} {allow : Bool} {text : Str} {ls : List CLine} (h : Lex.parse cfg allow text = .ok ls) :
    kindsOf cfg allow text = ls.map CLine.kind := by
  unfold kindsOf
  rw [h]

def freeEx : String := "CHECK: %{{[0-9]+}} = load
CHECK-NOT: {{bad[0-9]}}
CHECK-NOT: worse
CHECK-COUNT-2: z
CHECK: end
"

/-- With directives which do not look at lines, the input may have CRLF line endings. -/
example : ∃ ls lines prog, Lex.parse exCfg false freeEx.toList = .ok ls ∧ FirstFile exRun [] ls ∧
    compileAll exRun ls 0 = .ok (some lines) ∧ compile (fileSet exRun (patsOf ls [])) (implicitLine ls []) lines = .ok (.ok prog) ∧
    ∀ b, Readable (ls.map CLine.kind) b := by
  obtain ⟨ls, lines, prog, h1, h2, h3, h4⟩ := firstText_of (run := exRun) (imp := []) (cfg := exCfg) (allow := false) (text := freeEx.toList) (by decide +kernel)
  refine ⟨ls, lines, prog, h1, h2, h3, h4, fun b => .inr ?_⟩
  rw [← kindsOf_eq h1, show kindsOf exCfg false freeEx.toList = [.plain, .not, .not, .count 2, .plain] from by decide +kernel]
  simp [FreeOfLines]

example : TextPasses exRun [] exCfg false freeEx.toList Bindings.empty (Regex.utf8 "%12 = load\r\nz\r\nz\r\nend\r\n".toList) :=
  textPasses_of (by decide +kernel)

example : ¬ TextPasses exRun [] exCfg false freeEx.toList Bindings.empty (Regex.utf8 "%12 = load\r\nworse\r\nz\r\nz\r\nend\r\n".toList) :=
  not_textPasses_of (by decide +kernel)

end Litcheck.Sets
