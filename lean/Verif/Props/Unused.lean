import Verif.Proofs.AgreeFile
import Verif.Props.CheckText

/-!
# C90: the verdict depends on the variables asked for, and on no others

A check file asks for the value of a variable with `[[X]]` and in numeric expressions (`AgreeSpec.Asks`, `Verif/Spec/Agree.lean`). Definitions of other variables,
on the command line or otherwise, cannot change the verdict, the diagnostics, or whether the program panics or goes on for ever.
-/

namespace Litcheck
open Spec AgreeSpec
open Litcheck.Smart Litcheck.Pattern Litcheck.Sets
open Litcheck.Lex (CLine VarName)
open Litcheck.Regex (utf8)

/-- **C90**: two runs of the same check lines on the same input, with environments which agree on the variables asked for, end the same way. -/
theorem C90 (run : Run) (imp : List Str) (ls : List CLine) (b : Buf) {e e' : Vars} (he : Agree (Asks ls) e e') :
    verifyLines run imp ls e' b = verifyLines run imp ls e b :=
  lines_agree run imp b (S := Asks ls) (fun l hl p hp _ hx => ⟨l, hl, p, hp, hx⟩) he

/-- **C90**, for the text of a check file. -/
theorem C90_text (run : Run) (imp : List Str) (cfg : Lex.Cfg) (allow : Bool) (text : Str) (b : Buf) {e e' : Vars}
    (he : ∀ ls, Lex.parse cfg allow text = .ok ls → Agree (Asks ls) e e') :
    verifyText run imp cfg allow text e' b = verifyText run imp cfg allow text e b := by
  unfold verifyText
  cases hp : Lex.parse cfg allow text with
  | error x => rfl
  | ok ls => exact congrArg Except.ok (C90 run imp ls b (he ls hp))

/-- **C90**, for the definitions on the command line: those of names not asked for have no effect. -/
theorem C90_definitions (run : Run) (imp : List Str) (cfg : Lex.Cfg) (allow : Bool) (text : Str) (b : Buf) (s s' : Map String Val)
    (h : ∀ ls, Lex.parse cfg allow text = .ok ls → ∀ x, Asks ls (.user x) ∨ Asks ls (.global x) → s' (String.ofList x) = s (String.ofList x)) :
    verifyText run imp cfg allow text (Bindings.newWithSystem s') b = verifyText run imp cfg allow text (Bindings.newWithSystem s) b :=
  C90_text run imp cfg allow text b fun ls hl => ⟨fun x hx => ⟨rfl, h ls hl x (.inl hx)⟩, fun x hx => ⟨rfl, h ls hl x (.inr hx)⟩⟩

namespace UnusedEx

/-- A check file which asks for `X`, and captures (but does not ask for) `Y`. -/
def text : String := "CHECK: a[[X]]
CHECK-NOT: [[X]]{{[0-9]}}
CHECK: [[Y:[a-z]+]]c"

def input : Buf := utf8 "aq zzc".toList

/-- `-DX=…`, `-DY=…`. -/
def defs (x y : String) : Map String Val := fun s => if s = "X" then some (.str x.toList) else if s = "Y" then some (.str y.toList) else none

/-- The names asked for, if the text can be read. -/
def asked (text : Str) : List VarName :=
  match Lex.parse exCfg false text with
  | .ok ls => ls.flatMap fun l => (PatternSpec.partsOf l.pattern).flatMap needs
  | .error _ => []

theorem mem_asked {text : Str} {ls : List CLine} (h : Lex.parse exCfg false text = .ok ls) {x : VarName} (hx : Asks ls x) : x ∈ asked text := by
  obtain ⟨l, hl, p, hp, hx⟩ := hx
  unfold asked
  rw [h]
  exact List.mem_flatMap.2 ⟨l, hl, List.mem_flatMap.2 ⟨p, hp, hx⟩⟩

/-- The hypotheses of C90 are met: the value of `Y` on the command line has no effect, whatever it is … -/
example (y y' : String) : verifyText exRun [] exCfg false text.toList (Bindings.newWithSystem (defs "q" y')) input =
    verifyText exRun [] exCfg false text.toList (Bindings.newWithSystem (defs "q" y)) input := by
  refine C90_definitions _ _ _ _ _ _ _ _ fun ls hl x hx => ?_
  have ha : asked text.toList = [.user ['X'], .user ['X']] := by decide +kernel
  have h1 : VarName.user x ∈ asked text.toList ∨ VarName.global x ∈ asked text.toList := hx.imp (mem_asked hl) (mem_asked hl)
  rw [ha] at h1
  have h2 : x = ['X'] := by simpa using h1
  subst h2
  rfl

/-- … and the test passes; -/
example : TextPasses exRun [] exCfg false text.toList (Bindings.newWithSystem (defs "q" "c")) input := textPasses_of (by decide +kernel)

/-- … while the value of `X` matters. -/
example : ¬ TextPasses exRun [] exCfg false text.toList (Bindings.newWithSystem (defs "p" "c")) input := not_textPasses_of (by decide +kernel)

end UnusedEx

end Litcheck
