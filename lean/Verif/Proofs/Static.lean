import Verif.Spec.Pattern
import Verif.Model.Pattern
import Verif.Proofs.RegexFormat
import Verif.Proofs.Literal

/-!
# Runs of parts which do not depend on variables: what the regular expression made of them matches
-/

namespace Litcheck.Pattern
open Litcheck.Smart Litcheck.Spec Litcheck.RegexSpec Litcheck.PatternSpec
open Litcheck.Regex hiding Items
open Litcheck.Lex (Part Match CPat VarName)

/-- The variable of a part can name a group, its source can be read by itself, its format can be expressed. -/
def PartOk : Part → Prop
  | .literal _ => True
  | .regex s => ∃ l, Regex.Items s l
  | .match_ (.substitution x (some s)) => validName (symOf x) ∧ ∃ r, Reads s r
  | .match_ (.substitution _ none) => True
  | .match_ (.numeric f none none) => okPrecision (f.getD plainFormat)
  | .match_ (.numeric _ none (some _)) => True
  | .match_ (.numeric f (some x) _) => validName (symOf x) ∧ okPrecision (f.getD plainFormat)

/-- The items and the captures of one part which does not depend on variables. -/
inductive StaticPart : Part → List Re → List Cap → Prop
  | literal (s : Str) : StaticPart (.literal s) (s.map Re.char).reverse []
  | regex {s l} : Regex.Items s l → StaticPart (.regex s) l []
  | capture {x s r} : validName (symOf x) → Reads s r → StaticPart (.match_ (.substitution x (some s))) [.cap (symOf x) r] [⟨x, .string⟩]
  | numeric {f} : okPrecision (f.getD plainFormat) →
      StaticPart (.match_ (.numeric f none none)) [seqRe (formatItems (f.getD plainFormat))] []
  | number {f x} : validName (symOf x) → okPrecision (f.getD plainFormat) →
      StaticPart (.match_ (.numeric f (some x) none)) [.cap (symOf x) (seqRe (formatItems (f.getD plainFormat)))] [⟨x, .number f⟩]

/-- The same for a run of parts; items are given in reverse. -/
inductive StaticRun : List Part → List Re → List Cap → Prop
  | nil : StaticRun [] [] []
  | cons {p l c ps m d} : StaticPart p l c → StaticRun ps m d → StaticRun (p :: ps) (m ++ l) (c ++ d)

theorem StaticRun.append {ps qs : List Part} {l m : List Re} {c d : List Cap} (h1 : StaticRun ps l c) (h2 : StaticRun qs m d) :
    StaticRun (ps ++ qs) (m ++ l) (c ++ d) := by
  induction h1 with
  | nil => simpa using h2
  | cons h _ ih =>
    rw [← List.append_assoc, List.append_assoc _ _ d, List.cons_append]
    exact .cons h ih

theorem StaticPart.single {p : Part} {l : List Re} {c : List Cap} (h : StaticPart p l c) : StaticRun [p] l c := by
  simpa using StaticRun.cons h .nil

/-! ## Names -/

theorem names_seq : ∀ l : List Re, (seqRe l).names = l.reverse.flatMap Re.names
  | [] => rfl
  | [r] => by simp [seqRe]
  | r :: s :: l => by
    rw [show seqRe (r :: s :: l) = .cat (seqRe (s :: l)) r from rfl, Re.names, names_seq (s :: l)]
    simp

theorem names_seq_append (m l : List Re) : (seqRe (m ++ l)).names = (seqRe l).names ++ (seqRe m).names := by
  simp [names_seq]

theorem iter_names {R : Nat → Nat → Caps → Prop} {ns : List Str} (hR : ∀ i j c, R i j c → ∀ x ∈ c, x.1 ∈ ns) :
    ∀ {n i j c}, Iter R n i j c → ∀ x ∈ c, x.1 ∈ ns := by
  intro n i j c h
  induction h with
  | zero => simp
  | succ h1 _ ih =>
    intro x hx
    rcases List.mem_append.1 hx with hx | hx
    · exact hR _ _ _ h1 x hx
    · exact ih x hx

/-- Only the groups of the expression are captured. -/
theorem lang_names {ic : Bool} {b : Buf} : ∀ (r : Re) {i j : Nat} {c : Caps}, Lang ic b r i j c → ∀ x ∈ c, x.1 ∈ r.names
  | .eps, i, j, c, h => by rw [h.2]; simp
  | .cls _ _, i, j, c, h => by obtain ⟨_, _, _, _, _, rfl⟩ := h; simp
  | .bol, i, j, c, h => by rw [h.2.2]; simp
  | .eol, i, j, c, h => by rw [h.2.2]; simp
  | .cat r s, i, j, c, h => by
    obtain ⟨k, c1, c2, h1, h2, rfl⟩ := h
    intro x hx
    rw [Re.names, List.mem_append]
    rcases List.mem_append.1 hx with hx | hx
    · exact .inl (lang_names r h1 x hx)
    · exact .inr (lang_names s h2 x hx)
  | .alt r s, i, j, c, h => by
    intro x hx
    rw [Re.names, List.mem_append]
    rcases h with h | h
    · exact .inl (lang_names r h x hx)
    · exact .inr (lang_names s h x hx)
  | .rep r _ _ _, i, j, c, h => by
    obtain ⟨n, _, _, h⟩ := h
    exact iter_names (fun i j c h => lang_names r h) h
  | .cap n r, i, j, c, h => by
    obtain ⟨d, h, rfl⟩ := h
    intro x hx
    rw [Re.names, List.mem_append]
    rcases List.mem_append.1 hx with hx | hx
    · exact .inl (lang_names r h x hx)
    · right; simp at hx; simp [hx]

/-- The bounds of the last group with the name. -/
def groupOf (c : Caps) (name : Str) : Option (Nat × Nat) := (c.reverse.find? fun x => x.1 == name).map Prod.snd

theorem groupOf_append_left {c d : Caps} {n : Str} (h : ∀ x ∈ d, x.1 ≠ n) : groupOf (c ++ d) n = groupOf c n := by
  unfold groupOf
  rw [List.reverse_append, List.find?_append]
  have : d.reverse.find? (fun x => x.1 == n) = none := by
    rw [List.find?_eq_none]
    intro x hx
    simpa using h x (by simpa using hx)
  rw [this]; rfl

theorem groupOf_append_right {c d : Caps} {n : Str} (h : ∀ x ∈ c, x.1 ≠ n) : groupOf (c ++ d) n = groupOf d n := by
  unfold groupOf
  rw [List.reverse_append, List.find?_append]
  have : c.reverse.find? (fun x => x.1 == n) = none := by
    rw [List.find?_eq_none]
    intro x hx
    simpa using h x (by simpa using hx)
  rw [this]; simp

/-! ## Captures -/

/-- The value which a capture gives to its variable. -/
def CapVal (b : Buf) (c : Cap) (s e : Nat) (v : Val) : Prop :=
  ∃ t, utf8 t = sliceOf b s e ∧
    match c.ty with
    | .string => v = .str t
    | .number f => ∃ n f', Num.parseWithFormat t (f.getD plainFormat) = .ok n ∧ v = .num n f' ∧ f'.getD plainFormat = f.getD plainFormat

/-- The captures are bound one after the other. -/
inductive Binds (b : Buf) : Vars → List (Cap × Nat × Nat) → Vars → Prop
  | nil {env} : Binds b env [] env
  | cons {env c s e v rest env'} : CapVal b c s e v → Binds b (env.insert (keyOf c.name) v) rest env' →
      Binds b env ((c, s, e) :: rest) env'

theorem Binds.append_inv {b : Buf} {x y : List (Cap × Nat × Nat)} {env env' : Vars} (h : Binds b env (x ++ y) env') :
    ∃ m, Binds b env x m ∧ Binds b m y env' := by
  induction x generalizing env with
  | nil => exact ⟨env, .nil, h⟩
  | cons a x ih =>
    cases h with
    | cons h1 h2 =>
      obtain ⟨m, h3, h4⟩ := ih h2
      exact ⟨m, .cons h1 h3, h4⟩

end Litcheck.Pattern
