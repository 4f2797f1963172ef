import Mathlib.Tactic.ByContra
import Mathlib.Tactic.Cases
import Mathlib.Tactic.Tauto
import Mathlib.Tactic.SplitIfs
