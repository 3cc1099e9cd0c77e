import Mathlib.Tactic.SplitIfs
import Mathlib.Tactic.ByContra
import Mathlib.Tactic.Tauto
import Mathlib.Tactic.Push
import Mathlib.Tactic.Use
import Mathlib.Tactic.Set
import Mathlib.Tactic.Convert
import Mathlib.Tactic.Ring
import Mathlib.Tactic.Linarith
import Mathlib.Tactic.Cases
import Mathlib.Tactic.IntervalCases
import Mathlib.Tactic.Have
import Mathlib.Tactic.Contrapose

/-! Tactic imports shared by the proof files. -/
