import Mathlib.Tactic.Tauto
import Mathlib.Tactic.ByContra
import Mathlib.Tactic.Push
import Mathlib.Tactic.Use
import Mathlib.Tactic.Common

/-! Tactics used throughout the proofs (no definitions). -/
