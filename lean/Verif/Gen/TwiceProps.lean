import Verif.Gen.TameReturnProps

/-!
# C77 fails for further calls after a left-recursive rule

`unroll_recursion_context` does not put back the state number (src/parser.rs:626-648), as `exit_rule` does
(src/parser.rs:584-588).  So a parser that has returned from a left-recursive rule called from outside gives the next context the state it stopped at
as invoking state, and no parent.  `states_stack` goes on to the parent of every context that has an invoking state, and
unwraps it (src/rule_context.rs:43-58); it is asked for by every error (src/errors.rs:141, 165, 181, 257).
-/

namespace Antlr.GenProps
open Antlr Gen Prediction

/-- The calculator's parser, with fuel for `LL1Analyzer`. -/
def calcWith (bail : Bool) (fuel : Nat) : Cfg CTS SimState := fueled (Calc.cfg CTS bail) fuel

/-- What two calls give: the results, the number of errors. -/
def called (bail : Bool) (cs : List (Nat × Int)) (ts : List Nat) : Option (List (Option (Option Nat)) × Nat) :=
  (callAll (calcWith bail 60) 100 cs (Calc.start ts)).map fun x => (x.1.map (·.toOption), x.2.es.p.syntaxErrors)

/-- Both sides are the same by computation; the tactic hands this to the kernel, which is quicker than the elaborator. -/
theorem twice_none (fuel m : Nat) :
    callAll (calcWith false (fuel + 60)) (m + 100) [(1, 0), (1, 0)] (Calc.start [1]) = none ∧
    callAll (calcWith true (fuel + 60)) (m + 100) [(1, 0), (1, 0)] (Calc.start [1]) = none ∧
    callAll (calcWith false (fuel + 60)) (m + 100) [(1, 0), (0, 0)] (Calc.start [1]) = none ∧
    callAll (calcWith true (fuel + 60)) (m + 100) [(1, 0), (0, 0)] (Calc.start [1]) = none := by
  refine ⟨?_, ?_, ?_, ?_⟩ <;>
  run_tac do
    let g ← Lean.Elab.Tactic.getMainGoal
    let some (_, _, r) := (← Lean.instantiateMVars (← g.getType)).consumeMData.eq? | throwError "an equation expected"
    g.assign (← Lean.Meta.mkEqRefl r)

/-- **C77** fails for a second call after a left-recursive rule.  On the input `1` the calculator's parser returns from
`expr`; then it is at the end of the input, and neither `expr` nor `s` returns, however deep calls may be nested (`m`) and
however long `LL1Analyzer` may look (`fuel`), with either strategy: the error at the end of the input is not reported, but a panic. -/
theorem C77_false_twice (bail : Bool) (r : Nat) (hr : r < 2) (fuel m : Nat) (hf : 60 ≤ fuel) (hm : 100 ≤ m) :
    callAll (calcWith bail fuel) m [(1, 0), (r, 0)] (Calc.start [1]) = none := by
  obtain ⟨fuel, rfl⟩ : ∃ k, fuel = k + 60 := ⟨fuel - 60, by omega⟩
  obtain ⟨m, rfl⟩ : ∃ k, m = k + 100 := ⟨m - 100, by omega⟩
  obtain ⟨h1, h2, h3, h4⟩ := twice_none fuel m
  obtain rfl | rfl : r = 0 ∨ r = 1 := by omega
  · cases bail
    · exact h3
    · exact h4
  · cases bail
    · exact h1
    · exact h2

set_option synthInstance.maxSize 2000 in
/-- The first call returns; so does a call at the end of the input by a new parser, and the second call if there is no
error, and a call of `expr` at the end of the input after `s`. -/
example : called false [(1, 0)] [1] = some ([some (some 1)], 0) ∧ called false [(1, 0)] [] = some ([some (some 1)], 1) ∧
    called true [(1, 0)] [] = some ([none], 0) ∧
    called false [(1, 0), (1, 0)] [1, 1] = some ([some (some 1), some (some 3)], 0) ∧
    called false [(0, 0), (1, 0)] [1] = some ([some (some 0), some (some 4)], 1) := by decide +kernel

end Antlr.GenProps
