import Verif.Gen.Stale

/-!
# C77 fails for left-recursive rules with the default strategy

`sync` remembers the context it was called in when the next token cannot follow but the rule may end
(src/error_strategy.rs:466-484); later errors are reported with the tokens expected there, for which
`ATN::get_expected_tokens` goes from context to context and takes the call each was made by from its invoking state
(src/atn.rs:141-174).  `push_new_recursion_context` in between gives a context the start state of its rule as invoking
state (src/parser.rs:605-624): the transition found there is no `RuleTransition`, and `cast` panics.
-/

namespace Antlr.StaleProps
open Antlr Gen Stale Prediction

/-- Both sides are the same by computation; the tactic hands this to the kernel, which is quicker than the elaborator. -/
theorem stale_none (fuel m : Nat) (q : Int) :
    runRule (cfg CTS false (fuel + 60)) (m + 100) 0 q (start [1, 2, 3, 1, 2, 1]) = none := by
  run_tac do
    let g ← Lean.Elab.Tactic.getMainGoal
    let some (_, _, r) := (← g.getType).eq? | throwError "an equation expected"
    g.assign (← Lean.Meta.mkEqRefl r)

/-- **C77** fails for left-recursive rules: on `1 * x 1 * 1` the parser for
`s : e EOF ;  e : e '*' q | NUM ;  q : 'x' ('a' | ) ;` with the default strategy does not return, however deep calls may be nested (`m`) and however long
`LL1Analyzer` may look (`fuel`).  The first `q` fails at the second number, `sync` having remembered its context; the loop of `e`
goes on with the second `*` and gives the context of the first `q`'s caller the start state of `e` as invoking state; the second `q`
fails, and its error message asks for the tokens expected in the context remembered. -/
theorem C77_false_leftrec (fuel m : Nat) (q : Int) (hf : 60 ≤ fuel) (hm : 100 ≤ m) :
    runRule (cfg CTS false fuel) m 0 q (start [1, 2, 3, 1, 2, 1]) = none := by
  obtain ⟨fuel, rfl⟩ : ∃ k, fuel = k + 60 := ⟨fuel - 60, by omega⟩
  obtain ⟨m, rfl⟩ : ∃ k, m = k + 100 := ⟨m - 100, by omega⟩
  exact stale_none fuel m q

/-- What a run gives: the context, the number of errors. -/
def ran (bail : Bool) (ts : List Nat) : Option (Option (Option Nat) × Nat) :=
  (runRule (cfg CTS bail 60) 100 0 0 (start ts)).map fun x => (x.1.toOption, x.2.es.p.syntaxErrors)

set_option synthInstance.maxSize 2000 in
/-- The same parser with the same bounds returns on a correct input, on inputs with one of the two errors, and, with the
bail strategy, on the input above. -/
example : ran false [1, 2, 3, 4, 2, 3] = some (some (some 0), 0) ∧ ran false [1, 2, 3, 1, 2, 3] = some (some (some 0), 1) ∧
    ran false [1, 2, 3, 4, 2, 1] = some (some (some 0), 1) ∧ ran true [1, 2, 3, 1, 2, 1] = some (none, 1) := by
  decide +kernel

end Antlr.StaleProps
