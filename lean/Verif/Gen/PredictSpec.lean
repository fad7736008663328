import Verif.Gen.PathSpec
import Verif.Gen.Sim
import Verif.Prediction.Verdict

/-! # Choices by `adaptive_predict` -/

namespace Antlr.GenSpec
open Antlr Gen Prediction PredictionSpec

/-- A prediction for a decision of rule `r`. -/
def IsPredict (atn : ATN) (r : Nat) (ch : Choice) : Prop :=
  ∃ d a dec, ch = .predict d ∧ atn.decisionToState[d]? = some a ∧ Decision atn a dec ∧ dec.ruleIndex = r

/-- What predictions answer if the next token is of type `t`: an alternative that can begin with it, or that can get to the
end of the rule without a token. -/
def Begun (atn : ATN) (d : Nat) (t k : Int) : Prop :=
  ∃ a dec, atn.decisionToState[d]? = some a ∧ atn.states[a]? = some dec ∧ Begins atn dec t k

end Antlr.GenSpec

namespace Antlr.Gen
open Antlr Prediction

/-- The parser that gives up, with an error, where it would make a prediction with a DFA of more than `B` states. -/
def Cfg.upto {I : Type} (C : Cfg I SimState) (B : Nat) : Cfg I SimState :=
  { C with predict := fun m d p σ =>
      if (σ.dfas[d]?).all (fun dfa => decide (dfa.states.length ≤ B)) then C.predict m d p σ
      else some (.error (.other []), p.input, σ) }

end Antlr.Gen
