import Verif.Prediction.Spec

/-!
# Automata on which prediction returns

Conditions on the automaton besides `Plain`: it has no loop without reading, each rule has one end, and no state
calls a rule and reads.
-/

namespace Antlr.PredictionSpec
open Antlr LL1Spec

/-- A step that reads no token, with EOF taken to be there to be read. -/
def Idle (atn : ATN) (p q : Pos) : Prop := Step atn p q ∨ ReadStep atn TOKEN_EOF p q

/-- `n` steps in a row without reading a token can be made from `p`. -/
def Chain (atn : ATN) : Nat → Pos → Prop
  | 0, _ => True
  | n + 1, p => ∃ q, Idle atn p q ∧ Chain atn n q

/-- There is no loop without reading, nor left recursion: `n` such steps in a row are too much, whatever
the state. -/
def NoLoop (atn : ATN) (n : Nat) : Prop := ∀ s, ¬ Chain atn n (s, [])

/-- No rule has two ends. -/
def OneStop (atn : ATN) : Prop :=
  ∀ (s s' : Nat) (st st' : ATNState), atn.states[s]? = some st → atn.states[s']? = some st' →
    st.stateType = .ruleStop → st'.stateType = .ruleStop → st.ruleIndex = st'.ruleIndex → s = s'

/-- A state that calls a rule does not read tokens as well. -/
def Unmixed (atn : ATN) : Prop :=
  ∀ (s : Nat) (st : ATNState), atn.states[s]? = some st → ∀ t f r p, Trans.rule t f r p ∈ st.transitions →
    ∀ tr ∈ st.transitions, tr.isEpsilon = true

end Antlr.PredictionSpec
