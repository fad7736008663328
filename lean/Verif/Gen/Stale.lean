import Verif.Gen.Sim
import Verif.Prediction.InputProps

/-!
# A grammar with a left-recursive rule

`s : e EOF ;  e : e '*' q | NUM ;  q : 'x' ('a' | ) ;`
Token types: NUM 1, '*' 2, 'x' 3, 'a' 4.  Automaton and rule functions are what the code generator writes for it (compare
tests/gen/simplelrparser.rs for the rule with one operator and tests/gen/csvparser.rs for `LL1AltBlock`).
-/

namespace Antlr.Gen.Stale
open Antlr Prediction PredictionMode PredictionProps

def st (rule n : Nat) (ty : StateType) (trans : List Trans) : ATNState :=
  trans.foldl ATNState.addTransition { ruleIndex := rule, stateNumber := n, stateType := ty }

def atn : ATN where
  grammarType := .parser
  maxTokenType := 4
  decisionToState := [17, 23]
  ruleToStartState := [0, 2, 4]
  ruleToStopState := [1, 3, 5]
  states := [
    st 0 0 (.ruleStart 1 false) [.epsilon 6 0],
    st 0 1 .ruleStop [],
    st 1 2 (.ruleStart 3 true) [.epsilon 9 0],
    st 1 3 .ruleStop [.epsilon 7 1],
    st 2 4 (.ruleStart 5 false) [.epsilon 20 0],
    st 2 5 .ruleStop [.epsilon 16 (-1)],
    st 0 6 .basic [.rule 2 7 1 0],
    st 0 7 .basic [.atom 8 (-1)],
    st 0 8 .basic [.epsilon 1 0],
    st 1 9 .basic [.action 10 false 1 (-1) 0],
    st 1 10 .basic [.atom 11 1],
    st 1 11 .basic [.epsilon 17 0],
    st 1 12 .basic [.precedence 13 2],
    st 1 13 .basic [.atom 14 2],
    st 1 14 .basic [.rule 4 16 2 0],
    st 1 15 (.decision (-1) false (.blockStart 16 .star)) [.epsilon 12 0],
    st 1 16 (.blockEnd 15) [.epsilon 19 0],
    st 1 17 (.decision 0 false (.starLoopEntry 19 true)) [.epsilon 15 0, .epsilon 18 0],
    st 1 18 (.loopEnd 19) [.epsilon 3 0],
    st 1 19 .starLoopback [.epsilon 17 0],
    st 2 20 .basic [.atom 23 3],
    st 2 21 .basic [.atom 24 4],
    st 2 22 .basic [.epsilon 24 0],
    st 2 23 (.decision 1 false (.blockStart 24 .basic)) [.epsilon 21 0, .epsilon 22 0],
    st 2 24 (.blockEnd 23) [.epsilon 5 0]]

def rules : List RuleFn := [
  .plain 0 none [⟨none, .seq (.call 6 1 0) (.tok 7 TOKEN_EOF)⟩],
  .recursive 2 none [⟨none, .tok 10 1⟩] 17 19 (.predict 0) none [⟨none, 12, 2, .seq (.tok 13 2) (.call 14 2 0)⟩],
  .plain 4 none [⟨none, .seq (.tok 20 3) (.block 23 (.look [[4], [-1, 2]] none) [.tok 21 4, .nop])⟩]]

def sim (I : Type) : Sim I where
  atn := atn
  mode := .LL
  sempred := fun _ _ _ _ _ => true
  ord := id
  hash := fun _ => 0

def env (I : Type) (fuel : Nat) : EEnv I where
  atn := atn
  fuel := fuel
  display := fun _ => "x"
  ruleNames := ["s".toList, "e".toList, "q".toList]
  rangeText := fun _ _ _ => some []

/-- The parser with the default or the bail strategy. -/
def cfg (I : Type) [TokStream I] (bail : Bool) (fuel : Nat) : Cfg I SimState where
  env := env I fuel
  bail := bail
  guards := fun _ _ => true
  predict := (sim I).predict
  rules := rules

/-- A new parser for the tokens of these types. -/
def start (ts : List Nat) : GS CTS SimState where
  es := ⟨{}, P.new (CTS.withChannel (exSource ts) 0)⟩
  sim := ⟨(emptyDfas atn).getD [], []⟩

end Antlr.Gen.Stale
