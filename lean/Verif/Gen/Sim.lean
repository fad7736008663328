import Verif.Gen.Model
import Verif.Prediction.Model
import Verif.Deserializer.Model

/-! # Generated parsers with `ParserATNSimulator` -/

namespace Antlr.Gen
open Antlr Prediction PredictionMode

/-- What `ParserATNSimulator` keeps from call to call: `_decision_to_DFA` (shared by all parsers of
the grammar), and what was reported to listeners about ambiguities. -/
structure SimState where
  dfas : List DFA
  reports : List Report := []

section
variable {I : Type} [TokStream I]

/-- What is fixed: the ATN, the prediction mode, user predicates, and the order and hash of the hash
maps. -/
structure Sim (I : Type) where
  atn : ATN
  mode : PredictionMode
  sempred : P I → I → Bool → Int → Int → Bool
  ord : List SC → List SC
  hash : ConfigSet → Nat

/-- What `adaptive_predict` reads from the parser: src/parser_atn_simulator.rs:162-176 (the outer
context and the precedence), with the invoking states read by
`PredictionContext::from_rule_context`, src/prediction_context.rs:520-545. -/
def Sim.params (M : Sim I) (p : P I) (outer : List Int) : Params I where
  atn := M.atn
  mode := M.mode
  sempred := M.sempred p
  prec := p.precStack.getLast?.getD (-1)
  outer := outer
  ord := M.ord
  hash := M.hash

/-- `interpreter.adaptive_predict(decision, recog)`, src/parser_atn_simulator.rs:162-236; the error is
made by `no_viable_alt`, 1386-1401.  The fuel bounds both the loops and the recursion of `closure`. -/
def Sim.predict (M : Sim I) (m d : Nat) (p : P I) (σ : SimState) :
    Option (Except PErr Int × I × SimState) :=
  p.ctx.bind fun c => (P.chainFrom p.heap p.heap.length (some c)).bind fun outer =>
    (σ.dfas[d]?).bind fun dfa => (adaptivePredict (M.params p outer) m m dfa p.input).bind fun r =>
      let σ' : SimState := ⟨σ.dfas.set d r.dfa, σ.reports ++ r.reports⟩
      match r.out with
      | .alt k => some (.ok k, r.inp, σ')
      | .noAlt start offending => (noAltNew p start.toOwned offending.toOwned).map fun e =>
          (.error e, r.inp, σ')

/-- `_decision_to_DFA` of a new grammar, templates/Rust.stg:1418-1425 -/
def emptyDfas (atn : ATN) : Option (List DFA) :=
  ((List.range atn.decisionToState.length).mapM fun (d : Nat) =>
    (atn.decisionToState[d]?).bind fun s => DFA.new atn s (d : Nat))

end
end Antlr.Gen
