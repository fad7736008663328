import Verif.Gen.Sim
import Verif.Prediction.InputProps

/-!
# A parser of the repository: tests/gen/visitorcalcparser.rs

`s : expr EOF ;  expr : INT # number | expr (MUL | DIV) expr # multiply | expr (ADD | SUB) expr # add ;`
(grammars/VisitorCalc.g4).  Token types: INT 1, MUL 2, DIV 3, ADD 4, SUB 5, WS 6.
-/

namespace Antlr.Gen.Calc
open Antlr Prediction PredictionMode PredictionProps

/-- `_serializedATN`, tests/gen/visitorcalcparser.rs:915-927 -/
def serialized : List Nat := [
  3, 24715, 42794, 33075, 47597, 16764, 15335, 30598, 22884, 3, 8, 24, 4, 2, 9, 2, 4, 3, 9, 3, 3, 2, 3, 2,
  3, 2, 3, 3, 3, 3, 3, 3, 3, 3, 3, 3, 3, 3, 3, 3, 3, 3, 3, 3, 7, 3, 19, 10,
  3, 12, 3, 14, 3, 22, 11, 3, 3, 3, 2, 3, 4, 4, 2, 4, 2, 4, 3, 2, 4, 5, 3, 2,
  6, 7, 2, 23, 2, 6, 3, 2, 2, 2, 4, 9, 3, 2, 2, 2, 6, 7, 5, 4, 3, 2, 7, 8,
  7, 2, 2, 3, 8, 3, 3, 2, 2, 2, 9, 10, 8, 3, 1, 2, 10, 11, 7, 3, 2, 2, 11, 20,
  3, 2, 2, 2, 12, 13, 12, 4, 2, 2, 13, 14, 9, 2, 2, 2, 14, 19, 5, 4, 3, 5, 15, 16,
  12, 3, 2, 2, 16, 17, 9, 3, 2, 2, 17, 19, 5, 4, 3, 4, 18, 12, 3, 2, 2, 2, 18, 15,
  3, 2, 2, 2, 19, 22, 3, 2, 2, 2, 20, 18, 3, 2, 2, 2, 20, 21, 3, 2, 2, 2, 21, 5,
  3, 2, 2, 2, 22, 20, 3, 2, 2, 2, 4, 18, 20]

/-- `_ATN`, tests/gen/visitorcalcparser.rs:903-904 -/
def atn : ATN := (Deserial.deserialize serialized).getD { grammarType := .parser, maxTokenType := 0 }

/-- Labels: 0 number, 1 multiply, 2 add. -/
def rules : List RuleFn := [
  -- `s`, tests/gen/visitorcalcparser.rs:362-393
  .plain 0 none [⟨none, .seq (.call 4 1 0) (.tok 5 TOKEN_EOF)⟩],
  -- `expr_rec`, tests/gen/visitorcalcparser.rs:760-899
  .recursive 2 none [⟨some 0, .tok 8 1⟩] 18 20 (.predict 1) (some (16, .predict 0))
    [⟨some 1, 10, 2, .seq (.set 11 [2, 3] false) (.call 12 1 3)⟩,
     ⟨some 2, 13, 1, .seq (.set 14 [4, 5] false) (.call 15 1 2)⟩]]

def sim (I : Type) : Sim I where
  atn := atn
  mode := .LL
  sempred := fun _ _ _ _ _ => true
  ord := id
  hash := fun _ => 0

def env (I : Type) : EEnv I where
  atn := atn
  fuel := 60
  display := fun _ => "x"
  ruleNames := ["s".toList, "expr".toList]
  rangeText := fun _ _ _ => some []

/-- The parser with the default or the bail strategy. -/
def cfg (I : Type) [TokStream I] (bail : Bool) : Cfg I SimState where
  env := env I
  bail := bail
  guards := fun _ _ => true
  predict := (sim I).predict
  rules := rules

/-- A new parser for the tokens of these types. -/
def start (ts : List Nat) : GS CTS SimState where
  es := ⟨{}, P.new (CTS.withChannel (exSource ts) 0)⟩
  sim := ⟨(emptyDfas atn).getD [], []⟩

end Antlr.Gen.Calc
